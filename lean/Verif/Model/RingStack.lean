import Verif.Model.VortexRing

/-!
# Model of the stack of vortex rings used by `wiz` to check its cylinders

The tests and examples of the package replace a (skewed) vortex cylinder by rings at equidistant stations.
-/
namespace Wiz
noncomputable section

/-- The arrays `vGamma_r, vR_r, Xr, Yr, Zr` passed to `rings_u`: rings at `Zr = np.linspace(0,z_max,nRings)`, centred on the
axis of the skewed wake `Xr = tan(chi)*Zr`, of strength `gamma_t*(Zr[1]-Zr[0])/cos(chi)`; `Zr[1]` raises with fewer than two
rings.  Angles are such that `cos(chi)!=0` (real division).
Models wiz/VortexCylinderSkewed.py:624-635, wiz/examples/VortexCylinderSkewed.py:103-112 and (with `chi=0`)
wiz/VortexCylinder.py:577-587. -/
def ringStack (gamma_t R chi z_max : ℝ) (nRings : ℕ) : Except String (List RingSpec) :=
  let Zr := linspace 0 z_max nRings
  match Zr with
  | z0 :: z1 :: _ =>
    let dzeta := (z1 - z0) / Real.cos chi
    .ok (Zr.map fun z => ⟨z * 0 + gamma_t * dzeta, z * 0 + R, ⟨Real.tan chi * z, 0 * z, z⟩⟩)
  | _ => .error "IndexError"

end
end Wiz
