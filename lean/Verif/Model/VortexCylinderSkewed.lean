import Verif.Model.VortexCylinder
import Mathlib.Analysis.SpecialFunctions.Trigonometric.Arctan

/-!
# Model of `wiz/VortexCylinderSkewed.py`

Control points and radii are finite reals; strengths and `m = tan(chi)` are `Num`.  The loops over
control points of the tangential and longitudinal functions treat each point on its own, so those
functions are modelled at one point; `svc_root_u_polar` looks at the whole batch.
-/
namespace Wiz
noncomputable section
open Classical

/-- `np.arctan`. -/
def Num.arctan : Num → Num
  | .fin a => .fin (Real.arctan a)
  | .pinf => .fin (Real.pi / 2)
  | .ninf => .fin (-(Real.pi / 2))
  | .nan => .nan

/-- `skew_components(u_x,u_z,m)`: `(u_zeta,u_xi)`.  Models wiz/VortexCylinderSkewed.py:24-29. -/
def skewComponents (u_x u_z m : Num) : Num × Num :=
  let coschi := 1 / Num.sqrt (1 + m^2)
  let sinchi := m / Num.sqrt (1 + m^2)
  (u_z * coschi + u_x * sinchi, - u_z * sinchi + u_x * coschi)

/-- `polar_components(u_x,u_y,vpsi)`: `(u_r,u_psi)`.  Models wiz/VortexCylinderSkewed.py:30-33. -/
def polarComponents (u_x u_y : Num) (psi : ℝ) : Num × Num :=
  (u_x * .fin (Real.cos psi) + u_y * .fin (Real.sin psi), - u_x * .fin (Real.sin psi) + u_y * .fin (Real.cos psi))

/-- `vtheta` of `svc_tang_u_polar`.  Models wiz/VortexCylinderSkewed.py:51. -/
def svcTangTheta (ntheta : ℕ) : List ℝ := (linspace 0 (2 * Real.pi) ntheta).map fun t => Real.pi / 2 + t

/-- `np.trapz(f(vtheta),vtheta)` -/
def trapzOf (f : ℝ → Num) (vtheta : List ℝ) : Num := trapz (vtheta.map f) vtheta

/-- `a`.  Models wiz/VortexCylinderSkewed.py:67 and 108. -/
def svcA (q : PolarPt) (R t : ℝ) : Num :=
  .fin R^2 + .fin q.r^2 + .fin q.z^2 - 2 * .fin R * .fin q.r * .fin (Real.cos (t - q.psi))
/-- `b`.  Models wiz/VortexCylinderSkewed.py:68 and 109. -/
def svcB (q : PolarPt) (R : ℝ) (m : Num) (t : ℝ) : Num :=
  2 * m * .fin R * .fin (Real.cos t) - 2 * m * .fin q.r * .fin (Real.cos q.psi) - 2 * .fin q.z
/-- `D`.  Models wiz/VortexCylinderSkewed.py:72 and 112. -/
def svcD (q : PolarPt) (gamma_t : Num) (R : ℝ) (m : Num) (t : ℝ) : Num :=
  2 * gamma_t / (4 * .fin Real.pi) / (Num.sqrt (svcA q R t) * (2 * Num.sqrt (svcA q R t * (1 + m^2)) + svcB q R m t))
/-- The integrand `(ax*sqrt(c)+bx*sqrt(a))*D` for coefficients `ax`, `bx`.
Models wiz/VortexCylinderSkewed.py:74-76 and 114-116. -/
def svcTangTerm (q : PolarPt) (gamma_t : Num) (R : ℝ) (m : Num) (ax bx : Num) (t : ℝ) : Num :=
  (ax * Num.sqrt (1 + m^2) + bx * Num.sqrt (svcA q R t)) * svcD q gamma_t R m t

/-- `svc_tang_u_polar(vr,vpsi,vz,gamma_t,R,m,ntheta,polar_out)` at one control point: `(u_r,u_psi,u_z)`
if `polar_out`, else `(u_x,u_y,u_z)`.  Models wiz/VortexCylinderSkewed.py:38-122. -/
def svcTangPolar (q : PolarPt) (gamma_t : Num) (R : ℝ) (m : Num) (ntheta : ℕ) (polar_out : Bool) : V3 Num :=
  let vtheta := svcTangTheta ntheta
  let u_z := trapzOf (fun t => svcTangTerm q gamma_t R m (.fin R * (.fin R - .fin q.r * .fin (Real.cos (t - q.psi))))
    (.fin R * m * .fin (Real.cos t)) t) vtheta
  if polar_out then
    ⟨trapzOf (fun t => svcTangTerm q gamma_t R m (.fin R * .fin q.z * .fin (Real.cos (t - q.psi))) (- .fin R * .fin (Real.cos (t - q.psi))) t) vtheta,
     trapzOf (fun t => svcTangTerm q gamma_t R m (.fin R * .fin q.z * .fin (Real.sin (t - q.psi))) (- .fin R * .fin (Real.sin (t - q.psi))) t) vtheta,
     u_z⟩
  else
    ⟨trapzOf (fun t => svcTangTerm q gamma_t R m (.fin R * .fin q.z * .fin (Real.cos t)) (- .fin R * .fin (Real.cos t)) t) vtheta,
     trapzOf (fun t => svcTangTerm q gamma_t R m (.fin R * .fin q.z * .fin (Real.sin t)) (- .fin R * .fin (Real.sin t)) t) vtheta,
     u_z⟩

/-- `vtheta` of `svc_longi_u_polar`.  Models wiz/VortexCylinderSkewed.py:138. -/
def svcLongiTheta (ntheta : ℕ) : List ℝ := (linspace 0 (2 * Real.pi) ntheta).map fun t => t + Real.pi / (ntheta : ℝ)

/-- `Den1`, with the dimensionless coordinates `r`, `z`.  Models wiz/VortexCylinderSkewed.py:149 and 164. -/
def svcDen1 (r z : Num) (psi t : ℝ) : Num := Num.sqrt (1 + r^2 + z^2 - 2 * r * .fin (Real.cos (t - psi)))
/-- `Den2`.  Models wiz/VortexCylinderSkewed.py:150 and 165. -/
def svcDen2 (r z : Num) (psi : ℝ) (m : Num) (t : ℝ) : Num :=
  - z + m * .fin (Real.cos t) + Num.sqrt (1 + m^2) * Num.sqrt (1 + r^2 + z^2 - 2 * r * .fin (Real.cos (t - psi))) - m * r * .fin (Real.cos psi)
/-- `DenInv`.  Models wiz/VortexCylinderSkewed.py:151 and 166. -/
def svcDenInv (r z : Num) (psi : ℝ) (gamma_l m : Num) (t : ℝ) : Num :=
  gamma_l / (4 * .fin Real.pi) / (svcDen1 r z psi t * svcDen2 r z psi m t)

/-- `svc_longi_u_polar(vr,vpsi,vz,gamma_l,R,m,ntheta,polar_out)` at one control point; with
`polar_out` the first component is `u_psi` as well (line 156).
Models wiz/VortexCylinderSkewed.py:125-174. -/
def svcLongiPolar (q : PolarPt) (gamma_l : Num) (R : ℝ) (m : Num) (ntheta : ℕ) (polar_out : Bool) : V3 Num :=
  let vtheta := svcLongiTheta ntheta
  let r : Num := .fin q.r / .fin R
  let z : Num := .fin q.z / .fin R
  let sp : Num := .fin (Real.sin q.psi)
  let cp : Num := .fin (Real.cos q.psi)
  let D := svcDenInv r z q.psi gamma_l m
  let u_z := trapzOf (fun t => m * (- .fin (Real.sin t) + r * sp) * D t) vtheta
  if polar_out then
    let u_psi := trapzOf (fun t => (r - m * z * cp - .fin (Real.cos (t - q.psi))) * D t) vtheta
    ⟨u_psi, u_psi, u_z⟩
  else
    ⟨trapzOf (fun t => (.fin (Real.sin t) - r * sp) * D t) vtheta,
     trapzOf (fun t => (- m * z - .fin (Real.cos t) + r * cp) * D t) vtheta,
     u_z⟩

/-- The `u_r` that `svc_longi_u_polar` computes and then discards.  Models wiz/VortexCylinderSkewed.py:152. -/
def svcLongiUr (q : PolarPt) (gamma_l : Num) (R : ℝ) (m : Num) (ntheta : ℕ) : Num :=
  let r : Num := .fin q.r / .fin R
  let z : Num := .fin q.z / .fin R
  trapzOf (fun t => (- m * z * .fin (Real.sin q.psi) + .fin (Real.sin (t - q.psi))) * svcDenInv r z q.psi gamma_l m t) (svcLongiTheta ntheta)

/-- The straight branch (`m==0`) at one point: `u_psi`.  Models wiz/VortexCylinderSkewed.py:198. -/
def svcRootStraight (q : PolarPt) (Gamma_r : Num) : Num :=
  Gamma_r / (4 * .fin Real.pi * .fin q.r) * (1 + .fin q.z / Num.sqrt (.fin q.r^2 + .fin q.z^2))

/-- The half-line branch at one point.  Models wiz/VortexCylinderSkewed.py:206-208
(`vl_semiinf_u` raises nothing for `visc_model=0`). -/
def svcRootLine (q : PolarPt) (Gamma_r m : Num) : V3 Num :=
  let chi := Num.arctan m
  match vlSemiinf ⟨q.r * Real.cos q.psi, q.r * Real.sin q.psi, q.z⟩ ⟨Num.sin chi, 0, Num.cos chi⟩ Gamma_r 0 0 with
  | .ok u => u
  | .error _ => ⟨.nan, .nan, .nan⟩

/-- The rotor-plane branch at one point: `(u_psi,u_z)`.  Models wiz/VortexCylinderSkewed.py:212-220. -/
def svcRootPlane (q : PolarPt) (Gamma_r m : Num) : Num × Num :=
  let coschi := 1 / Num.sqrt (1 + m^2)
  let sinchi := m / Num.sqrt (1 + m^2)
  if 1e-7 < q.r then
    (Gamma_r / (4 * .fin Real.pi * .fin q.r) * (1 / (1 - .fin (Real.cos q.psi) * sinchi) * coschi),
     Gamma_r / (4 * .fin Real.pi * .fin q.r) * (1 / (1 - .fin (Real.cos q.psi) * sinchi) * sinchi * .fin (Real.sin q.psi)))
  else (0, 0)

/-- `(u_x,u_y,u_z)` or `(u_r,u_psi,u_z)` from `u_x`, `u_y`, `u_psi`, `u_z`.
Models wiz/VortexCylinderSkewed.py:223-232. -/
def svcRootOut (q : PolarPt) (polar_out : Bool) (u_x u_y u_psi u_z : Num) : V3 Num :=
  if polar_out then ⟨u_x * .fin (Real.cos q.psi) + u_y * .fin (Real.sin q.psi), u_psi, u_z⟩ else ⟨u_x, u_y, u_z⟩

/-- `svc_root_u_polar(vr,vpsi,vz,Gamma_r,m,polar_out)` on a batch.  The branch depends on
`np.max(np.abs(vz))` of the whole batch; on an empty batch `np.max` raises.
Models wiz/VortexCylinderSkewed.py:176-232. -/
def svcRootPolar (pts : List PolarPt) (Gamma_r m : Num) (polar_out : Bool) : Except String (List (V3 Num)) :=
  if Num.Eqv Gamma_r 0 then .ok (pts.map fun q => ⟨.fin q.r * 0, .fin q.r * 0, .fin q.r * 0⟩)
  else if Num.Eqv m 0 then
    .ok (pts.map fun q =>
      let u_psi := svcRootStraight q Gamma_r
      svcRootOut q polar_out (.fin (- Real.sin q.psi) * u_psi) (.fin (Real.cos q.psi) * u_psi) u_psi 0)
  else if pts = [] then .error "ValueError: zero-size array to reduction operation maximum which has no identity"
  else if ∃ q ∈ pts, q.z ≠ 0 then
    .ok (pts.map fun q =>
      let u := svcRootLine q Gamma_r m
      svcRootOut q polar_out u.x u.y (- u.x * .fin (Real.sin q.psi) + u.y * .fin (Real.cos q.psi)) u.z)
  else
    .ok (pts.map fun q =>
      let u := svcRootPlane q Gamma_r m
      svcRootOut q polar_out (.fin (- Real.sin q.psi) * u.1) (.fin (Real.cos q.psi) * u.1) u.1 u.2)

/-- polar coordinates of a control point.  Models wiz/VortexCylinderSkewed.py:264, 278, 291. -/
def toPolarPt (p : V3 ℝ) : PolarPt := ⟨polarR p.x p.y, arctan2 p.y p.x, p.z⟩

/-- `svc_longi_u`.  Models wiz/VortexCylinderSkewed.py:254-266. -/
def svcLongi (pts : List (V3 ℝ)) (gamma_l : Num) (R : ℝ) (m : Num) (ntheta : ℕ) (polar_out : Bool) : List (V3 Num) :=
  pts.map fun p => svcLongiPolar (toPolarPt p) gamma_l R m ntheta polar_out
/-- `svc_tang_u`.  Models wiz/VortexCylinderSkewed.py:268-280. -/
def svcTang (pts : List (V3 ℝ)) (gamma_t : Num) (R : ℝ) (m : Num) (ntheta : ℕ) (polar_out : Bool) : List (V3 Num) :=
  pts.map fun p => svcTangPolar (toPolarPt p) gamma_t R m ntheta polar_out
/-- `svc_root_u`.  Models wiz/VortexCylinderSkewed.py:282-293. -/
def svcRoot (pts : List (V3 ℝ)) (Gamma_r m : Num) (polar_out : Bool) : Except String (List (V3 Num)) :=
  svcRootPolar (pts.map toPolarPt) Gamma_r m polar_out

/-- `svc_u_polar` (the argument `polar_out` is ignored).  Models wiz/VortexCylinderSkewed.py:234-249. -/
def svcUPolar (pts : List PolarPt) (gamma_t gamma_l Gamma_r : Num) (R : ℝ) (m : Num) (ntheta : ℕ) (_polar_out : Bool) :
    Except String (List (V3 Num)) :=
  let u := pts.map fun q => svcLongiPolar q gamma_l R m ntheta false
  let u := addFields u (pts.map fun q => svcTangPolar q gamma_t R m ntheta false)
  match svcRootPolar pts Gamma_r m false with
  | .ok v => .ok (addFields u v)
  | .error e => .error e

/-- One main skewed cylinder: rotor centre and concentric cylinders `(gamma,R,m)`. -/
structure SkewGroup where
  pos : V3 ℝ
  cyls : List (Num × ℝ × Num)

/-- The inner loop over concentric skewed cylinders.  Models wiz/VortexCylinderSkewed.py:325-334 and 356-365. -/
def addSkewCyls (kernel : List (V3 ℝ) → Num → ℝ → Num → List (V3 Num)) (rel : List (V3 ℝ)) (cyls : List (Num × ℝ × Num))
    (u : List (V3 Num)) : List (V3 Num) :=
  cyls.foldl (fun u c => if 0 < Num.abs c.1 then addFields u (kernel rel c.1 c.2.1 c.2.2) else u) u

/-- `svcs_tang_u`.  Models wiz/VortexCylinderSkewed.py:295-336. -/
def svcsTang (pts : List (V3 ℝ)) (groups : List SkewGroup) (ntheta : ℕ) (Ground : Bool) : List (V3 Num) :=
  groups.foldl (fun u g =>
    let u := addSkewCyls (fun q ga R m => svcTang q ga R m ntheta false) (relPts pts g.pos) g.cyls u
    if Ground then addSkewCyls (fun q ga R m => svcTang q ga R m ntheta false) (mirrorPts pts g.pos) g.cyls u else u)
    (pts.map fun _ => 0)

/-- `svcs_longi_u`: with `Ground` the second pass uses `Ycp0` again instead of the mirrored `Y`
(line 362).  Models wiz/VortexCylinderSkewed.py:338-367. -/
def svcsLongi (pts : List (V3 ℝ)) (groups : List SkewGroup) (ntheta : ℕ) (Ground : Bool) : List (V3 Num) :=
  groups.foldl (fun u g =>
    let u := addSkewCyls (fun q ga R m => svcLongi q ga R m ntheta false) (relPts pts g.pos) g.cyls u
    if Ground then addSkewCyls (fun q ga R m => svcLongi q ga R m ntheta false) (relPts pts g.pos) g.cyls u else u)
    (pts.map fun _ => 0)

/-- `fV_Trailed`, `fV_Tangential` at one point and `fV_Root`: the seven outputs
`(u_z,u_psi,u_x,u_y,u_zeta,u_xi,u_r)` from the Cartesian velocity (the Python functions return the first
`nout` of them; only `u_z` for `nout==1`).  Models wiz/VortexCylinderSkewed.py:379-384, 389-394, 401-406. -/
def fVOutputs (u : V3 Num) (m : Num) (psi : ℝ) (nout : ℕ) : List Num :=
  if nout = 1 then [u.z]
  else
    let s := skewComponents u.x u.z m
    let p := polarComponents u.x u.y psi
    ([u.z, p.2, u.x, u.y, s.1, s.2, p.1] : List Num).take nout

/-- `fV_Trailed`.  Models wiz/VortexCylinderSkewed.py:374-384. -/
def fVTrailed (q : PolarPt) (m gamma_longi : Num) (ntheta nout : ℕ) : List Num :=
  fVOutputs (svcLongiPolar q gamma_longi 1 m ntheta false) m q.psi nout
/-- `fV_Tangential`.  Models wiz/VortexCylinderSkewed.py:386-394. -/
def fVTangential (q : PolarPt) (m gamma_t : Num) (ntheta nout : ℕ) : List Num :=
  fVOutputs (svcTangPolar q gamma_t 1 m ntheta false) m q.psi nout
/-- `fV_Root` on a batch: the outputs of every control point (the Python function returns the transposed
tuple of arrays).  Models wiz/VortexCylinderSkewed.py:396-406. -/
def fVRoot (pts : List PolarPt) (m Gamma_r : Num) (nout : ℕ) : Except String (List (List Num)) :=
  match svcRootPolar pts Gamma_r m false with
  | .ok us => .ok (List.zipWith (fun q u => fVOutputs u m q.psi nout) pts us)
  | .error e => .error e

end
end Wiz
