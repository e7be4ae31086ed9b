import Verif.Model.Elliptic
import Verif.Model.VortexLine
import Verif.Model.VortexDoublet

/-!
# Model of `wiz/VortexCylinder.py`

Control points are finite reals, radii and regularisation parameters finite reals, strengths
`Num`.  Arrays of control points (of any shape) are flattened to lists: the functions are *not*
elementwise, because `ellipticPiCarlson` is called on the whole batch of regular points and
stops its iterations when the worst entry has converged.
-/
namespace Wiz
noncomputable section
open Classical

/-- `Iz`, the axis mask.  Models wiz/VortexCylinder.py:105. -/
def vcAxis (R r : ℝ) : Prop := r < 1e-7 * R

/-- `IR`, the rotor-edge mask.  Models wiz/VortexCylinder.py:109. -/
def vcEdge (R r z : ℝ) : Prop :=
  Num.abs (.fin (r - R)) / .fin R < .fin (1e-8) ∧ Num.abs (.fin z / .fin R) < .fin (1e-8)

/-- `epsilon2`: no regularisation when `z<0`.  Models wiz/VortexCylinder.py:123-124. -/
def vcEps2 (eps z : ℝ) : ℝ := if z < 0 then 0 else eps^2

/-- `k_2` (before clipping).  Models wiz/VortexCylinder.py:119-126. -/
def vcK2 (R eps r z : ℝ) : Num :=
  if eps = 0 then 4 * .fin r * .fin R / ((.fin R + .fin r)^2 + (.fin z)^2)
  else 4 * .fin r * .fin R / ((.fin R + .fin r)^2 + (.fin z)^2 + .fin (vcEps2 eps z))

/-- `k0_2`.  Models wiz/VortexCylinder.py:119-126. -/
def vcK02 (R eps r z : ℝ) : Num :=
  if eps = 0 then 4 * .fin r * .fin R / ((.fin R + .fin r)^2)
  else 4 * .fin r * .fin R / ((.fin R + .fin r)^2 + .fin (vcEps2 eps z))

/-- `k_2[k_2>1]=1`.  Models wiz/VortexCylinder.py:131. -/
def clip1 (k2 : Num) : Num := if 1 < k2 then 1 else k2

/-- `T1`.  Models wiz/VortexCylinder.py:140-147. -/
def vcT1 (R eps r z : ℝ) : Num :=
  let T1 : Num := if r < R then 1 else if r = R then 1/2 else 0
  if eps ≠ 0 ∧ 0 ≤ z then
    1/2 * (1 + .fin (R - r) * Num.sqrt (1 + .fin (eps^2) / (.fin R + .fin r)^2)
      / Num.sqrt ((.fin R - .fin r)^2 + .fin (eps^2)))
  else T1

/-- The closed form at one regular point, given the value `PI` returned there by
`ellipticPiCarlson`: `(ur,uz)`.  Models wiz/VortexCylinder.py:127-148. -/
def vcRegular (gamma_t : Num) (R eps r z : ℝ) (PI : Num) : Num × Num :=
  let k_2 := vcK2 R eps r z
  let k := Num.sqrt k_2
  let EE := ellipe k_2
  let KK := ellipk k_2
  let k_2 := clip1 k_2
  let PI := if Num.Eqv PI .pinf then 0 else PI
  let PI := if r = R then 0 else PI
  let KK := if Num.Eqv KK .pinf then 0 else KK
  let T1 := vcT1 R eps r z
  (-gamma_t / (2 * .fin Real.pi) * Num.sqrt (.fin R / .fin r) * ((2 - k_2) / k * KK - 2 / k * EE),
   gamma_t / 2 * (T1 + .fin z * k / (2 * .fin Real.pi * Num.sqrt (.fin r * .fin R))
     * (KK + (.fin R - .fin r) / (.fin R + .fin r) * PI)))

/-- The value stored at a point that is not regular: the edge value overrides the axis value,
and the `nan` placeholder would survive anywhere else.  Models wiz/VortexCylinder.py:101-111. -/
def vcSpecial (gamma_t : Num) (R r z : ℝ) : Num × Num :=
  if vcEdge R r z then (0, gamma_t / 4)
  else if vcAxis R r then
    (0, gamma_t / 2 * (1 + .fin z / Num.sqrt ((.fin z)^2 + (.fin R)^2)))
  else (.nan, .nan)

/-- `vc_tang_u(Xcp,Ycp,Zcp,gamma_t,R,polar_out=True,epsilon)`: one `(ur,uz)` per control point.
Models wiz/VortexCylinder.py:66-150. -/
def vcTangPolar (pts : List (V3 ℝ)) (gamma_t : Num) (R eps : ℝ) : List (Num × Num) :=
  let rz := pts.map fun p => (polarR p.x p.y, p.z)
  let bnIz : ℝ × ℝ → Prop := fun q => ¬ (vcAxis R q.1 ∨ vcEdge R q.1 q.2)
  let reg := rz.filter fun q => bnIz q
  let PI := ellipticPiCarlson (reg.map fun q => (vcK02 R eps q.1 q.2, clip1 (vcK2 R eps q.1 q.2)))
  scatter bnIz (fun q => vcSpecial gamma_t R q.1 q.2) rz
    (List.zipWith (fun q pi => vcRegular gamma_t R eps q.1 q.2 pi) reg PI)

/-- `ux=ur*cos(psi); uy=ur*sin(psi)` with `psi=arctan2(Ycp,Xcp)`.
Models wiz/VortexCylinder.py:152-155 (and 55-58, 337-340). -/
def polarToCart (p : V3 ℝ) (u : Num × Num) : V3 Num :=
  let psi := arctan2 p.y p.x
  ⟨u.1 * .fin (Real.cos psi), u.1 * .fin (Real.sin psi), u.2⟩

/-- `vc_tang_u(...,polar_out=False)`.  Models wiz/VortexCylinder.py:66-155. -/
def vcTang (pts : List (V3 ℝ)) (gamma_t : Num) (R eps : ℝ) : List (V3 Num) :=
  List.zipWith polarToCart pts (vcTangPolar pts gamma_t R eps)

/-- `bCut`.  Models wiz/VortexCylinder.py:42. -/
def vcCut (R rCut : ℝ) (p : V3 ℝ) : Prop :=
  rCut * R < Real.sqrt (polarR p.x p.y ^ 2 + p.z ^ 2)

/-- `vc_tang_u_doublet(...,polar_out=True)`: the cylinder within `r_bar_Cut` radii of the origin,
the doublet line beyond.  An exception of `doublet_line_polar_u` (negative radius) would
propagate; it is kept as the `nan` placeholder here and proved not to occur (radii are
non-negative).  Models wiz/VortexCylinder.py:24-53. -/
def vcTangDoubletPolar (pts : List (V3 ℝ)) (gamma_t : Num) (R rCut : ℝ) : List (Num × Num) :=
  let dmz_dz := gamma_t * (.fin R)^2 * .fin Real.pi
  scatter (fun p => ¬ vcCut R rCut p)
    (fun p => match doubletLinePolarU (polarR p.x p.y) p.z dmz_dz with
      | .ok u => u
      | .error _ => (.nan, .nan))
    pts
    (vcTangPolar (pts.filter fun p => ¬ vcCut R rCut p) gamma_t R 0)

/-- `vc_tang_u_doublet(...,polar_out=False)`.  Models wiz/VortexCylinder.py:54-61. -/
def vcTangDoublet (pts : List (V3 ℝ)) (gamma_t : Num) (R rCut : ℝ) : List (V3 Num) :=
  List.zipWith polarToCart pts (vcTangDoubletPolar pts gamma_t R rCut)

/-- `cylinder_tang_semi_inf_u_raw`: no special handling at all.
Models wiz/VortexCylinder.py:201-219. -/
def cylinderTangSemiInfRaw (pts : List (V3 ℝ)) (gamma_t : Num) (R : ℝ) : List (Num × Num) :=
  let rz := pts.map fun p => (polarR p.x p.y, p.z)
  let PI := ellipticPiCarlson (rz.map fun q => (vcK02 R 0 q.1 q.2, vcK2 R 0 q.1 q.2))
  List.zipWith (fun q PI =>
    let r : Num := .fin q.1
    let z : Num := .fin q.2
    let RN : Num := .fin R
    let k_2 := vcK2 R 0 q.1 q.2
    let k := Num.sqrt k_2
    let EE := ellipe k_2
    let KK := ellipk k_2
    let T1 := (RN - r + Num.abs (RN - r)) / (2 * Num.abs (RN - r))
    (-gamma_t / (2 * .fin Real.pi) * (Num.sqrt (RN / r) * ((2 - k_2) / k * KK - 2 / k * EE)),
     gamma_t / 2 * (T1 + z * k / (2 * .fin Real.pi * Num.sqrt (r * RN)) * (KK + (RN - r) / (RN + r) * PI))))
    rz PI

/-- `cylinder_tang_u(...,polar_out=True)`: cylinder extending from `z1` to `z2` (the parameter
`epsilon` is not used by the code).  Models wiz/VortexCylinder.py:290-335. -/
def cylinderTangPolar (pts : List (V3 ℝ)) (gamma_t : Num) (R z1 z2 : ℝ) : List (Num × Num) :=
  let rz := pts.map fun p => (polarR p.x p.y, p.z)
  let PI1 := ellipticPiCarlson (rz.map fun q => (vcK02 R 0 q.1 (q.2 - z1), vcK2 R 0 q.1 (q.2 - z1)))
  let PI2 := ellipticPiCarlson (rz.map fun q => (vcK02 R 0 q.1 (q.2 - z2), vcK2 R 0 q.1 (q.2 - z2)))
  List.zipWith (fun q (PI : Num × Num) =>
    let r : Num := .fin q.1
    let RN : Num := .fin R
    let zz1 : Num := .fin (q.2 - z1)
    let zz2 : Num := .fin (q.2 - z2)
    let k1_2 := vcK2 R 0 q.1 (q.2 - z1)
    let k2_2 := vcK2 R 0 q.1 (q.2 - z2)
    let k1 := Num.sqrt k1_2
    let k2 := Num.sqrt k2_2
    let EE1 := ellipe k1_2
    let KK1 := ellipk k1_2
    let EE2 := ellipe k2_2
    let KK2 := ellipk k2_2
    (gamma_t / (2 * .fin Real.pi) * Num.sqrt (RN / r) *
      (((2 - k2_2) / k2 * KK2 - 2 / k2 * EE2) - ((2 - k1_2) / k1 * KK1 - 2 / k1 * EE1)),
     -gamma_t / (4 * .fin Real.pi * Num.sqrt (r * RN)) *
      (zz2 * k2 * (KK2 + (RN - r) / (RN + r) * PI.2) - zz1 * k1 * (KK1 + (RN - r) / (RN + r) * PI.1))))
    rz (List.zip PI1 PI2)

/-- `cylinder_tang_u(...,polar_out=False)`.  Models wiz/VortexCylinder.py:290-340. -/
def cylinderTang (pts : List (V3 ℝ)) (gamma_t : Num) (R z1 z2 : ℝ) : List (V3 Num) :=
  List.zipWith polarToCart pts (cylinderTangPolar pts gamma_t R z1 z2)

/-- A control point in polar coordinates. -/
structure PolarPt where
  r : ℝ
  psi : ℝ
  z : ℝ

/-- `u_psi` of `vc_longi_u_polar` on a batch.  Models wiz/VortexCylinder.py:168-175. -/
def vcLongiUpsi (pts : List PolarPt) (gamma_l : Num) (R : ℝ) : List Num :=
  let m : PolarPt → Num := fun q => 4 * .fin q.r * .fin R / ((.fin q.r + .fin R)^2 + (.fin q.z)^2)
  let m0 : PolarPt → Num := fun q => 4 * .fin q.r * .fin R / ((.fin q.r + .fin R)^2)
  let PI := ellipticPiCarlson (pts.map fun q => (m0 q, m q))
  List.zipWith (fun q PI =>
    let vr : Num := .fin q.r
    let RN : Num := .fin R
    let K := ellipk (m q)
    let Ar := (vr - RN + Num.abs (RN - vr)) / (2 * Num.abs (RN - vr))
    let Az := .fin q.z * Num.sqrt (m q) / (2 * .fin Real.pi * Num.sqrt (vr * RN))
      * (K - (RN - vr) / (RN + vr) * PI)
    gamma_l / 2 * RN / vr * (Ar + Az)) pts PI

/-- `vc_longi_u_polar(vr,vpsi,vz,gamma_l,R,polar_out)`: `(u_r,u_psi,u_z)` if `polar_out`, else
`(u_x,u_y,u_z)`.  Models wiz/VortexCylinder.py:155-183. -/
def vcLongiPolar (pts : List PolarPt) (gamma_l : Num) (R : ℝ) (polar_out : Bool) : List (V3 Num) :=
  List.zipWith (fun q u_psi =>
    if polar_out then ⟨0, u_psi, 0⟩
    else ⟨-u_psi * .fin (Real.sin q.psi), u_psi * .fin (Real.cos q.psi), 0⟩) pts (vcLongiUpsi pts gamma_l R)

/-- `vc_longi_u`.  Models wiz/VortexCylinder.py:185-196. -/
def vcLongi (pts : List (V3 ℝ)) (gamma_l : Num) (R : ℝ) (polar_out : Bool) : List (V3 Num) :=
  vcLongiPolar (pts.map fun p => ⟨polarR p.x p.y, arctan2 p.y p.x, p.z⟩) gamma_l R polar_out

/-- `vc_root_u`.  Models wiz/VortexCylinder.py:198-199. -/
def vcRoot (pts : List (V3 ℝ)) (Gamma_r : Num) (polar_out : Bool) : List (V3 Num) :=
  pts.map fun p => vlSemiinfStraight p Gamma_r polar_out

/-- One main cylinder: rotor centre and concentric cylinders `(gamma,R)`.  The arrays `gamma`
and `R` of the code have the common shape `(nCyl,nr)`. -/
structure CylGroup where
  pos : V3 ℝ
  cyls : List (Num × ℝ)

/-- `u = u + u1` for arrays of velocities. -/
def addFields (u v : List (V3 Num)) : List (V3 Num) := List.zipWith (· + ·) u v

/-- The inner loop over the concentric cylinders of one group at given relative coordinates:
cylinders with `np.abs(gamma)>0` are added.
Models wiz/VortexCylinder.py:253-263 (and 279-285). -/
def addCyls (kernel : List (V3 ℝ) → Num → ℝ → List (V3 Num)) (rel : List (V3 ℝ)) (cyls : List (Num × ℝ))
    (u : List (V3 Num)) : List (V3 Num) :=
  cyls.foldl (fun u c => if 0 < Num.abs c.1 then addFields u (kernel rel c.1 c.2) else u) u

/-- relative coordinates `Xcp-Xcyl[i]`, `Ycp-Ycyl[i]`, `Zcp-Zcyl[i]`. -/
def relPts (pts : List (V3 ℝ)) (c : V3 ℝ) : List (V3 ℝ) := pts.map fun p => p - c
/-- the same with `YcpMirror = Ycp0+2*Ycyl[i]`. -/
def mirrorPts (pts : List (V3 ℝ)) (c : V3 ℝ) : List (V3 ℝ) :=
  pts.map fun p => ⟨(p - c).x, (p - c).y + 2 * c.y, (p - c).z⟩

/-- `vcs_tang_u`.  Models wiz/VortexCylinder.py:221-264. -/
def vcsTang (pts : List (V3 ℝ)) (groups : List CylGroup) (eps : ℝ) (Ground : Bool) : List (V3 Num) :=
  groups.foldl (fun u g =>
    let u := addCyls (fun q ga R => vcTang q ga R eps) (relPts pts g.pos) g.cyls u
    if Ground then addCyls (fun q ga R => vcTang q ga R eps) (mirrorPts pts g.pos) g.cyls u else u)
    (pts.map fun _ => 0)

/-- `vcs_longi_u` (the argument `Ground` is ignored).  Models wiz/VortexCylinder.py:266-288. -/
def vcsLongi (pts : List (V3 ℝ)) (groups : List CylGroup) (_Ground : Bool) : List (V3 Num) :=
  groups.foldl (fun u g =>
    addCyls (fun q ga R => vcLongi q ga R false) (relPts pts g.pos) g.cyls u)
    (pts.map fun _ => 0)

end
end Wiz
