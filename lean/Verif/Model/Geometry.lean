import Verif.NumPy

/-!
# Geometry helpers of `wiz/WindTurbine.py`
-/
namespace Wiz
noncomputable section
open Classical

/-- `RotMat_AxisAngle(u,theta)`.  Models wiz/WindTurbine.py:22-30. -/
def rotMatAxisAngle (u : V3 ℝ) (theta : ℝ) : M3 ℝ :=
  let c := Real.cos theta
  let s := Real.sin theta
  { xx := u.x^2*(1-c)+c,        xy := u.x*u.y*(1-c)-u.z*s, xz := u.x*u.z*(1-c)+u.y*s,
    yx := u.y*u.x*(1-c)+u.z*s,  yy := u.y^2*(1-c)+c,       yz := u.y*u.z*(1-c)-u.x*s,
    zx := u.z*u.x*(1-c)-u.y*s,  zy := u.z*u.y*(1-c)+u.x*s, zz := u.z^2*(1-c)+c }

/-- `orth_vect(u)`.  Models wiz/WindTurbine.py:32-43.  The exception is an `Except` value. -/
def orthVect (u0 : V3 ℝ) : Except String (V3 Num) :=
  let n := V3.normN (V3.fin u0)
  let u := V3.sdiv (V3.fin u0) n
  let t : Num := 1 / Num.sqrt 3
  if t ≤ Num.abs u.x then
    let v : V3 Num := ⟨-u.y, u.x, 0⟩
    .ok (V3.sdiv v (V3.normN v))
  else if t ≤ Num.abs u.y then
    let v : V3 Num := ⟨0, -u.z, u.y⟩
    .ok (V3.sdiv v (V3.normN v))
  else if t ≤ Num.abs u.z then
    let v : V3 Num := ⟨u.z, 0, -u.x⟩
    .ok (V3.sdiv v (V3.normN v))
  else .error "Cannot find orthogonal vector to a zero vector"

/-- `transform_T(T_a2b,Xb,Yb,Zb)` at one point: multiplication by the transposed matrix.
Models wiz/WindTurbine.py:45-49. -/
def transformT {α} [Add α] [Mul α] (T : M3 α) (b : V3 α) : V3 α :=
  ⟨T.xx*b.x + T.yx*b.y + T.zx*b.z, T.xy*b.x + T.yy*b.y + T.zy*b.z, T.xz*b.x + T.yz*b.y + T.zz*b.z⟩

/-- `transform(T_a2b,Xa,Ya,Za)` at one point.  Models wiz/WindTurbine.py:50-54. -/
def transform {α} [Add α] [Mul α] (T : M3 α) (a : V3 α) : V3 α :=
  ⟨T.xx*a.x + T.xy*a.y + T.xz*a.z, T.yx*a.x + T.yy*a.y + T.yz*a.z, T.zx*a.x + T.zy*a.y + T.zz*a.z⟩

/-- `WindTurbine.rotor_disk_points(nP)` as the list of its columns.
Models wiz/WindTurbine.py:233-240 (an exception of `orth_vect` propagates). -/
def rotorDiskPoints (R : ℝ) (r_hub e_shaft : V3 ℝ) (nP : ℕ) : Except String (List (V3 Num)) :=
  match orthVect e_shaft with
  | .error e => .error e
  | .ok v =>
    let e_r := V3.smul (Num.fin R) v
    .ok ((linspace 0 (2 * Real.pi) nP).map fun t =>
      V3.fin r_hub + M3.mulVec (M3.fin (rotMatAxisAngle e_shaft t)) e_r)

end
end Wiz
