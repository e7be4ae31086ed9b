import Verif.Model.Blockage
import Verif.Model.PrettyTime
import Verif.Model.SimLines

/-!
# Model of `OutputProj` of `wiz/article_blockage/helper_functions.py`

The contents of the file (`np.load`, external) is an arbitrary record: three lists of coordinates and three arrays of shape
`(len x1, len y1, len z1)`.  The interpolants are in Model/Interpolants.lean.
-/
set_option autoImplicit false
namespace Wiz
noncomputable section
open Classical

/-- What the file holds; `x1` is along the wind, `y1` across, `z1` up from the ground, and `u`, `v`, `w` are the velocities along
them at `(x1[i], y1[j], z1[k])`.  Models wiz/article_blockage/helper_functions.py:119-125. -/
structure ProjFile where
  x1 : List ℝ
  y1 : List ℝ
  z1 : List ℝ
  u : ℕ → ℕ → ℕ → ℝ
  v : ℕ → ℕ → ℕ → ℝ
  w : ℕ → ℕ → ℕ → ℝ

/-- The object: `x` (`y` if vertical) and `z` are the axes for the interpolants, `X` (`Y` if vertical), `Z`, `U`, `V`, `W` matrices of
`rows` by `cols`.  Models wiz/article_blockage/helper_functions.py:129-168. -/
structure OutputProj where
  Horizontal : Bool
  rows : ℕ
  cols : ℕ
  x : List ℝ
  z : List ℝ
  X : ℕ → ℕ → ℝ
  Z : ℕ → ℕ → ℝ
  U : ℕ → ℕ → ℝ
  V : ℕ → ℕ → ℝ
  W : ℕ → ℕ → ℝ

/-- `np.rint` (ties to even; external code). -/
def npRint (x : ℝ) : ℤ := if 0 ≤ x then roundEven x else -(roundEven (-x) : ℤ)

/-- `np.round(x,3)` (external code). -/
def npRound3 (x : ℝ) : ℝ := npRint (x * 1000) / 1000

/-- `meshgrid(a,b,indexing='ij')`, raveled: first and second coordinates (external code). -/
def meshIJ (a b : List ℝ) : List ℝ × List ℝ := (a.flatMap fun x => b.map fun _ => x, a.flatMap fun _ => b)

/-- `np.sort(np.unique(np.round(c.ravel(),3)))` (sorting the sorted array again has no effect).
Models wiz/article_blockage/helper_functions.py:135-136 and 148-149. -/
def planeAxis (c : List ℝ) : List ℝ := npUnique (c.map npRound3)

/-- The constructor.  Models wiz/article_blockage/helper_functions.py:109-168 (the file name, which depends on `CT` and the suffix, and the
recorded attributes are left out). -/
def outputProj (d : ProjFile) (HH : ℝ) (Horizontal : Bool) : Except String OutputProj :=
  if Horizontal then
    let g := meshIJ d.x1 d.y1
    match argmin ((d.z1.map fun z => z - HH).map fun z0 => |0 - z0|) with
    | .error e => .error e
    | .ok k => .ok
      { Horizontal := true, rows := d.x1.length, cols := d.y1.length
        x := planeAxis g.2
        z := planeAxis g.1
        X := fun _ j => d.y1.getD j 0
        Z := fun i _ => d.x1.getD i 0
        U := fun i j => d.w i j k
        V := fun i j => d.v i j k
        W := fun i j => d.u i j k }
  else
    let g := meshIJ d.x1 (d.z1.map fun z => z - HH)
    match argmin (d.y1.map fun y => |0 - y|) with
    | .error e => .error e
    | .ok j => .ok
      { Horizontal := false, rows := d.x1.length, cols := d.z1.length
        x := planeAxis g.2
        z := planeAxis g.1
        X := fun _ k => (d.z1.map fun z => z - HH).getD k 0
        Z := fun i _ => d.x1.getD i 0
        U := fun i k => d.w i j k
        V := fun i k => d.v i j k
        W := fun i k => d.u i j k }

/-- `fVert(vy,vz)` (whose arguments are not used): coordinate, axial coordinate and two velocities, matrices.
Models wiz/article_blockage/helper_functions.py:170-174. -/
def OutputProj.fVert (p : OutputProj) (i j : ℕ) : ℝ × ℝ × ℝ × ℝ :=
  if p.Horizontal then (p.X i j, p.Z i j, p.U i j, p.W i j) else (p.X i j, p.Z i j, p.V i j, p.W i j)

end
end Wiz
