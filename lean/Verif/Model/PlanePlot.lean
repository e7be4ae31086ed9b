import Verif.Model.ColorMap
import Verif.Model.Elliptic
import Verif.Model.SimLines

/-!
# Model of what the plane plots hand to Matplotlib

`plotPlane` and `plotPlaneVert` of wiz/article_blockage/helper_functions.py and `plotPlane` of coupling_examples/helper_functions.py:
the coordinates, values, mask, colour limits and streamline seeds given to `pcolormesh`, `contourf`, `contour` and `streamplot`.  The axes,
line styles, labels and returned figure objects are left out, and so is the drawing itself (external code).
-/
set_option autoImplicit false
namespace Wiz
noncomputable section
open Classical

/-- `Speed.min()` of two entries: `nan` is propagated (external code). -/
def npMinimum (a b : Num) : Num :=
  match a, b with
  | .nan, _ => .nan
  | _, .nan => .nan
  | a, b => if b < a then b else a

/-- `np.amin` of a non-empty array (external code). -/
def npAmin : List Num → Num
  | [] => .nan
  | x :: xs => xs.foldl npMinimum x

/-- `A.ravel()` of an array of `rows` by `cols` (external code). -/
def ravel2 {α : Type} (rows cols : ℕ) (a : ℕ → ℕ → α) : List α := (List.range rows).flatMap fun i => (List.range cols).map fun j => a i j

/-- How the plane is filled: `pcolormesh` without levels, nothing for an empty list of levels, else `contourf`.
Models wiz/article_blockage/helper_functions.py:685-691 and 741-746. -/
inductive Fill where
  | mesh
  | nothing
  | levels (l : List ℝ)

/-- the choice of the filling -/
def Fill.of : Option (List ℝ) → Fill
  | none => .mesh
  | some [] => .nothing
  | some (x :: l) => .levels (x :: l)

/-- What is given to Matplotlib: node `(i,j)` at `(x i j, y i j)` with the value `value i j` (`none`: masked), the colour limits (`none`: left to
Matplotlib), the levels of the lines and the starting points of the streamlines (if any). -/
structure Drawn where
  rows : ℕ
  cols : ℕ
  x : ℕ → ℕ → ℝ
  y : ℕ → ℕ → ℝ
  value : ℕ → ℕ → Option Num
  vmin : Option Num
  vmax : Option Num
  fill : Fill
  lines : Option (List ℝ)
  seeds : Option (List (ℝ × ℝ))

/-- `np.ma.masked_where(np.isnan(Speed), Speed)`.
Models wiz/article_blockage/helper_functions.py:683, 738 and coupling_examples/helper_functions.py:69. -/
def maskNan (S : ℕ → ℕ → Num) (i j : ℕ) : Option Num := if S i j = .nan then none else some (S i j)

/-- The colour limits: both are computed if `minSpeed` is `None` (`ValueError` if the array is empty), else both are the arguments.
Models wiz/article_blockage/helper_functions.py:675-677, 730-732 and coupling_examples/helper_functions.py:63-65. -/
def colourLimits (minSpeed maxSpeed : Option Num) (speeds : List Num) : Except String (Option Num × Option Num) :=
  match minSpeed with
  | some m => .ok (some m, maxSpeed)
  | none => if speeds = [] then .error "ValueError: zero-size array to reduction operation" else .ok (some (npAmin speeds), some (npAmax speeds))

/-- The object given to `plotPlane`: arrays of `rows` by `cols`. -/
structure PlaneData where
  rows : ℕ
  cols : ℕ
  X : ℕ → ℕ → ℝ
  Y : ℕ → ℕ → ℝ
  Z : ℕ → ℕ → ℝ
  U : ℕ → ℕ → Num
  V : ℕ → ℕ → Num
  W : ℕ → ℕ → Num
  O : ℕ → ℕ → Num

/-- The ordinates and in-plane velocities.  Models wiz/article_blockage/helper_functions.py:652-665. -/
def PlaneData.across (d : PlaneData) (Horizontal : Bool) : (ℕ → ℕ → ℝ) × (ℕ → ℕ → Num) :=
  if Horizontal then (d.X, d.U) else (d.Y, d.V)

/-- The values shown.  Models wiz/article_blockage/helper_functions.py:669-674. -/
def PlaneData.speed (d : PlaneData) (component : String) (Horizontal : Bool) : ℕ → ℕ → Num :=
  if component = "Axial" then d.W
  else if component = "Vorticity" then d.O
  else fun i j => Num.sqrt (d.W i j ^ 2 + (d.across Horizontal).2 i j ^ 2)

/-- The starting points of the streamlines.  Models wiz/article_blockage/helper_functions.py:699-705. -/
def planeSeeds (vy : List ℝ) (nStreamlines : ℕ) (Horizontal : Bool) : Except String (List (ℝ × ℝ)) :=
  if Horizontal then
    if vy = [] then .error "ValueError: min() arg is an empty sequence"
    else .ok ((linspace (listMin vy * 0.9) (listMax vy * 0.9) nStreamlines).map fun y => (y * 0 - 4, y))
  else .ok [(-4, -0.5), (-4, 0), (-4, 0.5), (-4, 1.5)]

/-- `plotPlane(data, minSpeed=…, maxSpeed=…, nStreamlines=…, levelsContour=…, levelsLines=…, component=…, Horizontal=…)`; `welib` tells whether the
optional package that defines `streamQuiver` could be imported.  Models wiz/article_blockage/helper_functions.py:18-24 and 651-719. -/
def plotPlane (welib : Bool) (d : PlaneData) (minSpeed maxSpeed : Option Num) (nStreamlines : ℕ) (levelsContour levelsLines : Option (List ℝ))
    (component : String) (Horizontal : Bool) : Except String Drawn :=
  let S := d.speed component Horizontal
  let y := (d.across Horizontal).1
  let vy := npUnique (ravel2 d.rows d.cols y)
  match colourLimits minSpeed maxSpeed (ravel2 d.rows d.cols S) with
  | .error e => .error e
  | .ok (lo, hi) =>
    let out : Drawn := ⟨d.rows, d.cols, d.Z, y, maskNan S, lo, hi, Fill.of levelsContour, levelsLines, none⟩
    if nStreamlines > 0 then
      match planeSeeds vy nStreamlines Horizontal with
      | .error e => .error e
      | .ok s => if welib then .ok { out with seeds := some s } else .error "NameError: name 'streamQuiver' is not defined"
    else .ok out

/-- `plotPlaneVert(Y,Z,V,W, minSpeed=…, maxSpeed=…, levelsContour=…, levelsLines=…, component=…)`: the transposed values are drawn over the sorted distinct
coordinates, whose numbers must be those of the columns and rows (as for `nearest` shading).  Models wiz/article_blockage/helper_functions.py:722-758. -/
def plotPlaneVert (rows cols : ℕ) (Y Z : ℕ → ℕ → ℝ) (V W : ℕ → ℕ → Num) (minSpeed maxSpeed : Option Num) (levelsContour levelsLines : Option (List ℝ))
    (component : String) : Except String Drawn :=
  let vy := npUnique (ravel2 rows cols Y)
  let vz := npUnique (ravel2 rows cols Z)
  let S : ℕ → ℕ → Num := if component = "Axial" then W else fun i j => Num.sqrt (V i j ^ 2 + W i j ^ 2)
  match colourLimits minSpeed maxSpeed (ravel2 rows cols S) with
  | .error e => .error e
  | .ok (lo, hi) =>
    if vz.length = rows ∧ vy.length = cols then
      .ok ⟨cols, rows, fun _ i => vz.getD i 0, fun j _ => vy.getD j 0, fun j i => maskNan S i j, lo, hi, Fill.of levelsContour, levelsLines, none⟩
    else .error "TypeError: incompatible dimensions"

/-- `plotPlane(x,y,u,v,ax, minSpeed=…, maxSpeed=…, nStreamlines=…, levelsLines=…, axial=…)` of the coupling examples: one-dimensional coordinates, values of
shape `(len y, len x)` as required by `pcolormesh`.  Models coupling_examples/helper_functions.py:58-85. -/
def plotPlaneCoupling (x y : List ℝ) (u v : ℕ → ℕ → Num) (minSpeed maxSpeed : Option Num) (nStreamlines : ℕ) (levelsLines : Option (List ℝ)) (axial : Bool) :
    Except String Drawn :=
  let S : ℕ → ℕ → Num := if axial then u else fun i j => Num.sqrt (u i j ^ 2 + v i j ^ 2)
  match colourLimits minSpeed maxSpeed (ravel2 y.length x.length S) with
  | .error e => .error e
  | .ok (lo, hi) =>
    let out : Drawn := ⟨y.length, x.length, fun _ j => x.getD j 0, fun i _ => y.getD i 0, maskNan S, lo, hi, .mesh, levelsLines, none⟩
    if nStreamlines > 0 then
      if y = [] then .error "ValueError: min() arg is an empty sequence"
      else .ok { out with seeds := some ((linspace (listMin y * 0.9) (listMax y * 0.9) nStreamlines).map fun s => (s * 0, s)) }
    else .ok out
end
end Wiz
