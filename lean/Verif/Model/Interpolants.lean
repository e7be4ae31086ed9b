import Verif.Model.ProjData
set_option autoImplicit false

/-!
# Model of the interpolants of the data planes (`wiz/article_blockage/helper_functions.py`)

SciPy's `interp2d` (external) is an arbitrary function `S`: axes, shape and entries of a matrix give an exception or a function of
two coordinates.  `interp2d_pairs` returns a closure that holds its arguments and calls `interp2d` each time it is evaluated.
-/
namespace Wiz
noncomputable section
open Classical

/-- `si.interp2d(x,y,M,kind='cubic')` for a matrix `M` of `r` rows and `c` columns (external code). -/
abbrev Spline := List ℝ → List ℝ → ℕ → ℕ → (ℕ → ℕ → ℝ) → Except String (ℝ → ℝ → Num)

/-- The closure returned by `interp2d_pairs(x,y,M,kind='cubic')`: the arguments it holds.
Models wiz/article_blockage/helper_functions.py:59-68. -/
structure Pairs where
  x : List ℝ
  y : List ℝ
  r : ℕ
  c : ℕ
  M : ℕ → ℕ → ℝ

/-- Evaluation of the closure at pairs of coordinates.  Models wiz/article_blockage/helper_functions.py:63-68. -/
def Pairs.eval (S : Spline) (f : Pairs) (pts : List (ℝ × ℝ)) : Except String (List Num) :=
  match S f.x f.y f.r f.c f.M with
  | .error e => .error e
  | .ok g => .ok (pts.map fun q => g q.1 q.2)

/-- A plane of data and the interpolants set up on it (`None` before `setupInterpolants`): those of `U`, `V` and `W`.
Models the attributes used in wiz/article_blockage/helper_functions.py:176-195 and 335-364. -/
structure PlaneObj where
  p : OutputProj
  f : Option (Pairs × Pairs × Pairs)

/-- `setupInterpolants` (the code of `OutputProj` and of `OutputAD` is the same).
Models wiz/article_blockage/helper_functions.py:176-187 and 335-343. -/
def PlaneObj.setup (o : PlaneObj) : PlaneObj :=
  { o with f := some (⟨o.p.x, o.p.z, o.p.rows, o.p.cols, o.p.U⟩, ⟨o.p.x, o.p.z, o.p.rows, o.p.cols, o.p.V⟩, ⟨o.p.x, o.p.z, o.p.rows, o.p.cols, o.p.W⟩) }

/-- the coordinates handed to an interpolant: `(X,Z)` in a horizontal plane, `(Y,Z)` in a vertical one.
Models wiz/article_blockage/helper_functions.py:190-192, 346-351 and 358-360. -/
def PlaneObj.args (o : PlaneObj) (pts : List (V3 ℝ)) : List (ℝ × ℝ) :=
  pts.map fun q => (if o.p.Horizontal then q.x else q.y, q.z)

/-- `fW(X,Y,Z)` of `OutputProj` and `OutputAD`.  Models wiz/article_blockage/helper_functions.py:189-195 and 357-364. -/
def PlaneObj.fW (S : Spline) (o : PlaneObj) (pts : List (V3 ℝ)) : Except String (List (V3 Num)) :=
  match o.f with
  | none => .error "AttributeError"
  | some (_, _, fw) =>
    match fw.eval S (o.args pts) with
    | .error e => .error e
    | .ok W => .ok (W.map fun w => ⟨w * 0, w * 0, w⟩)

/-- `fU(X,Y,Z)` of `OutputAD`.  Models wiz/article_blockage/helper_functions.py:345-355. -/
def PlaneObj.fU (S : Spline) (o : PlaneObj) (pts : List (V3 ℝ)) : Except String (List (V3 Num)) :=
  match o.f with
  | none => .error "AttributeError"
  | some (fu, fv, fw) =>
    match fw.eval S (o.args pts) with
    | .error e => .error e
    | .ok W =>
      match (if o.p.Horizontal then fu else fv).eval S (o.args pts) with
      | .error e => .error e
      | .ok T => .ok (List.zipWith (fun t w => if o.p.Horizontal then ⟨t, w * 0, w⟩ else ⟨w * 0, t, w⟩) T W)

end
end Wiz
