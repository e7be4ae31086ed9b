import Verif.Model.Blockage

/-!
# Model of the goodness-of-fit helper and the timer strings

`rsquare` of wiz/article_skew/test_Skew_TangentialVorticity.py (and its use in
wiz/article_blockage/helper_functions.py, which imports the same function from another package).
-/
namespace Wiz
noncomputable section
open Classical

/-- The pairs kept by `tmp = not (isnan(y) or isnan(f))`.
Models wiz/article_skew/test_Skew_TangentialVorticity.py:61-63. -/
def notNan (l : List (Num × Num)) : List (Num × Num) := l.filter fun q => decide (q.1 ≠ .nan ∧ q.2 ≠ .nan)

/-- Python's builtin `max(0,v)`: `v` only if `v > 0` is true (so 0 for `nan`). -/
def pyMax0 (v : Num) : Num := if 0 < v then v else 0

/-- `rsquare(y,f,c)` for 1-d arrays; the warning of the last branch is dropped.
Models wiz/article_skew/test_Skew_TangentialVorticity.py:33-73. -/
def rsquare (y f : List Num) (c : Bool) : Except String (Num × Num) :=
  if y.length ≠ f.length then .error "Y and F must be the same size" else
  let q := notNan (List.zip y f)
  let sse := npSum (q.map fun q => (q.1 - q.2)^2)
  let mean := npMean (q.map Prod.fst)
  let r2 := if c then pyMax0 (1 - sse / npSum (q.map fun q => (q.1 - mean)^2))
    else
      let r2 := 1 - sse / npSum (q.map fun q => q.1^2)
      if r2 < 0 then 0 else r2
  let rmse := Num.sqrt (npMean (q.map fun q => (q.1 - q.2)^2))
  .ok (r2, rmse)

/-- `r2induction(X,U1,U2)`, with the `rsquare` above.  Models wiz/article_blockage/helper_functions.py:87-92. -/
def r2Induction (X : List ℝ) (U1 U2 : List Num) : Except String Num :=
  let Xprobe := linspace (-4.99) (-1) 100
  match rsquare (interpAt Xprobe X U1) (interpAt Xprobe X U2) true with
  | .error e => .error e
  | .ok r => .ok r.1

end
end Wiz
