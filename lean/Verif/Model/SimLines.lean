import Verif.Model.BlockageData
import Mathlib.Data.List.Sort
import Mathlib.Data.Finset.Sort

/-!
# Model of the class `OutputADLines` of `wiz/article_blockage/helper_functions.py`

The object is a dictionary from names to simulation records, loaded from a file (external): here a partial function.
-/
namespace Wiz
noncomputable section
open Classical

/-- One simulation record: hub positions, thrust coefficients and the probe lines (points and velocities); `lines` has one entry per
last index of the arrays `xyz` and `uvw`. -/
structure SimRec where
  xyz_wt : List (V3 ℝ)
  ct_wt : List Num
  lines : List (List (V3 ℝ × V3 Num))

/-- `'{:04.2f}'.format(x)`: two decimals, ties to even (the width 4 is never short; external code). -/
def fmt2f (x : ℝ) : List Char :=
  let k := roundEven (100 * |x|)
  (if x < 0 then ['-'] else []) ++ (Nat.toDigits 10 (k / 100) ++ '.' :: fmt02d (k % 100))

/-- `base='d{:d}_{:s}_ct{:04.2f}_hh{:04.2f}'.format(S,Layout,CT,HH)`.
Models wiz/article_blockage/helper_functions.py:214, 234 and 252. -/
def simKey (S : ℤ) (Layout : List Char) (CT HH : ℝ) : List Char :=
  'd' :: (fmtD S ++ '_' :: (Layout ++ "_ct".toList ++ fmt2f CT ++ "_hh".toList ++ fmt2f HH))

/-- `int(x)` of one piece of the layout (external code; signs, blanks and underscores, which Python also accepts, are taken as errors). -/
def parseNat (s : List Char) : Except String ℕ :=
  if s ≠ [] ∧ s.all Char.isDigit then .ok (Nat.ofDigitChars 10 s 0) else .error "ValueError: invalid literal for int() with base 10"

/-- `shape=[int(x) for x in Layout.split('x')]`.  Models wiz/article_blockage/helper_functions.py:215, 235 and 253. -/
def layoutShape (Layout : List Char) : Except String (List ℕ) := (Layout.splitOn 'x').mapM parseNat

/-- `if Layout=='1x1': S=0`.  Models wiz/article_blockage/helper_functions.py:210-211, 230-231 and 250-251. -/
def simS (Layout : List Char) (S : PyReal) : PyReal := if Layout = "1x1".toList then .int 0 else S

/-- `int(S)`, after the check `int(S)!=S`.  Models wiz/article_blockage/helper_functions.py:212-214 and 232-234. -/
def intS (S : PyReal) : Except String ℤ :=
  match S with
  | .int k => .ok k
  | .flt (.fin x) => if (pyInt x : ℝ) ≠ x then .error "Exception" else .ok (pyInt x)
  | .flt .nan => .error "ValueError: cannot convert float NaN to integer"
  | .flt _ => .error "OverflowError: cannot convert float infinity to integer"

/-- the abscissas and axial velocities of a probe line: `ADFarm['xyz'][:,0,l]`, `ADFarm['uvw'][:,0,l]` -/
def SimRec.line (s : SimRec) (l : ℕ) : Except String (List ℝ × List Num) :=
  match s.lines[l]? with
  | none => .error "IndexError"
  | some L => .ok (L.map fun q => q.1.x, L.map fun q => q.2.x)

/-- `self[base]` -/
def simGet (db : List Char → Option SimRec) (key : List Char) : Except String SimRec :=
  match db key with
  | none => .error "KeyError"
  | some s => .ok s

/-- `OutputADLines.getSim(S,Layout,CT,HH)`.  Models wiz/article_blockage/helper_functions.py:209-227. -/
def getSim (db : List Char → Option SimRec) (S : PyReal) (Layout : List Char) (CT HH : ℝ) : Except String (SimRec × List ℝ × List Num) := do
  let k ← intS (simS Layout S)
  let shape ← layoutShape Layout
  let s ← simGet db (simKey k Layout CT HH)
  if s.ct_wt.length ≠ shape.prod then throw "ValueError: cannot reshape array"
  let mid ← s.line 0
  if Layout ≠ "1x1".toList then
    let _ ← s.line 1
  return (s, mid.1, mid.2)

/-- `OutputADLines.getSimTop(S,Layout,CT,HH)`: for `'1x1'` the names returned are never assigned.
Models wiz/article_blockage/helper_functions.py:229-242. -/
def getSimTop (db : List Char → Option SimRec) (S : PyReal) (Layout : List Char) (CT HH : ℝ) : Except String (SimRec × List ℝ × List Num) := do
  let k ← intS (simS Layout S)
  let _ ← layoutShape Layout
  let s ← simGet db (simKey k Layout CT HH)
  if Layout = "1x1".toList then throw "UnboundLocalError"
  let top ← s.line 1
  return (s, top.1, top.2)

/-- `OutputADLines.get25(S,Layout,CT,HH)` (`np.interp` on an empty line is a `ValueError`).
Models wiz/article_blockage/helper_functions.py:245-247. -/
def get25 (db : List Char → Option SimRec) (S : PyReal) (Layout : List Char) (CT HH : ℝ) : Except String Num := do
  let q ← getSim db S Layout CT HH
  if q.2.1 = [] then throw "ValueError: array of sample points is empty"
  return interp1 (-2.5) (List.zip q.2.1 q.2.2)

/-- `np.unique` (external code): the distinct values in increasing order. -/
def npUnique (l : List ℝ) : List ℝ := l.toFinset.sort (· ≤ ·)

/-- the argument of the format code `d` -/
def codeD (S : PyReal) : Except String ℤ :=
  match S with
  | .int k => .ok k
  | .flt _ => .error "ValueError: Unknown format code 'd' for object of type 'float'"

/-- `OutputADLines.getSimCTs(S,Layout,CT,HH)`: the values `x`, and the array `Cts` as (rows, columns, entries).  A `S` of type `float`
is refused by the format.  Models wiz/article_blockage/helper_functions.py:249-262. -/
def getSimCTs (db : List Char → Option SimRec) (S : PyReal) (Layout : List Char) (CT HH : ℝ) :
    Except String (List Num × ℕ × ℕ × (ℕ → ℕ → Num)) := do
  let k ← codeD (simS Layout S)
  let shape ← layoutShape Layout
  let s ← simGet db (simKey k Layout CT HH)
  match shape with
  | s0 :: s1 :: _ =>
    if s.ct_wt.length ≠ s1 * s0 then throw "ValueError: cannot reshape array"
    let x := if Layout = "1x1".toList then [(0 : Num)] else (npUnique (s.xyz_wt.map V3.x)).map fun x => .fin x / .fin k
    return (x, s1, s0, fun j i => idx s.ct_wt (j * s0 + i))
  | _ => throw "IndexError: list index out of range"

end
end Wiz
