import Verif.NumPy

/-!
# Model of the colour maps of wiz/plotting_functions.py

A colour is a list of components.  The dictionary `cdict` of the code holds one list per component; here the same data
is one row per value, with the colours on both sides of it (`none` stands for the tuple of `None`s).  The rounding of the
tick labels returned by `get_cmap` is not modelled.  Matplotlib itself is external: `cmapValid` is the check it makes on
the data when the map is first used, `cmapAt` is the piecewise-linear colour it assigns (exactly, not on a table of 256
entries).
-/
namespace Wiz
noncomputable section
open Classical

/-- One row of the data of a colour map: position, colour to the left, colour to the right. -/
structure CRow where
  v : ℝ
  left : Option (List ℝ)
  right : Option (List ℝ)

/-- `doubled[k]`: every colour twice, the first and the last entry replaced by `None`s; `IndexError` beyond the end.
Models wiz/plotting_functions.py:32-34. -/
def doubledAt (seq : List (List ℝ)) (k : ℕ) : Except String (Option (List ℝ)) :=
  if k = 0 ∨ k = 2 * seq.length - 1 then .ok none
  else match seq[k / 2]? with
    | some c => .ok (some c)
    | none => .error "IndexError"

/-- `r1, g1, b1(, a1) = …`: the number of components must be `nComp`.  Models wiz/plotting_functions.py:37-42. -/
def unpackColor (nComp : ℕ) (c : Option (List ℝ)) : Except String (Option (List ℝ)) :=
  match c with
  | none => .ok none
  | some l => if l.length = nComp then .ok (some l) else .error "ValueError"

/-- One pass of the loop of `make_colormap`.  Models wiz/plotting_functions.py:36-47. -/
def colorRow (seq : List (List ℝ)) (nComp i : ℕ) (v : ℝ) : Except String CRow :=
  match doubledAt seq (2 * i) with
  | .error e => .error e
  | .ok c1 => match unpackColor nComp c1 with
    | .error e => .error e
    | .ok c1 => match doubledAt seq (2 * i + 1) with
      | .error e => .error e
      | .ok c2 => match unpackColor nComp c2 with
        | .error e => .error e
        | .ok c2 => .ok ⟨v, c1, c2⟩

/-- The loop of `make_colormap` from index `i` on. -/
def colorRows (seq : List (List ℝ)) (nComp : ℕ) : ℕ → List ℝ → Except String (List CRow)
  | _, [] => .ok []
  | i, v :: vs => match colorRow seq nComp i v with
    | .error e => .error e
    | .ok r => match colorRows seq nComp (i + 1) vs with
      | .error e => .error e
      | .ok rs => .ok (r :: rs)

/-- `make_colormap(seq,values)`.  Models wiz/plotting_functions.py:17-49. -/
def makeColormap (seq : List (List ℝ)) (values : Option (List ℝ)) : Except String (List CRow) :=
  match seq with
  | [] => .error "IndexError"
  | c0 :: _ =>
    let nComp := if c0.length = 4 then 4 else 3
    colorRows seq nComp 0 (values.getD (linspace 0 1 seq.length))

/-- Python's `min` and `max` of an array. -/
def listMin : List ℝ → ℝ
  | [] => 0
  | x :: xs => xs.foldl min x
/-- Python's `max` of an array. -/
def listMax : List ℝ → ℝ
  | [] => 0
  | x :: xs => xs.foldl max x

/-- the colours of `get_cmap`.  Models wiz/plotting_functions.py:53-62. -/
def cmapColors (alpha : ℝ) : List (List ℝ) :=
  [[63/255, 63/255, 153/255, alpha], [159/255, 159/255, 204/255, alpha], [158/255, 204/255, 170/255, alpha],
   [1, 212/255, 96/255, alpha], [1, 1, 1, alpha], [1, 1, 1, alpha], [1, 1, 1, alpha], [138/255, 42/255, 93/255, alpha]]

/-- the speeds of `get_cmap`.  Models wiz/plotting_functions.py:52,63-72. -/
def cmapSpeeds (minSpeed maxSpeed : ℝ) : List ℝ :=
  let DS := 0.001
  [minSpeed, 0.90, 0.95, 0.98, 1.00 - DS, 1.00, 1.00 + DS, maxSpeed]

/-- the colour map returned by `get_cmap(minSpeed,maxSpeed,alpha)` (not the tick labels).
Models wiz/plotting_functions.py:51-75. -/
def getCmap (minSpeed maxSpeed alpha : ℝ) : Except String (List CRow) :=
  let valuesOri := cmapSpeeds minSpeed maxSpeed
  let values := valuesOri.map fun v => (v - listMin valuesOri) / (listMax valuesOri - listMin valuesOri)
  makeColormap (cmapColors alpha) (some values)

/-- Matplotlib's check of the positions: from 0 to 1, not decreasing (external code). -/
def cmapValid (rows : List CRow) : Prop :=
  (∃ r, rows.head? = some r ∧ r.v = 0) ∧ (∃ r, rows.getLast? = some r ∧ r.v = 1) ∧ (rows.map CRow.v).Pairwise (· ≤ ·)

/-- The colour Matplotlib assigns to a position: linear between the right colour of a row and the left colour of the
next one, in the first interval that reaches the position (external code). -/
def cmapAt : List CRow → ℝ → Option (List ℝ)
  | a :: b :: rows, x =>
    if x ≤ b.v then
      match a.right, b.left with
      | some c, some d => some (List.zipWith (fun c d => c + (x - a.v) / (b.v - a.v) * (d - c)) c d)
      | _, _ => none
    else cmapAt (b :: rows) x
  | _, _ => none
end
end Wiz
