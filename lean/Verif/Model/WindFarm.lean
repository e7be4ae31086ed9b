import Verif.Model.WindTurbine

/-!
# Model of `wiz/WindFarm.py`

A farm is a Python list of *references*: the same turbine object may occur several times, and (because
the constructor does not check its argument) objects that are not turbines may occur.  NumPy arrays live
in a heap of `n×3` arrays because the layout setter stores *views* of the caller's array in the turbines.
-/
namespace Wiz
noncomputable section
open Classical

/-- An element of a farm: the address of a turbine, or some other object. -/
inductive PyObj where
  | turbine (t : ℕ)
  | other
  deriving DecidableEq

/-- The part of the Python heap a farm can see.  `view t = some (a,i)` means that the attribute `r_hub` of
turbine `t` is a view of row `i` of array `a` (and then the field `r_hub` of `wt t` is meaningless). -/
structure World where
  wt : ℕ → WT
  view : ℕ → Option (ℕ × ℕ)
  arr : ℕ → List (V3 ℝ)
  next : ℕ

/-- The attribute `r_hub` of a turbine as it reads now. -/
def World.hub (s : World) (t : ℕ) : V3 ℝ :=
  match s.view t with
  | none => (s.wt t).r_hub
  | some (a, i) => (s.arr a).getD i 0

/-- The turbine as its methods see it. -/
def World.get (s : World) (t : ℕ) : WT := { s.wt t with r_hub := s.hub t }

/-- Store the turbine back, keeping its (possibly shared) hub position. -/
def World.put (s : World) (t : ℕ) (w : WT) : World :=
  { s with wt := Function.update s.wt t { w with r_hub := (s.wt t).r_hub } }

/-- A method call on a turbine; `update_position` replaces the array the turbine refers to.
Models wiz/WindTurbine.py:108-121 as seen from the heap. -/
def World.call (mini : (ℝ → Num) → ℝ) (s : World) (t : ℕ) : Op → World
  | .position p => { s with wt := Function.update s.wt t { s.wt t with r_hub := p }, view := Function.update s.view t none }
  | op => s.put t ((s.get t).step mini op)

/-- `update_position(A[i,:])` for a row of an array of the caller: `np.asarray(..).ravel().reshape(3,1)` does not copy
a contiguous row, so the turbine keeps a view of it (rows of arrays that are not stored row by row are copied; such arrays are
not modelled).  Models wiz/WindTurbine.py:117-118. -/
def World.placeAt (s : World) (t a i : ℕ) : World := { s with view := Function.update s.view t (some (a, i)) }

/-- The caller assigns to row `i` of one of its arrays (`A[i,:]=p`). -/
def World.write (s : World) (a i : ℕ) (p : V3 ℝ) : World := { s with arr := Function.update s.arr a ((s.arr a).set i p) }

/-- `append`.  Models wiz/WindFarm.py:19-22. -/
def farmAppend (f : List PyObj) (x : PyObj) : Except String Unit × List PyObj :=
  match x with
  | .turbine _ => (.ok (), f ++ [x])
  | .other => (.error "Can only append `WindTurbine` objects", f)

/-- `WindFarm(WTs)`: no type check.  Models wiz/WindFarm.py:15-17. -/
def farmNew (items : List PyObj) : List PyObj := items

/-- `nWT`.  Models wiz/WindFarm.py:56-58. -/
def farmNWT (f : List PyObj) : ℕ := f.length

/-- The loop over the turbines of `velocity_field`: accumulated field, exception, and heap afterwards.
Models wiz/WindFarm.py:43-47 (an item that is not a turbine has no `compute_u`). -/
def farmLoop (pts : List (V3 ℝ)) (o : Opts) : List PyObj → World → List (V3 Num) → Except String (List (V3 Num)) × World
  | [], s, u => (.ok u, s)
  | .other :: _, s, _ => (.error "AttributeError", s)
  | .turbine t :: f, s, u =>
    let r := (s.get t).computeU pts { o with only_ind := true }
    let s := s.put t r.2
    match r.1 with
    | .error e => (.error e, s)
    | .ok v => farmLoop pts o f s (addFields u v)

/-- `velocity_field` (`o` holds `no_wake` and the keyword arguments passed on).
Models wiz/WindFarm.py:24-53. -/
def farmVelocity (f : List PyObj) (s : World) (pts : List (V3 ℝ)) (o : Opts) (U0 : Option (V3 ℝ)) :
    Except String (List (V3 Num)) × World :=
  match farmLoop pts o f s (pts.map fun _ => 0) with
  | (.error e, s) => (.error e, s)
  | (.ok u, s) =>
    match U0 with
    | some U => (.ok (u.map fun v => v + V3.fin U), s)
    | none => (.ok u, s)

/-- The rows of the layout: `np.array(WT.r_hub)` for each item, in order; an item that is not a turbine
has no `r_hub`.  Models wiz/WindFarm.py:62. -/
def layoutRows (s : World) : List PyObj → Except String (List (V3 ℝ))
  | [] => .ok []
  | .other :: _ => .error "AttributeError"
  | .turbine t :: f => match layoutRows s f with
    | .ok l => .ok (s.hub t :: l)
    | .error e => .error e

/-- The getter `layout`: a new array.  Models wiz/WindFarm.py:60-62. -/
def farmLayout (f : List PyObj) (s : World) : Except String ℕ × World :=
  match layoutRows s f with
  | .ok l => (.ok s.next, { s with arr := Function.update s.arr s.next l, next := s.next + 1 })
  | .error e => (.error e, s)

/-- What is assigned to `layout`: an array of the caller with three columns, something `np.asarray` turns
into a new `n×3` array (nested lists), or anything of another shape. -/
inductive LayoutArg where
  | array (a : ℕ)
  | nested (rows : List (V3 ℝ))
  | wrong

/-- The loop of the setter from row `i` on: turbine `i` receives a view of row `i` of array `a`.
Models wiz/WindFarm.py:70-73. -/
def setRows (a : ℕ) : ℕ → List PyObj → World → Except String Unit × World
  | _, [], s => (.ok (), s)
  | _, .other :: _, s => (.error "AttributeError", s)
  | i, .turbine t :: f, s => setRows a (i + 1) f { s with view := Function.update s.view t (some (a, i)) }

/-- The setter `layout`.  Models wiz/WindFarm.py:64-73. -/
def farmSetLayout (f : List PyObj) (s : World) (x : LayoutArg) : Except String Unit × World :=
  match x with
  | .wrong => (.error "Wrong layout shape", s)
  | .array a =>
    if (s.arr a).length ≠ farmNWT f then (.error "Wrong layout shape", s) else setRows a 0 f s
  | .nested l =>
    if l.length ≠ farmNWT f then (.error "Wrong layout shape", s)
    else setRows s.next 0 f { s with arr := Function.update s.arr s.next l, next := s.next + 1 }

/-! ### Grid layouts -/

/-- `np.arange(1,n+1)` -/
def arange1 (n : ℤ) : List ℤ := (List.range n.toNat).map fun i : ℕ => (i : ℤ) + 1

/-- The three position arrays and the counter `k`. -/
structure GridState where
  k : ℕ
  x : List ℝ
  y : List ℝ
  z : List ℝ

/-- One pass of the double loop.  Models wiz/WindFarm.py:103-109 and 110-116. -/
def gridPass (nx nz : ℤ) (xS zS h : ℝ) (s : GridState) : GridState :=
  (arange1 nz).foldl (fun s i => (arange1 nx).foldl (fun s j =>
    let k := s.k + 1
    { k := k
      x := s.x.set (k - 1) (((j - Int.floor ((nx : ℝ) / 2) - 1 : ℤ) : ℝ) * xS)
      y := s.y.set (k - 1) h
      z := s.z.set (k - 1) (((i - 1 : ℤ) : ℝ) * zS) }) s) s

/-- `gridLayout`: `zSpacing=None` is a `TypeError` as soon as a turbine is placed, a negative number of
positions a `ValueError`.  Models wiz/WindFarm.py:88-117. -/
def gridLayout (nx : ℤ) (xS : ℝ) (nz : ℤ) (zS : Option ℝ) (h : ℝ) (mirror : Bool) : Except String (List ℝ × List ℝ × List ℝ) :=
  let ny : ℤ := if mirror then 2 else 1
  let nWT := nz * nx * ny
  if nWT < 0 then .error "ValueError: negative dimensions are not allowed"
  else
    let z := List.replicate nWT.toNat (0 : ℝ)
    match zS with
    | none => if arange1 nz ≠ [] ∧ arange1 nx ≠ [] then .error "TypeError" else .ok (z, z, z)
    | some zS =>
      let s := gridPass nx nz xS zS h ⟨0, z, z, z⟩
      let s := if mirror then gridPass nx nz xS zS (-h) s else s
      .ok (s.x, s.y, s.z)

/-- `windfarm_gridlayout_CTconst`.  Models wiz/WindFarm.py:120-135. -/
def gridlayoutCTconst (pts : List (V3 ℝ)) (R : ℝ) (CT U0 : Num) (nx : ℤ) (xS : ℝ) (nz : ℤ) (zS : Option ℝ) (h : ℝ) (mirror : Bool) :
    Except String (List (V3 Num)) :=
  match gridLayout nx xS nz zS h mirror with
  | .error e => .error e
  | .ok (x, y, z) =>
    let a := .fin 0.5 * (1 - Num.sqrt (1 - CT))
    let gamma_t := -2 * U0 * a
    .ok (vcsTang pts ((List.range x.length).map fun i : ℕ => ⟨⟨x.getD i 0, y.getD i 0, z.getD i 0⟩, [(gamma_t, R)]⟩) 0 false)

end
end Wiz
