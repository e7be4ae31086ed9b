import Verif.Model.WindFarm

/-! # Specification vocabulary for farms -/
namespace Wiz
noncomputable section

/-- what turbine `t` induces at the points, asked on its own in the present state of the heap -/
def inducedBy (s : World) (pts : List (V3 ℝ)) (o : Opts) (t : ℕ) : Except String (List (V3 Num)) :=
  ((s.get t).computeU pts { o with only_ind := true }).1

/-- its velocity at point number `i` (0 if it raises) -/
def inducedAt (s : World) (pts : List (V3 ℝ)) (o : Opts) (i : ℕ) : PyObj → V3 Num
  | .other => 0
  | .turbine t => match inducedBy s pts o t with
    | .ok v => v.getD i 0
    | .error _ => 0

/-- the free stream added by `velocity_field` -/
def freeStream : Option (V3 ℝ) → V3 Num
  | some U => V3.fin U
  | none => 0

/-- everything that can happen to a farm -/
inductive FOp where
  | append (x : PyObj)
  /-- any method inherited from `list` (`extend`, `insert`, `pop`, slices, `+=`, …): the farm does not override them -/
  | inherited (g : List PyObj → List PyObj)
  /-- `WT.update_position(A[i,:])` with an array of the caller: the turbine keeps a view -/
  | place (t a i : ℕ)
  | call (t : ℕ) (op : Op)
  | write (a i : ℕ) (p : V3 ℝ)
  | newArray (rows : List (V3 ℝ))
  | getLayout
  | setLayout (x : LayoutArg)
  | velocity (pts : List (V3 ℝ)) (o : Opts) (U0 : Option (V3 ℝ))

/-- farm and heap after an event (the caller catches exceptions; arrays that do not exist cannot be
written or assigned) -/
def fstep (mini : (ℝ → Num) → ℝ) (q : List PyObj × World) : FOp → List PyObj × World
  | .append x => ((farmAppend q.1 x).2, q.2)
  | .inherited g => (g q.1, q.2)
  | .place t a i => if a < q.2.next then (q.1, q.2.placeAt t a i) else q
  | .call t op => (q.1, q.2.call mini t op)
  | .write a i p => (q.1, q.2.write a i p)
  | .newArray rows => (q.1, { q.2 with arr := Function.update q.2.arr q.2.next rows, next := q.2.next + 1 })
  | .getLayout => (q.1, (farmLayout q.1 q.2).2)
  | .setLayout (.array a) => if a < q.2.next then (q.1, (farmSetLayout q.1 q.2 (.array a)).2) else q
  | .setLayout x => (q.1, (farmSetLayout q.1 q.2 x).2)
  | .velocity pts o U0 => (q.1, (farmVelocity q.1 q.2 pts o U0).2)

/-- farm and heap after a history, from a farm built on turbines that share nothing -/
def frun (mini : (ℝ → Num) → ℝ) (items : List PyObj) (wt : ℕ → WT) (h : List FOp) : List PyObj × World :=
  h.foldl (fstep mini) (farmNew items, ⟨wt, fun _ => none, fun _ => [], 0⟩)

end
end Wiz
