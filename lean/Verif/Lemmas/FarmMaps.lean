import Verif.Lemmas.MirrorKernels
import Verif.Props.WindFarm
import Verif.Spec.FarmAxes

/-! # Two corresponding farm sessions: lemmas for C126 and C130 -/
namespace Wiz
open Classical
set_option autoImplicit false

/-- what is needed of a change of axes, units or strengths: positions are mapped by `P`, velocities by `V` -/
structure Axes (mini : (ℝ → Num) → ℝ) (P V : V3 ℝ → V3 ℝ) (φ : Op → Op) (okOpts : Opts → Prop) (okOp : ℕ → Op → Prop) (Rel : ℕ → WT → WT → Prop) : Prop where
  zero : P 0 = 0
  vzero : V 0 = 0
  vadd : ∀ a b : V3 ℝ, V (a + b) = V a + V b
  inj : ∀ a b : V3 ℝ, V a = V b → a = b
  surj : ∀ b : V3 ℝ, ∃ a, V a = b
  pos : ∀ p, φ (.position p) = .position (P p)
  notpos : ∀ op, (∀ p, op ≠ .position p) → ∀ p, φ op ≠ .position p
  hub : ∀ t w w', Rel t w w' → w'.r_hub = P w.r_hub
  move : ∀ t w w' p, Rel t w w' → Rel t { w with r_hub := p } { w' with r_hub := P p }
  step : ∀ t w w' op, Rel t w w' → okOp t op → Rel t (w.step mini op) (w'.step mini (φ op))
  eval : ∀ t w w', Rel t w w' → Rel t { w with chi := some (usedChi w) } { w' with chi := some (usedChi w') }
  comp : ∀ t w w' pts o, Rel t w w' → okOpts o → o.only_ind = true →
    (∀ e, (w.computeU pts o).1 = .error e ↔ (w'.computeU (pts.map P) o).1 = .error e) ∧
    ∀ u u', (w.computeU pts o).1 = .ok u → (w'.computeU (pts.map P) o).1 = .ok u' →
      ∀ (i : ℕ) (v : V3 ℝ), u[i]? = some (V3.fin v) ↔ u'[i]? = some (V3.fin (V v))
  only : ∀ o, okOpts o → okOpts { o with only_ind := true }

/-- two velocities correspond: both numbers, one the image of the other, or none -/
def VRel (V : V3 ℝ → V3 ℝ) (a b : V3 Num) : Prop :=
  (∃ v : V3 ℝ, a = V3.fin v ∧ b = V3.fin (V v)) ∨ ((∀ v : V3 ℝ, a ≠ V3.fin v) ∧ ∀ v : V3 ℝ, b ≠ V3.fin v)

theorem add_fin3 {a b : V3 Num} {v : V3 ℝ} (h : a + b = V3.fin v) : (∃ x : V3 ℝ, a = V3.fin x) ∧ ∃ y : V3 ℝ, b = V3.fin y := by
  obtain ⟨⟨a1, h1⟩, ⟨b1, k1⟩⟩ := add_isFin ⟨_, congrArg V3.x h⟩
  obtain ⟨⟨a2, h2⟩, ⟨b2, k2⟩⟩ := add_isFin ⟨_, congrArg V3.y h⟩
  obtain ⟨⟨a3, h3⟩, ⟨b3, k3⟩⟩ := add_isFin ⟨_, congrArg V3.z h⟩
  exact ⟨⟨⟨a1, a2, a3⟩, V3.ext h1 h2 h3⟩, ⟨⟨b1, b2, b3⟩, V3.ext k1 k2 k3⟩⟩

theorem VRel.add {V : V3 ℝ → V3 ℝ} (vadd : ∀ a b : V3 ℝ, V (a + b) = V a + V b) {a b c d : V3 Num} (h1 : VRel V a b) (h2 : VRel V c d) : VRel V (a + c) (b + d) := by
  rcases h1 with ⟨v, rfl, rfl⟩ | ⟨n1, n2⟩
  · rcases h2 with ⟨x, rfl, rfl⟩ | ⟨n3, n4⟩
    · left
      exact ⟨v + x, fin_addV _ _, by rw [fin_addV, ← vadd]⟩
    · right
      exact ⟨fun v h => n3 _ (add_fin3 h).2.choose_spec, fun v h => n4 _ (add_fin3 h).2.choose_spec⟩
  · right
    exact ⟨fun v h => n1 _ (add_fin3 h).1.choose_spec, fun v h => n2 _ (add_fin3 h).1.choose_spec⟩

theorem VRel.zero {V : V3 ℝ → V3 ℝ} (hV : V 0 = 0) : VRel V 0 0 := by
  left
  refine ⟨0, rfl, ?_⟩
  rw [hV]; rfl

/-- corresponding fields -/
def FRel (V : V3 ℝ → V3 ℝ) (u u' : List (V3 Num)) : Prop := List.Forall₂ (VRel V) u u'

theorem FRel.add {V : V3 ℝ → V3 ℝ} (vadd : ∀ a b : V3 ℝ, V (a + b) = V a + V b) : ∀ {u u' v v' : List (V3 Num)}, FRel V u u' → FRel V v v' → FRel V (addFields u v) (addFields u' v')
  | _, _, _, _, .nil, _ => .nil
  | _, _, _, _, .cons _ _, .nil => .nil
  | _, _, _, _, .cons h1 t1, .cons h2 t2 => .cons (h1.add vadd h2) (FRel.add vadd t1 t2)

theorem FRel.get {V : V3 ℝ → V3 ℝ} (inj : ∀ a b : V3 ℝ, V a = V b → a = b) {u u' : List (V3 Num)} (h : FRel V u u') (i : ℕ) (v : V3 ℝ) :
    u[i]? = some (V3.fin v) ↔ u'[i]? = some (V3.fin (V v)) := by
  induction h generalizing i with
  | nil => simp
  | cons hd tl ih =>
    cases i with
    | succ i => simpa using ih i
    | zero =>
      simp only [List.getElem?_cons_zero, Option.some.injEq]
      rcases hd with ⟨x, rfl, rfl⟩ | ⟨n1, n2⟩
      · exact ⟨fun h => by rw [fin_inj3 _ _ h], fun h => by rw [inj _ _ (fin_inj3 _ _ h)]⟩
      · exact ⟨fun h => absurd h (n1 _), fun h => absurd h (n2 _)⟩

theorem FRel.of_get {V : V3 ℝ → V3 ℝ} (surj : ∀ b : V3 ℝ, ∃ a, V a = b) : ∀ {u u' : List (V3 Num)}, u.length = u'.length →
    (∀ (i : ℕ) (v : V3 ℝ), u[i]? = some (V3.fin v) ↔ u'[i]? = some (V3.fin (V v))) → FRel V u u'
  | [], [], _, _ => .nil
  | [], _ :: _, h, _ => by simp at h
  | _ :: _, [], h, _ => by simp at h
  | a :: u, b :: u', hl, h => by
    refine .cons ?_ (FRel.of_get surj (by simpa using hl) fun i v => by simpa using h (i+1) v)
    have h0 := fun v => h 0 v
    simp only [List.getElem?_cons_zero, Option.some.injEq] at h0
    by_cases ha : ∃ v : V3 ℝ, a = V3.fin v
    · obtain ⟨v, rfl⟩ := ha
      exact .inl ⟨v, rfl, (h0 v).mp rfl⟩
    · push Not at ha
      refine .inr ⟨ha, fun y hy => ?_⟩
      obtain ⟨x, rfl⟩ := surj y
      exact ha x ((h0 x).mpr hy)

section
variable {mini : (ℝ → Num) → ℝ} {P V : V3 ℝ → V3 ℝ} {φ : Op → Op} {okOpts : Opts → Prop} {okOp : ℕ → Op → Prop} {Rel : ℕ → WT → WT → Prop}

/-- corresponding heaps -/
structure HRel (P : V3 ℝ → V3 ℝ) (Rel : ℕ → WT → WT → Prop) (s s' : World) : Prop where
  wt : ∀ t, Rel t (s.wt t) (s'.wt t)
  view : s'.view = s.view
  arr : ∀ a, s'.arr a = (s.arr a).map P
  next : s'.next = s.next

theorem HRel.hubs (A : Axes mini P V φ okOpts okOp Rel) {s s' : World} (h : HRel P Rel s s') (t : ℕ) : s'.hub t = P (s.hub t) := by
  unfold World.hub
  rw [h.view]
  cases s.view t with
  | none => exact A.hub t _ _ (h.wt t)
  | some q =>
    simp only [h.arr]
    rw [List.getD_eq_getElem?_getD, List.getD_eq_getElem?_getD, List.getElem?_map]
    cases (s.arr q.1)[q.2]? with
    | none => exact A.zero.symm
    | some p => rfl

theorem HRel.get (A : Axes mini P V φ okOpts okOp Rel) {s s' : World} (h : HRel P Rel s s') (t : ℕ) : Rel t (s.get t) (s'.get t) := by
  have := A.move t _ _ (s.hub t) (h.wt t)
  rw [← h.hubs A] at this
  exact this

theorem HRel.put (A : Axes mini P V φ okOpts okOp Rel) {s s' : World} (h : HRel P Rel s s') (t : ℕ) {w w' : WT} (hw : Rel t w w') :
    HRel P Rel (s.put t w) (s'.put t w') := by
  refine ⟨fun t' => ?_, h.view, h.arr, h.next⟩
  unfold World.put
  simp only
  by_cases e : t' = t
  · subst e
    rw [Function.update_self, Function.update_self, A.hub _ _ _ (h.wt t')]
    exact A.move _ _ _ _ hw
  · rw [Function.update_of_ne e, Function.update_of_ne e]; exact h.wt t'

theorem HRel.call (A : Axes mini P V φ okOpts okOp Rel) {s s' : World} (h : HRel P Rel s s') (t : ℕ) (op : Op) (ho : okOp t op) :
    HRel P Rel (s.call mini t op) (s'.call mini t (φ op)) := by
  by_cases hp : ∃ p, op = .position p
  · obtain ⟨p, rfl⟩ := hp
    rw [A.pos]
    refine ⟨fun t' => ?_, ?_, h.arr, h.next⟩
    · simp only [World.call]
      by_cases e : t' = t
      · subst e
        rw [Function.update_self, Function.update_self]
        exact A.move _ _ _ _ (h.wt t')
      · rw [Function.update_of_ne e, Function.update_of_ne e]; exact h.wt t'
    · simp only [World.call, h.view]
  · push Not at hp
    have e1 : s.call mini t op = s.put t ((s.get t).step mini op) := by
      cases op <;> first | rfl | exact absurd rfl (hp _)
    have hq := A.notpos op hp
    have e2 : s'.call mini t (φ op) = s'.put t ((s'.get t).step mini (φ op)) := by
      generalize φ op = op' at hq
      cases op' <;> first | rfl | exact absurd rfl (hq _)
    rw [e1, e2]
    exact h.put A t (A.step t _ _ op (h.get A t) ho)

theorem loop_rel (A : Axes mini P V φ okOpts okOp Rel) (pts : List (V3 ℝ)) (o : Opts) (ho : okOpts o) (f : List PyObj) :
    ∀ (s s' : World) (u u' : List (V3 Num)), HRel P Rel s s' → FRel V u u' →
      HRel P Rel (farmLoop pts o f s u).2 (farmLoop (pts.map P) o f s' u').2 ∧
      (∀ e, (farmLoop pts o f s u).1 = .error e ↔ (farmLoop (pts.map P) o f s' u').1 = .error e) ∧
      ∀ v v', (farmLoop pts o f s u).1 = .ok v → (farmLoop (pts.map P) o f s' u').1 = .ok v' → FRel V v v' := by
  induction f with
  | nil =>
    intro s s' u u' hs hu
    refine ⟨hs, fun e => by simp [farmLoop], ?_⟩
    intro v v' h1 h2
    rw [← Except.ok.inj h1, ← Except.ok.inj h2]
    exact hu
  | cons x f ih =>
    intro s s' u u' hs hu
    cases x with
    | other =>
      refine ⟨hs, fun e => by simp [farmLoop], ?_⟩
      intro v v' h1 _
      exact nomatch h1
    | turbine t =>
      obtain ⟨c1, c2⟩ := A.comp t _ _ pts _ (hs.get A t) (A.only o ho) rfl
      have hput : HRel P Rel (s.put t ((s.get t).computeU pts { o with only_ind := true }).2)
          (s'.put t ((s'.get t).computeU (pts.map P) { o with only_ind := true }).2) := by
        rw [computeU_state, computeU_state]
        exact hs.put A t (A.eval t _ _ (hs.get A t))
      simp only [farmLoop]
      generalize hr : (s.get t).computeU pts { o with only_ind := true } = r at *
      generalize hr' : (s'.get t).computeU (pts.map P) { o with only_ind := true } = r' at *
      obtain ⟨r1, r2⟩ := r
      obtain ⟨r1', r2'⟩ := r'
      simp only at c1 c2 hput ⊢
      cases r1 with
      | error e =>
        have := (c1 e).mp rfl
        subst this
        refine ⟨hput, fun e => Iff.rfl, ?_⟩
        intro v v' h1 _
        exact nomatch h1
      | ok v =>
        cases r1' with
        | error e => exact absurd ((c1 e).mpr rfl) (by simp)
        | ok v' =>
          have l1 : v.length = pts.length := inducedBy_length s pts o t v (by unfold inducedBy; rw [hr])
          have l2 : v'.length = (pts.map P).length := inducedBy_length s' _ o t v' (by unfold inducedBy; rw [hr'])
          rw [List.length_map] at l2
          exact ih _ _ _ _ hput (hu.add A.vadd (FRel.of_get A.surj (l1.trans l2.symm) (c2 v v' rfl rfl)))

theorem zeros_rel {P V : V3 ℝ → V3 ℝ} (hV : V 0 = 0) (pts : List (V3 ℝ)) : FRel V (pts.map fun _ => 0) ((pts.map P).map fun _ => 0) := by
  induction pts with
  | nil => exact .nil
  | cons p pts ih => exact .cons (VRel.zero hV) ih

theorem velocity_rel (A : Axes mini P V φ okOpts okOp Rel) (pts : List (V3 ℝ)) (o : Opts) (ho : okOpts o) (U0 : Option (V3 ℝ)) (f : List PyObj)
    (s s' : World) (hs : HRel P Rel s s') :
    HRel P Rel (farmVelocity f s pts o U0).2 (farmVelocity f s' (pts.map P) o (U0.map V)).2 ∧
    (∀ e, (farmVelocity f s pts o U0).1 = .error e ↔ (farmVelocity f s' (pts.map P) o (U0.map V)).1 = .error e) ∧
    ∀ v v', (farmVelocity f s pts o U0).1 = .ok v → (farmVelocity f s' (pts.map P) o (U0.map V)).1 = .ok v' → FRel V v v' := by
  have key := loop_rel A pts o ho f s s' _ _ hs (zeros_rel (P := P) A.vzero pts)
  unfold farmVelocity
  generalize farmLoop pts o f s _ = r at *
  generalize farmLoop (pts.map P) o f s' _ = r' at *
  obtain ⟨r1, r2⟩ := r
  obtain ⟨r1', r2'⟩ := r'
  obtain ⟨k1, k2, k3⟩ := key
  simp only at k1 k2 k3
  cases r1 with
  | error e =>
    have := (k2 e).mp rfl
    subst this
    exact ⟨k1, fun e => Iff.rfl, fun v v' h1 _ => nomatch h1⟩
  | ok u =>
    cases r1' with
    | error e => exact absurd ((k2 e).mpr rfl) (by simp)
    | ok u' =>
      have hf := k3 u u' rfl rfl
      cases U0 with
      | none =>
        refine ⟨k1, fun e => by simp, ?_⟩
        intro v v' h1 h2
        rw [← Except.ok.inj h1, ← Except.ok.inj h2]; exact hf
      | some U =>
        refine ⟨k1, fun e => by simp, ?_⟩
        intro v v' h1 h2
        rw [← Except.ok.inj h1, ← Except.ok.inj h2]
        clear k1 k2 k3 h1 h2
        induction hf with
        | nil => exact .nil
        | cons hd tl ih => exact .cons (hd.add A.vadd (.inl ⟨U, rfl, rfl⟩)) ih

theorem rows_rel (A : Axes mini P V φ okOpts okOp Rel) (s s' : World) (hs : HRel P Rel s s') (f : List PyObj) :
    layoutRows s' f = mapOk (List.map P) (layoutRows s f) := by
  induction f with
  | nil => rfl
  | cons x f ih =>
    cases x with
    | other => rfl
    | turbine t =>
      simp only [layoutRows, ih]
      cases layoutRows s f with
      | error e => rfl
      | ok l => simp only [mapOk, List.map_cons, hs.hubs A]

theorem setRows_rel (s s' : World) (a : ℕ) (f : List PyObj) : ∀ (i : ℕ) (s s' : World), HRel P Rel s s' →
    HRel P Rel (setRows a i f s).2 (setRows a i f s').2 := by
  induction f with
  | nil => intro i s s' h; exact h
  | cons x f ih =>
    intro i s s' h
    cases x with
    | other => exact h
    | turbine t => exact ih _ _ _ ⟨h.wt, by simp only [h.view], h.arr, h.next⟩

theorem arr_rel {s s' : World} (hs : HRel P Rel s s') (l : List (V3 ℝ)) :
    HRel P Rel { s with arr := Function.update s.arr s.next l, next := s.next + 1 }
      { s' with arr := Function.update s'.arr s'.next (l.map P), next := s'.next + 1 } := by
  refine ⟨hs.wt, hs.view, fun a => ?_, by simp only [hs.next]⟩
  simp only [hs.next]
  by_cases e : a = s.next
  · subst e; rw [Function.update_self, Function.update_self]
  · rw [Function.update_of_ne e, Function.update_of_ne e]; exact hs.arr a

/-- which events are allowed -/
def OkEvent (okOpts : Opts → Prop) (okOp : ℕ → Op → Prop) : FOp → Prop
  | .call t op => okOp t op
  | .velocity _ o _ => okOpts o
  | _ => True

theorem fstep_rel (A : Axes mini P V φ okOpts okOp Rel) (q q' : List PyObj × World) (h1 : q'.1 = q.1) (hs : HRel P Rel q.2 q'.2) (op : FOp)
    (ho : OkEvent okOpts okOp op) :
    (fstep mini q' (op.mapped P V φ)).1 = (fstep mini q op).1 ∧ HRel P Rel (fstep mini q op).2 (fstep mini q' (op.mapped P V φ)).2 := by
  obtain ⟨f, s⟩ := q
  obtain ⟨f', s'⟩ := q'
  simp only at h1 hs
  subst h1
  cases op with
  | append x => exact ⟨rfl, hs⟩
  | inherited g => exact ⟨rfl, hs⟩
  | place t a i =>
    simp only [FOp.mapped, fstep, hs.next]
    split
    · exact ⟨rfl, hs.wt, by simp only [World.placeAt, hs.view], hs.arr, hs.next⟩
    · exact ⟨rfl, hs⟩
  | call t op => exact ⟨rfl, hs.call A t op ho⟩
  | write a i p =>
    refine ⟨rfl, hs.wt, hs.view, fun b => ?_, hs.next⟩
    simp only [FOp.mapped, fstep, World.write]
    by_cases e : b = a
    · subst e; rw [Function.update_self, Function.update_self, hs.arr, List.map_set]
    · rw [Function.update_of_ne e, Function.update_of_ne e]; exact hs.arr b
  | newArray rows => exact ⟨rfl, arr_rel hs rows⟩
  | getLayout =>
    refine ⟨rfl, ?_⟩
    simp only [FOp.mapped, fstep, farmLayout, rows_rel A s s' hs]
    cases layoutRows s f' with
    | error e => exact hs
    | ok l => exact arr_rel hs l
  | setLayout x =>
    cases x with
    | wrong => exact ⟨rfl, hs⟩
    | array a =>
      simp only [FOp.mapped, fstep, hs.next]
      split
      · refine ⟨rfl, ?_⟩
        simp only [farmSetLayout, hs.arr, List.length_map]
        split
        · exact hs
        · exact setRows_rel s s' a f' 0 s s' hs
      · exact ⟨rfl, hs⟩
    | nested l =>
      refine ⟨rfl, ?_⟩
      simp only [FOp.mapped, fstep, farmSetLayout, List.length_map]
      split
      · exact hs
      · have e := hs.next
        rw [e]
        have := arr_rel hs l
        rw [e] at this
        exact setRows_rel s s' s.next f' 0 _ _ this
  | velocity pts o U0 => exact ⟨rfl, (velocity_rel A pts o ho U0 f' s s' hs).1⟩

theorem frun_rel (A : Axes mini P V φ okOpts okOp Rel) (items : List PyObj) (wt wt' : ℕ → WT) (hwt : ∀ t, Rel t (wt t) (wt' t)) (h : List FOp)
    (ho : ∀ op ∈ h, OkEvent okOpts okOp op) :
    (frun mini items wt' (h.map (FOp.mapped P V φ))).1 = (frun mini items wt h).1 ∧
    HRel P Rel (frun mini items wt h).2 (frun mini items wt' (h.map (FOp.mapped P V φ))).2 := by
  have gen : ∀ (h : List FOp) (q q' : List PyObj × World), (∀ op ∈ h, OkEvent okOpts okOp op) → q'.1 = q.1 → HRel P Rel q.2 q'.2 →
      ((h.map (FOp.mapped P V φ)).foldl (fstep mini) q').1 = (h.foldl (fstep mini) q).1 ∧
      HRel P Rel (h.foldl (fstep mini) q).2 ((h.map (FOp.mapped P V φ)).foldl (fstep mini) q').2 := by
    intro h
    induction h with
    | nil => intro q q' _ h1 h2; exact ⟨h1, h2⟩
    | cons op h ih =>
      intro q q' hok h1 h2
      obtain ⟨e1, e2⟩ := fstep_rel A q q' h1 h2 op (hok op (List.mem_cons_self ..))
      exact ih _ _ (fun op hop => hok op (List.mem_cons_of_mem _ hop)) e1 e2
  exact gen h _ _ ho rfl ⟨hwt, rfl, fun a => rfl, rfl⟩
end

theorem axes_farm {mini : (ℝ → Num) → ℝ} {P V : V3 ℝ → V3 ℝ} {φ : Op → Op} {okOpts : Opts → Prop} {okOp : ℕ → Op → Prop} {Rel : ℕ → WT → WT → Prop}
    (A : Axes mini P V φ okOpts okOp Rel) (items : List PyObj) (wt wt' : ℕ → WT) (hwt : ∀ t, Rel t (wt t) (wt' t)) (h : List FOp)
    (ho : ∀ op ∈ h, OkEvent okOpts okOp op) (pts : List (V3 ℝ)) (o : Opts) (hoo : okOpts o) (U0 : Option (V3 ℝ)) :
    let q := frun mini items wt h
    let q' := frun mini items wt' (h.map (FOp.mapped P V φ))
    let r := (farmVelocity q.1 q.2 pts o U0).1
    let r' := (farmVelocity q'.1 q'.2 (pts.map P) o (U0.map V)).1
    q'.1 = q.1 ∧ (∀ t, q'.2.hub t = P (q.2.hub t)) ∧ (∀ e, r = .error e ↔ r' = .error e) ∧
    ∀ u u', r = .ok u → r' = .ok u' → ∀ (i : ℕ) (v : V3 ℝ), u[i]? = some (V3.fin v) ↔ u'[i]? = some (V3.fin (V v)) := by
  intro q q' r r'
  obtain ⟨e1, e2⟩ := frun_rel A items wt wt' hwt h ho
  obtain ⟨-, k2, k3⟩ := velocity_rel A pts o hoo U0 q.1 q.2 q'.2 e2
  have e1' : q'.1 = q.1 := e1
  refine ⟨e1, fun t => e2.hubs A t, ?_, ?_⟩
  · intro e
    simp only [r, r', e1']
    exact k2 e
  · intro u u' h1 h2 i v
    simp only [r, r', e1'] at h1 h2
    exact (k3 u u' h1 h2).get A.inj i v


end Wiz
