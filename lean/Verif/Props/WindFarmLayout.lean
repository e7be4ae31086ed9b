import Verif.Props.WindFarm

/-! # Farm layouts (C21) -/
namespace Wiz
open Classical

/-- all the items of `ts.map .turbine` are turbines -/
theorem layoutRows_turbines (s : World) (ts : List ℕ) : layoutRows s (ts.map .turbine) = .ok (ts.map s.hub) := by
  induction ts with
  | nil => rfl
  | cons t ts ih => simp only [List.map_cons, layoutRows, ih]

theorem setRows_spec (a : ℕ) (ts : List ℕ) : ∀ (i : ℕ) (s : World),
    (setRows a i (ts.map .turbine) s).1 = .ok () ∧ (setRows a i (ts.map .turbine) s).2.wt = s.wt ∧
    (setRows a i (ts.map .turbine) s).2.arr = s.arr ∧ (setRows a i (ts.map .turbine) s).2.next = s.next ∧
    ∀ t, (t ∉ ts → (setRows a i (ts.map .turbine) s).2.view t = s.view t) ∧
      ∀ j, ts[j]? = some t → (∀ k, ts[k]? = some t → k ≤ j) → (setRows a i (ts.map .turbine) s).2.view t = some (a, i + j) := by
  induction ts with
  | nil => intro i s; simp [setRows]
  | cons t0 ts ih =>
    intro i s
    obtain ⟨h1, h2, h3, h4, h5⟩ := ih (i + 1) { s with view := Function.update s.view t0 (some (a, i)) }
    simp only [List.map_cons, setRows]
    refine ⟨h1, h2, h3, h4, fun t => ⟨fun ht => ?_, fun j hj hlast => ?_⟩⟩
    · rw [(h5 t).1 (fun h => ht (List.mem_cons_of_mem _ h))]
      exact Function.update_of_ne (fun h => ht (by rw [h]; exact List.mem_cons_self ..)) _ _
    · cases j with
      | zero =>
        have e : t0 = t := by simpa using hj
        subst e
        have : t0 ∉ ts := by
          intro hm
          obtain ⟨k, hk⟩ := List.mem_iff_getElem?.1 hm
          have := hlast (k + 1) (by simpa using hk)
          omega
        rw [(h5 t0).1 this]
        simp [Function.update_self]
      | succ j =>
        have hj' : ts[j]? = some t := by simpa using hj
        rw [(h5 t).2 j hj' (fun k hk => by
          have := hlast (k + 1) (by simpa using hk)
          omega)]
        congr 2
        omega

/-- C21: assigning to `layout` an array (of the caller, or made from nested lists) with one row per
item succeeds; afterwards each turbine stands on the row of its last occurrence in the list and nothing
else about it has changed; turbines outside the farm have not moved. -/
theorem C21_set (ts : List ℕ) (s : World) (x : LayoutArg) (rows : List (V3 ℝ)) (hrows : (∃ a, x = .array a ∧ s.arr a = rows) ∨ x = .nested rows)
    (hlen : rows.length = ts.length) (hfresh : ∀ t a i, s.view t = some (a, i) → a < s.next) :
    let r := farmSetLayout (ts.map .turbine) s x
    r.1 = .ok () ∧ (∀ t, t ∉ ts → r.2.get t = s.get t) ∧
    ∀ j t : ℕ, ts[j]? = some t → (∀ k : ℕ, ts[k]? = some t → k ≤ j) → ∀ p, rows[j]? = some p → r.2.get t = { s.get t with r_hub := p } := by
  have gen : ∀ (a : ℕ) (s1 : World), s1.wt = s.wt → s1.view = s.view → s1.arr a = rows →
      (∀ t b i, s.view t = some (b, i) → s1.arr b = s.arr b) →
      let r := setRows a 0 (ts.map .turbine) s1
      r.1 = .ok () ∧ (∀ t, t ∉ ts → r.2.get t = s.get t) ∧
      ∀ j t : ℕ, ts[j]? = some t → (∀ k : ℕ, ts[k]? = some t → k ≤ j) → ∀ p, rows[j]? = some p → r.2.get t = { s.get t with r_hub := p } := by
    intro a s1 e1 e2 e3 e4
    obtain ⟨h1, h2, h3, h4, h5⟩ := setRows_spec a ts 0 s1
    refine ⟨h1, fun t ht => ?_, fun j t hj hlast p hp => ?_⟩
    · unfold World.get World.hub
      rw [h2, h3, (h5 t).1 ht, e1, e2]
      cases hv : s.view t with
      | none => rfl
      | some q => simp only; rw [e4 t q.1 q.2 hv]
    · unfold World.get
      have : (setRows a 0 (ts.map .turbine) s1).2.hub t = p := by
        unfold World.hub
        rw [(h5 t).2 j hj hlast, h3]
        simp only
        rw [e3, zero_add, List.getD_eq_getElem?_getD, hp]
        rfl
      rw [this, h2, e1]
  intro r
  rcases hrows with ⟨a, rfl, ha⟩ | rfl
  · have hr : r = setRows a 0 (ts.map .turbine) s := by
      show farmSetLayout _ _ _ = _
      simp only [farmSetLayout, farmNWT, List.length_map, ha, hlen, ne_eq, not_true_eq_false, if_false]
    rw [hr]
    exact gen a s rfl rfl ha (fun _ _ _ _ => rfl)
  · have hr : r = setRows s.next 0 (ts.map .turbine) { s with arr := Function.update s.arr s.next rows, next := s.next + 1 } := by
      show farmSetLayout _ _ _ = _
      simp only [farmSetLayout, farmNWT, List.length_map, hlen, ne_eq, not_true_eq_false, if_false]
    rw [hr]
    refine gen s.next _ rfl rfl (by simp) (fun t b i hb => ?_)
    have := hfresh t b i hb
    exact Function.update_of_ne (by omega) _ _

/-! ### Histories -/

theorem setRows_view (a : ℕ) (f : List PyObj) : ∀ (i : ℕ) (s : World) (n : ℕ), (∀ t b j, s.view t = some (b, j) → b < n) → a < n →
    (∀ t b j, (setRows a i f s).2.view t = some (b, j) → b < n) ∧ (setRows a i f s).2.next = s.next := by
  induction f with
  | nil => intro i s n h _; exact ⟨h, rfl⟩
  | cons x f ih =>
    intro i s n h ha
    cases x with
    | other => exact ⟨h, rfl⟩
    | turbine t0 =>
      refine ih (i + 1) _ n ?_ ha
      intro t b j hb
      by_cases ht : t = t0
      · subst ht
        simp only [Function.update_self, Option.some.injEq, Prod.mk.injEq] at hb
        omega
      · change Function.update s.view t0 (some (a, i)) t = _ at hb
        rw [Function.update_of_ne ht] at hb
        exact h t b j hb

theorem farmLoop_heap (pts : List (V3 ℝ)) (o : Opts) (f : List PyObj) : ∀ (s : World) (u : List (V3 Num)),
    (farmLoop pts o f s u).2.view = s.view ∧ (farmLoop pts o f s u).2.next = s.next ∧ (farmLoop pts o f s u).2.arr = s.arr := by
  induction f with
  | nil => intro s u; exact ⟨rfl, rfl, rfl⟩
  | cons x f ih =>
    intro s u
    cases x with
    | other => exact ⟨rfl, rfl, rfl⟩
    | turbine t =>
      unfold farmLoop
      simp only
      split
      · exact ⟨rfl, rfl, rfl⟩
      · exact ih _ _

theorem farmVelocity_heap (f : List PyObj) (s : World) (pts : List (V3 ℝ)) (o : Opts) (U0 : Option (V3 ℝ)) :
    (farmVelocity f s pts o U0).2.view = s.view ∧ (farmVelocity f s pts o U0).2.next = s.next := by
  have := farmLoop_heap pts o f s (pts.map fun _ => 0)
  unfold farmVelocity
  cases h : farmLoop pts o f s (pts.map fun _ => 0) with
  | mk a b =>
    rw [h] at this
    cases a with
    | error e => exact ⟨this.1, this.2.1⟩
    | ok u => cases U0 <;> exact ⟨this.1, this.2.1⟩

/-- in every history the turbines only refer to existing arrays -/
theorem fresh_run (mini : (ℝ → Num) → ℝ) (items : List PyObj) (wt : ℕ → WT) (h : List FOp) :
    ∀ t a i, (frun mini items wt h).2.view t = some (a, i) → a < (frun mini items wt h).2.next := by
  have step : ∀ (q : List PyObj × World) (op : FOp), (∀ t a i, q.2.view t = some (a, i) → a < q.2.next) →
      ∀ t a i, (fstep mini q op).2.view t = some (a, i) → a < (fstep mini q op).2.next := by
    intro q op hq
    cases op with
    | append x => exact hq
    | inherited g => exact hq
    | place t0 a0 i0 =>
      simp only [fstep]
      by_cases ha : a0 < q.2.next
      · simp only [if_pos ha, World.placeAt]
        intro t a i hv
        by_cases ht : t = t0
        · subst ht
          rw [Function.update_self] at hv
          obtain ⟨rfl, rfl⟩ := Prod.mk.inj (Option.some.inj hv)
          exact ha
        · rw [Function.update_of_ne ht] at hv; exact hq t a i hv
      · simp only [if_neg ha]; exact hq
    | call t0 op =>
      intro t a i hv
      cases op with
      | position p =>
        simp only [fstep, World.call] at hv ⊢
        by_cases ht : t = t0
        · subst ht; simp at hv
        · rw [Function.update_of_ne ht] at hv; exact hq t a i hv
      | yaw y => exact hq t a i hv
      | wind y => exact hq t a i hv
      | loading y => exact hq t a i hv
      | chi y => exact hq t a i hv
      | eval y z => exact hq t a i hv
    | write a i p => exact hq
    | newArray rows => intro t a i hv; exact Nat.lt_succ_of_lt (hq t a i hv)
    | getLayout =>
      intro t a i hv
      simp only [fstep, farmLayout] at hv ⊢
      split at hv
      · rename_i l hl; simp only [hl]; exact Nat.lt_succ_of_lt (hq t a i hv)
      · rename_i l hl; simp only [hl]; exact hq t a i hv
    | setLayout x =>
      cases x with
      | wrong => exact hq
      | array a =>
        simp only [fstep]
        by_cases ha : a < q.2.next
        · simp only [if_pos ha, farmSetLayout]
          by_cases hl : (q.2.arr a).length ≠ farmNWT q.1
          · simp only [if_pos hl]; exact hq
          · simp only [if_neg hl]
            have := setRows_view a q.1 0 q.2 q.2.next hq ha
            rw [this.2]; exact this.1
        · simp only [if_neg ha]; exact hq
      | nested l =>
        simp only [fstep, farmSetLayout]
        by_cases hl : l.length ≠ farmNWT q.1
        · simp only [if_pos hl]; exact hq
        · simp only [if_neg hl]
          have := setRows_view q.2.next q.1 0 { q.2 with arr := Function.update q.2.arr q.2.next l, next := q.2.next + 1 } (q.2.next + 1)
            (fun t b j hb => Nat.lt_succ_of_lt (hq t b j hb)) (by omega)
          rw [this.2]; exact this.1
    | velocity pts o U0 =>
      have := farmVelocity_heap q.1 q.2 pts o U0
      simp only [fstep, this.1, this.2]
      exact hq
  have gen : ∀ (h : List FOp) (q : List PyObj × World), (∀ t a i, q.2.view t = some (a, i) → a < q.2.next) →
      ∀ t a i, (h.foldl (fstep mini) q).2.view t = some (a, i) → a < (h.foldl (fstep mini) q).2.next := by
    intro h
    induction h with
    | nil => intro q hq; exact hq
    | cons op h ih => intro q hq; exact ih _ (step q op hq)
  exact gen h _ (fun t a i hv => nomatch hv)

theorem nodup_last {ts : List ℕ} (h : ts.Nodup) {j t : ℕ} (hj : ts[j]? = some t) : ∀ k, ts[k]? = some t → k ≤ j := by
  intro k hk
  obtain ⟨h1, e1⟩ := List.getElem?_eq_some_iff.1 hj
  obtain ⟨h2, e2⟩ := List.getElem?_eq_some_iff.1 hk
  have := (h.getElem_inj_iff (hi := h1) (hj := h2)).1 (by rw [e1, e2])
  omega

/-- C21: after any history, assigning a layout with one row per turbine to a farm of pairwise distinct
turbines makes `layout` read back exactly these rows. -/
theorem C21_round_trip (mini : (ℝ → Num) → ℝ) (items : List PyObj) (wt : ℕ → WT) (h : List FOp) (ts : List ℕ)
    (hf : (frun mini items wt h).1 = ts.map .turbine) (hd : ts.Nodup) (x : LayoutArg) (rows : List (V3 ℝ))
    (hrows : (∃ a, x = .array a ∧ (frun mini items wt h).2.arr a = rows) ∨ x = .nested rows) (hlen : rows.length = ts.length) :
    let s := (farmSetLayout (frun mini items wt h).1 (frun mini items wt h).2 x).2
    ∃ a, (farmLayout (frun mini items wt h).1 s).1 = .ok a ∧ (farmLayout (frun mini items wt h).1 s).2.arr a = rows := by
  intro s
  obtain ⟨h1, h2, h3⟩ := C21_set ts (frun mini items wt h).2 x rows hrows hlen (fresh_run mini items wt h)
  rw [hf.symm] at h3
  have hl : layoutRows s (frun mini items wt h).1 = .ok rows := by
    rw [hf, layoutRows_turbines]
    congr 1
    apply List.ext_getElem (by rw [List.length_map, hlen])
    intro j g1 g2
    have hj : j < ts.length := by simpa using g1
    have := h3 j ts[j] (by simp [hj]) (nodup_last hd (by simp [hj])) rows[j] (by simp [g2])
    have e := congrArg WT.r_hub this
    rw [List.getElem_map]
    exact e
  unfold farmLayout
  rw [hl]
  exact ⟨s.next, rfl, by simp⟩

/-- C21: a layout of the wrong shape is rejected before any turbine is moved. -/
theorem C21_atomic (f : List PyObj) (s : World) (x : LayoutArg)
    (h : x = .wrong ∨ (∃ a, x = .array a ∧ (s.arr a).length ≠ f.length) ∨ (∃ l, x = .nested l ∧ l.length ≠ f.length)) :
    (∃ e, (farmSetLayout f s x).1 = .error e) ∧ (farmSetLayout f s x).2 = s := by
  rcases h with rfl | ⟨a, rfl, h⟩ | ⟨l, rfl, h⟩
  · exact ⟨⟨_, rfl⟩, rfl⟩
  · unfold farmSetLayout farmNWT; simp only; rw [if_pos h]; exact ⟨⟨_, rfl⟩, rfl⟩
  · unfold farmSetLayout farmNWT; simp only; rw [if_pos h]; exact ⟨⟨_, rfl⟩, rfl⟩

/-- C21: the array returned by `layout` is a copy: writing to it moves no turbine, in any history. -/
theorem C21_get_copies (mini : (ℝ → Num) → ℝ) (items : List PyObj) (wt : ℕ → WT) (h : List FOp) (a : ℕ)
    (ha : (farmLayout (frun mini items wt h).1 (frun mini items wt h).2).1 = .ok a) (i : ℕ) (p : V3 ℝ) (t : ℕ) :
    ((farmLayout (frun mini items wt h).1 (frun mini items wt h).2).2.write a i p).get t = (frun mini items wt h).2.get t := by
  have hfr := fresh_run mini items wt h
  revert ha hfr
  generalize frun mini items wt h = q
  intro ha hfr
  unfold farmLayout at ha ⊢
  cases hl : layoutRows q.2 q.1 with
  | error e => rw [hl] at ha; exact nomatch ha
  | ok l =>
    rw [hl] at ha
    simp only [Except.ok.injEq] at ha ⊢
    subst ha
    unfold World.get World.hub World.write
    simp only
    cases hv : q.2.view t with
    | none => rfl
    | some b =>
      have := hfr t b.1 b.2 hv
      simp only
      rw [Function.update_of_ne (by omega), Function.update_of_ne (by omega)]

/-- C21: the setter, on the contrary, keeps views of the array of the caller: writing later to row `j` of
that array moves the turbine `j` without any call on the farm. -/
theorem C21_set_aliases (ts : List ℕ) (hd : ts.Nodup) (s : World) (a : ℕ) (hlen : (s.arr a).length = ts.length) (j t : ℕ) (hj : ts[j]? = some t)
    (p : V3 ℝ) : ((farmSetLayout (ts.map .turbine) s (.array a)).2.write a j p).hub t = p := by
  have e : farmSetLayout (ts.map .turbine) s (.array a) = setRows a 0 (ts.map .turbine) s := by
    simp only [farmSetLayout, farmNWT, List.length_map, hlen, ne_eq, not_true_eq_false, if_false]
  obtain ⟨h1, h2, h3, h4, h5⟩ := setRows_spec a ts 0 s
  have hv := (h5 t).2 j hj (nodup_last hd hj)
  rw [e]
  have hjl : j < (s.arr a).length := by
    rw [hlen]; exact (List.getElem?_eq_some_iff.1 hj).1
  unfold World.hub World.write
  simp only [hv, h3, zero_add, Function.update_self]
  simp [List.getD_eq_getElem?_getD, hjl]

/-- the hypotheses of the round trip hold for two turbines in a fresh farm with a caller's array -/
example (mini : (ℝ → Num) → ℝ) (w : WT) :
    let q := frun mini [] (fun _ => w) [.append (.turbine 0), .append (.turbine 1), .newArray [⟨0,0,0⟩, ⟨5,0,0⟩]]
    q.1 = [0,1].map .turbine ∧ [0,1].Nodup ∧ q.2.arr 0 = [⟨0,0,0⟩, ⟨5,0,0⟩] := by
  refine ⟨rfl, by simp, ?_⟩
  rfl

/-- C21 (the same aliasing one turbine at a time): a turbine positioned with a row of a caller's array follows later writes to
that row, and only that turbine's position depends on it, whatever happened before. -/
theorem C21_position_aliases (s : World) (t a i : ℕ) (hi : i < (s.arr a).length) (p : V3 ℝ) :
    (s.placeAt t a i).hub t = (s.arr a).getD i 0 ∧ ((s.placeAt t a i).write a i p).hub t = p ∧
    ∀ t', t' ≠ t → (s.placeAt t a i).get t' = s.get t' := by
  refine ⟨by simp [World.placeAt, World.hub], ?_, fun t' ht => ?_⟩
  · simp [World.placeAt, World.hub, World.write, List.getD_eq_getElem?_getD, hi]
  · simp [World.placeAt, World.get, World.hub, Function.update_of_ne ht]

/-- C20 (histories): as long as the methods inherited from `list` are not used, after any history (appends accepted or rejected, turbine
calls, layout assignments, evaluations, failures) the farm is the list it was built from followed by the appended turbines in order. -/
theorem C20_history (mini : (ℝ → Num) → ℝ) (items : List PyObj) (wt : ℕ → WT) (h : List FOp) (hh : ∀ g, FOp.inherited g ∉ h) :
    (frun mini items wt h).1 = items ++ h.filterMap (fun | .append (.turbine t) => some (.turbine t) | _ => none) ∧
    farmNWT (frun mini items wt h).1 = items.length + h.countP (fun | .append (.turbine _) => true | _ => false) := by
  have gen : ∀ (h : List FOp) (q : List PyObj × World), (∀ g, FOp.inherited g ∉ h) →
      (h.foldl (fstep mini) q).1 = q.1 ++ h.filterMap (fun | .append (.turbine t) => some (.turbine t) | _ => none) := by
    intro h
    induction h with
    | nil => intro q _; simp
    | cons op h ih =>
      intro q hq
      rw [List.foldl_cons, ih _ (fun g hg => hq g (List.mem_cons_of_mem _ hg))]
      have hn : ∀ g, op ≠ .inherited g := fun g e => hq g (by rw [e]; exact List.mem_cons_self)
      cases op with
      | append x => cases x <;> simp [fstep, farmAppend]
      | inherited g => exact absurd rfl (hn g)
      | place t a i => simp only [fstep]; split_ifs <;> simp
      | setLayout x => cases x <;> simp only [fstep] <;> (try split_ifs) <;> simp
      | call t op => simp [fstep]
      | write a i p => simp [fstep]
      | newArray r => simp [fstep]
      | getLayout => simp [fstep]
      | velocity a b c => simp [fstep]
  have e := gen h (farmNew items, ⟨wt, fun _ => none, fun _ => [], 0⟩) hh
  refine ⟨e, ?_⟩
  unfold farmNWT frun
  rw [e, List.length_append]
  congr 1
  clear e hh
  induction h with
  | nil => rfl
  | cons op h ih =>
    cases op with
    | append x => cases x <;> simp [ih]
    | inherited g => simpa using ih
    | place t a i => simpa using ih
    | setLayout x => simpa using ih
    | call t op => simpa using ih
    | write a i p => simpa using ih
    | newArray r => simpa using ih
    | getLayout => simpa using ih
    | velocity a b c => simpa using ih

/-- C20: hence a farm built from turbines and filled only with `append` holds only turbines, whatever else was tried; -/
theorem C20_only_turbines (mini : (ℝ → Num) → ℝ) (items : List PyObj) (wt : ℕ → WT) (h : List FOp) (hh : ∀ g, FOp.inherited g ∉ h)
    (hi : PyObj.other ∉ items) : PyObj.other ∉ (frun mini items wt h).1 := by
  rw [(C20_history mini items wt h hh).1, List.mem_append]
  rintro (h1 | h1)
  · exact hi h1
  · obtain ⟨op, -, e⟩ := List.mem_filterMap.mp h1
    split at e
    · exact nomatch e
    · exact nomatch e

/-- C20: but `extend` is inherited and not checked: with it any object enters, and every evaluation of the farm then raises. -/
theorem C20_extend_unchecked (mini : (ℝ → Num) → ℝ) (items : List PyObj) (wt : ℕ → WT) (h : List FOp) (pts : List (V3 ℝ)) (o : Opts) (U0 : Option (V3 ℝ)) :
    let q := frun mini items wt (h ++ [.inherited fun f => f ++ [.other]])
    q.1 = (frun mini items wt h).1 ++ [.other] ∧ ∃ e, (farmVelocity q.1 q.2 pts o U0).1 = .error e := by
  intro q
  have e : q.1 = (frun mini items wt h).1 ++ [.other] := by
    show (frun mini items wt (h ++ [_])).1 = _
    unfold frun
    rw [List.foldl_append]
    rfl
  refine ⟨e, farmVelocity_err _ _ _ _ _ fun hx => ?_⟩
  obtain ⟨t, v, h1, -⟩ := hx .other (by rw [e]; simp)
  exact nomatch h1

/-- a history with a rejected append, a call and an evaluation uses no inherited method -/
example : ∀ g, FOp.inherited g ∉ [FOp.append (.turbine 3), .append .other, .call 3 (.yaw 0.1), .velocity [0] {} none] := by
  intro g h
  simp at h

end Wiz
