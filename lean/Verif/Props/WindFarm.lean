import Verif.Spec.WindFarm
import Verif.Props.TurbineField

/-! # Wind farms: superposition, order, appends (C18–C20) -/
namespace Wiz
open Classical

/-- the heap after the turbines of `f` have been evaluated -/
noncomputable def latch (s : World) (f : List PyObj) : World :=
  { s with wt := fun t => if .turbine t ∈ f then { s.wt t with chi := some (usedChi (s.get t)) } else s.wt t }

theorem latch_hub (s : World) (f : List PyObj) (t : ℕ) : (latch s f).hub t = s.hub t := by
  unfold World.hub latch
  simp only
  split
  · split <;> rfl
  · rfl

theorem latch_get (s : World) (f : List PyObj) (t : ℕ) :
    (latch s f).get t = if .turbine t ∈ f then { s.get t with chi := some (usedChi (s.get t)) } else s.get t := by
  unfold World.get
  rw [latch_hub]
  simp only [latch]
  by_cases h : PyObj.turbine t ∈ f
  · simp only [if_pos h]; rfl
  · simp only [if_neg h]

theorem computeU_latched (w : WT) (pts : List (V3 ℝ)) (o : Opts) :
    (({ w with chi := some (usedChi w) } : WT).computeU pts o).1 = (w.computeU pts o).1 := by
  rw [computeU_val, computeU_val]
  rfl

theorem latch_usedChi (s : World) (f : List PyObj) (t : ℕ) : usedChi ((latch s f).get t) = usedChi (s.get t) := by
  rw [latch_get]; split <;> rfl

theorem latch_induced (s : World) (f : List PyObj) (pts : List (V3 ℝ)) (o : Opts) (t : ℕ) :
    inducedBy (latch s f) pts o t = inducedBy s pts o t := by
  unfold inducedBy
  rw [latch_get]
  split
  · exact computeU_latched _ _ _
  · rfl

theorem latch_at (s : World) (f : List PyObj) (pts : List (V3 ℝ)) (o : Opts) (i : ℕ) (x : PyObj) :
    inducedAt (latch s f) pts o i x = inducedAt s pts o i x := by
  cases x with
  | other => rfl
  | turbine t => simp only [inducedAt, latch_induced]

theorem put_eq_latch (s : World) (t : ℕ) (pts : List (V3 ℝ)) (o : Opts) : s.put t ((s.get t).computeU pts o).2 = latch s [.turbine t] := by
  unfold World.put latch
  rw [computeU_state]
  congr 1
  funext t'
  by_cases h : t' = t
  · subst h; simp [Function.update_self, World.get]; rfl
  · simp [Function.update_of_ne h, h]

theorem latch_wt (s : World) (f : List PyObj) (t : ℕ) :
    (latch s f).wt t = if .turbine t ∈ f then { s.wt t with chi := some (usedChi (s.get t)) } else s.wt t := rfl

theorem world_ext (a b : World) (h1 : ∀ t, a.wt t = b.wt t) (h2 : a.view = b.view) (h3 : a.arr = b.arr) (h4 : a.next = b.next) : a = b := by
  cases a; cases b
  simp only at h1 h2 h3 h4
  rw [funext h1, h2, h3, h4]

theorem latch_append (s : World) (f g : List PyObj) : latch (latch s f) g = latch s (f ++ g) := by
  refine world_ext _ _ (fun t => ?_) rfl rfl rfl
  rw [latch_wt, latch_wt, latch_wt, latch_usedChi]
  by_cases ha : PyObj.turbine t ∈ f
  · by_cases hb : PyObj.turbine t ∈ g
    · rw [if_pos hb, if_pos ha, if_pos (by simp [ha])]
    · rw [if_neg hb, if_pos ha, if_pos (by simp [ha])]
  · by_cases hb : PyObj.turbine t ∈ g
    · rw [if_pos hb, if_neg ha, if_pos (by simp [hb])]
    · rw [if_neg hb, if_neg ha, if_neg (by simp [ha, hb])]

theorem latch_congr (s : World) (f g : List PyObj) (h : ∀ t, PyObj.turbine t ∈ f ↔ PyObj.turbine t ∈ g) : latch s f = latch s g := by
  refine world_ext _ _ (fun t => ?_) rfl rfl rfl
  rw [latch_wt, latch_wt]
  by_cases ha : PyObj.turbine t ∈ f
  · rw [if_pos ha, if_pos ((h t).1 ha)]
  · rw [if_neg ha, if_neg (fun hb => ha ((h t).2 hb))]

theorem latch_latch (s : World) (t : ℕ) (f : List PyObj) : latch (latch s [.turbine t]) f = latch s (.turbine t :: f) := latch_append _ _ _

theorem latch_nil (s : World) : latch s [] = s := by simp [latch]

theorem inducedBy_length (s : World) (pts : List (V3 ℝ)) (o : Opts) (t : ℕ) (v : List (V3 Num)) (h : inducedBy s pts o t = .ok v) : v.length = pts.length := by
  obtain ⟨gt, c, -, hc, hl, e⟩ := ok_cases h
  rw [e]
  simp only [WT.toGlobal, List.length_map]
  split
  · simp [zeroWake, relC_length, hl]
  · exact hl

theorem farmLoop_ok (pts : List (V3 ℝ)) (o : Opts) (f : List PyObj) : ∀ (s : World) (u : List (V3 Num)), u.length = pts.length →
    (∀ x ∈ f, ∃ t v, x = .turbine t ∧ inducedBy s pts o t = .ok v) →
    ∃ u', farmLoop pts o f s u = (.ok u', latch s f) ∧ u'.length = pts.length ∧
      ∀ i, u'.getD i 0 = u.getD i 0 + (f.map (inducedAt s pts o i)).sum := by
  induction f with
  | nil => intro s u hu _; exact ⟨u, by rw [latch_nil]; rfl, hu, fun i => by simp⟩
  | cons x f ih =>
    intro s u hu h
    obtain ⟨t, v, rfl, hv⟩ := h x (by simp)
    have hlen := inducedBy_length _ _ _ _ _ hv
    obtain ⟨u', h1, h2, h3⟩ := ih (latch s [.turbine t]) (addFields u v) (by rw [length_addFields _ _ (by rw [hu, hlen]), hu]) (by
      intro y hy
      obtain ⟨t', v', e1, e2⟩ := h y (by simp [hy])
      exact ⟨t', v', e1, by rw [latch_induced]; exact e2⟩)
    refine ⟨u', ?_, h2, ?_⟩
    · unfold farmLoop
      simp only
      rw [put_eq_latch]
      have hv' : ((s.get t).computeU pts { o with only_ind := true }).1 = .ok v := hv
      rw [hv']
      simp only
      rw [h1, latch_latch]
    · intro i
      rw [h3 i, getD_addFields _ _ (by rw [hu, hlen])]
      have e : (f.map (inducedAt (latch s [.turbine t]) pts o i)) = f.map (inducedAt s pts o i) := List.map_congr_left fun x _ => latch_at _ _ _ _ _ _
      rw [e, List.map_cons, List.sum_cons, add_assoc]
      congr 2
      simp only [inducedAt, hv]

theorem farmLoop_err (pts : List (V3 ℝ)) (o : Opts) (f : List PyObj) : ∀ (s : World) (u : List (V3 Num)),
    ¬ (∀ x ∈ f, ∃ t v, x = .turbine t ∧ inducedBy s pts o t = .ok v) → ∃ e, (farmLoop pts o f s u).1 = .error e := by
  induction f with
  | nil => intro s u h; exact absurd (by simp) h
  | cons x f ih =>
    intro s u h
    cases x with
    | other => exact ⟨_, rfl⟩
    | turbine t =>
      unfold farmLoop
      simp only
      rw [put_eq_latch]
      cases hv : ((s.get t).computeU pts { o with only_ind := true }).1 with
      | error e => exact ⟨e, rfl⟩
      | ok v =>
        apply ih
        intro h'
        apply h
        intro x hx
        rcases List.mem_cons.1 hx with rfl | hx
        · exact ⟨t, v, rfl, hv⟩
        · obtain ⟨t', v', e1, e2⟩ := h' x hx
          exact ⟨t', v', e1, by rw [latch_induced] at e2; exact e2⟩

theorem farmVelocity_ok (f : List PyObj) (s : World) (pts : List (V3 ℝ)) (o : Opts) (U0 : Option (V3 ℝ))
    (h : ∀ x ∈ f, ∃ t v, x = .turbine t ∧ inducedBy s pts o t = .ok v) :
    ∃ u, farmVelocity f s pts o U0 = (.ok u, latch s f) ∧ u.length = pts.length ∧
      ∀ i < pts.length, u.getD i 0 = (f.map (inducedAt s pts o i)).sum + freeStream U0 := by
  obtain ⟨u, h1, h2, h3⟩ := farmLoop_ok pts o f s (pts.map fun _ => 0) (by simp) h
  unfold farmVelocity
  rw [h1]
  cases U0 with
  | none => exact ⟨u, rfl, h2, fun i _ => by rw [h3, getD_zeros]; simp [freeStream]⟩
  | some U =>
    refine ⟨u.map fun v => v + V3.fin U, rfl, by simpa using h2, fun i hi => ?_⟩
    have := h3 i
    rw [getD_zeros, zero_add] at this
    rw [← this]
    have hi' : i < u.length := by omega
    simp [List.getD_eq_getElem?_getD, hi', freeStream]

theorem farmVelocity_err (f : List PyObj) (s : World) (pts : List (V3 ℝ)) (o : Opts) (U0 : Option (V3 ℝ))
    (h : ¬ ∀ x ∈ f, ∃ t v, x = .turbine t ∧ inducedBy s pts o t = .ok v) : ∃ e, (farmVelocity f s pts o U0).1 = .error e := by
  obtain ⟨e, he⟩ := farmLoop_err pts o f s (pts.map fun _ => 0) h
  unfold farmVelocity
  cases hl : farmLoop pts o f s (pts.map fun _ => 0) with
  | mk a b =>
    rw [hl] at he
    simp only at he
    subst he
    exact ⟨e, rfl⟩

/-- C18: `velocity_field` returns, at every point, the sum over the items of the farm of what each turbine
would return on its own in the present state (a turbine listed twice counts twice), plus the free stream
if one is given. -/
theorem C18_sum (f : List PyObj) (s : World) (pts : List (V3 ℝ)) (o : Opts) (U0 : Option (V3 ℝ)) (u : List (V3 Num))
    (h : (farmVelocity f s pts o U0).1 = .ok u) :
    u.length = pts.length ∧
    ∀ i < pts.length, u.getD i 0 = (f.map (inducedAt s pts o i)).sum + freeStream U0 := by
  by_cases hok : ∀ x ∈ f, ∃ t v, x = .turbine t ∧ inducedBy s pts o t = .ok v
  · obtain ⟨u', h1, h2, h3⟩ := farmVelocity_ok f s pts o U0 hok
    rw [h1] at h
    rw [← Except.ok.inj h]
    exact ⟨h2, h3⟩
  · obtain ⟨e, he⟩ := farmVelocity_err f s pts o U0 hok
    rw [he] at h
    exact nomatch h

/-- C18: it succeeds exactly when every item is a turbine whose own evaluation succeeds. -/
theorem C18_succeeds_iff (f : List PyObj) (s : World) (pts : List (V3 ℝ)) (o : Opts) (U0 : Option (V3 ℝ)) :
    (∃ u, (farmVelocity f s pts o U0).1 = .ok u) ↔ ∀ x ∈ f, ∃ t v, x = .turbine t ∧ inducedBy s pts o t = .ok v := by
  constructor
  · rintro ⟨u, hu⟩
    by_contra hok
    obtain ⟨e, he⟩ := farmVelocity_err f s pts o U0 hok
    rw [he] at hu
    exact nomatch hu
  · intro hok
    obtain ⟨u', h1, -, -⟩ := farmVelocity_ok f s pts o U0 hok
    exact ⟨u', by rw [h1]⟩

/-- C18: an empty farm returns the free stream, or zero, at every point, and touches nothing. -/
theorem C18_empty (s : World) (pts : List (V3 ℝ)) (o : Opts) (U0 : Option (V3 ℝ)) :
    farmVelocity [] s pts o U0 = (.ok (pts.map fun _ => freeStream U0), s) := by
  unfold farmVelocity farmLoop
  cases U0 <;> simp [freeStream]

/-- C18: an evaluation leaves every turbine as it was, except that the skew angle it worked with is now
stored; in particular evaluating again gives the same field. -/
theorem C18_repeatable (f : List PyObj) (s : World) (pts : List (V3 ℝ)) (o : Opts) (U0 : Option (V3 ℝ)) (u : List (V3 Num))
    (h : (farmVelocity f s pts o U0).1 = .ok u) :
    (∀ t, ∃ χ, (farmVelocity f s pts o U0).2.get t = { s.get t with chi := χ }) ∧
    ∀ pts' o' U0', (farmVelocity f (farmVelocity f s pts o U0).2 pts' o' U0').1 = (farmVelocity f s pts' o' U0').1 := by
  have hok := (C18_succeeds_iff f s pts o U0).1 ⟨u, h⟩
  obtain ⟨u', h1, -, -⟩ := farmVelocity_ok f s pts o U0 hok
  rw [h1]
  refine ⟨fun t => ?_, ?_⟩
  · rw [latch_get]
    split
    · exact ⟨_, rfl⟩
    · exact ⟨(s.get t).chi, rfl⟩
  · intro pts' o' U0'
    have gen : ∀ (g : List PyObj) (s' : World) (u : List (V3 Num)), (farmLoop pts' o' g (latch s' f) u).1 = (farmLoop pts' o' g s' u).1 := by
      intro g
      induction g with
      | nil => intro s' u; rfl
      | cons x g ih =>
        intro s' u
        cases x with
        | other => rfl
        | turbine t =>
          unfold farmLoop
          simp only
          rw [put_eq_latch, put_eq_latch]
          have e : (((latch s' f).get t).computeU pts' { o' with only_ind := true }).1 = ((s'.get t).computeU pts' { o' with only_ind := true }).1 := latch_induced s' f pts' o' t
          rw [e]
          cases ((s'.get t).computeU pts' { o' with only_ind := true }).1 with
          | error e => rfl
          | ok v =>
            simp only
            have comm : latch (latch s' f) [.turbine t] = latch (latch s' [.turbine t]) f := by
              rw [latch_append, latch_append]
              exact latch_congr _ _ _ fun t' => by simp [or_comm]
            rw [comm]
            exact ih _ _
    have key := gen f s (pts'.map fun _ => 0)
    unfold farmVelocity
    cases ha : farmLoop pts' o' f (latch s f) (pts'.map fun _ => 0) with
    | mk a1 b1 =>
      cases hb : farmLoop pts' o' f s (pts'.map fun _ => 0) with
      | mk a2 b2 =>
        rw [ha, hb] at key
        simp only at key
        subst key
        cases a1 <;> cases U0' <;> rfl

/-- C19: permuting the items of a farm changes neither the success nor the field nor the state in which
the turbines are left. -/
theorem C19_order (f f' : List PyObj) (hp : f.Perm f') (s : World) (pts : List (V3 ℝ)) (o : Opts) (U0 : Option (V3 ℝ)) (u : List (V3 Num)) (s' : World) :
    farmVelocity f s pts o U0 = (.ok u, s') ↔ farmVelocity f' s pts o U0 = (.ok u, s') := by
  have one : ∀ f f' : List PyObj, f.Perm f' → farmVelocity f s pts o U0 = (.ok u, s') → farmVelocity f' s pts o U0 = (.ok u, s') := by
    intro f f' hp h
    have hok := (C18_succeeds_iff f s pts o U0).1 ⟨u, by rw [h]⟩
    obtain ⟨u1, h1, h2, h3⟩ := farmVelocity_ok f s pts o U0 hok
    obtain ⟨u1', h1', h2', h3'⟩ := farmVelocity_ok f' s pts o U0 (fun x hx => hok x (hp.mem_iff.2 hx))
    rw [h1] at h
    rw [h1']
    obtain ⟨e1, e2⟩ := Prod.mk.inj h
    have e1 := Except.ok.inj e1
    subst e1 e2
    rw [latch_congr s f' f fun t => hp.symm.mem_iff]
    congr 2
    · refine ext_getD (by rw [h2, h2']) fun i => ?_
      by_cases hi : i < pts.length
      · rw [h3 i hi, h3' i hi, (hp.map _).sum_eq]
      · simp [List.getD_eq_getElem?_getD, h2, h2', hi]
  exact ⟨one f f' hp, one f' f hp.symm⟩

/-- two loaded turbines and a duplicate -/
example (mini : (ℝ → Num) → ℝ) : let w := refTurbine.run mini [.loading refLoad]
    let s : World := ⟨fun _ => w, fun _ => none, fun _ => [], 0⟩
    ∃ u, (farmVelocity [.turbine 0, .turbine 1, .turbine 0] s [⟨0,0,-1⟩] {} (some ⟨0,0,10⟩)).1 = .ok u := by
  intro w s
  rw [C18_succeeds_iff]
  have key : ∀ t, ∃ v, inducedBy s [⟨0,0,-1⟩] {} t = .ok v := by
    intro t
    obtain ⟨r, Ct, hl⟩ := refTurbine_loaded mini refTurbine rfl
    have hw : w = (refTurbine.updateLoading mini refLoad).2 := rfl
    have hget : s.get t = w := rfl
    have hg : w.gamma_t = some [-1] := by rw [hw, hl]
    have hgl : w.gamma_l = none := by rw [hw, hl]
    have hM : w.Model = "VD" := by rw [hw, hl]; rfl
    unfold inducedBy
    rw [hget]
    refine (C16_single w _ hg (.inl hgl) _ (by simp) _ (usedChi w) (by rw [computeU_state]; rfl)).2 ⟨fun _ => .inr ⟨?_, ?_⟩, fun x h => by simp at h⟩
    · have hyw : w.yawWind = .fin 0 := by
        refine aligned_yawWind w 1 ?_ ?_
        · exact frame_run mini _ _ 1 [.loading refLoad] _ (frame_new 1 0 ⟨0,0,1⟩ ⟨0,1,0⟩ ⟨0,0,1⟩ (some .pinf) false "VD")
        · rw [hw, hl]; rfl
      have hc : usedChi w = w.chiAuto := by
        have : w.chi = none := by rw [hw, hl]; rfl
        unfold usedChi; rw [this]
      have hy0 : w.yaw_pos = 0 := by rw [hw, hl]; rfl
      rw [hc]
      unfold WT.chiAuto
      simp only [hyw, hy0]
      have : Num.fin 0 - Num.fin 0 = 0 := by simp
      rw [this]
      have h2 : ∀ x : ℝ, Num.sign (.fin x) * 0 = 0 := fun x => by simp [Num.sign]
      rw [h2]
      simp; norm_num
    · simp [hM]
  intro x hx
  simp only [List.mem_cons, List.not_mem_nil, or_false] at hx
  rcases hx with rfl | rfl | rfl
  · obtain ⟨v, hv⟩ := key 0; exact ⟨0, v, rfl, hv⟩
  · obtain ⟨v, hv⟩ := key 1; exact ⟨1, v, rfl, hv⟩
  · obtain ⟨v, hv⟩ := key 0; exact ⟨0, v, rfl, hv⟩

/-- C20: after any sequence of `append` calls the farm lists what it had, then the appended turbines in
order; every other object was rejected with an exception that left the farm as it was; `nWT` is the
number of items. -/
theorem C20_appends (items : List PyObj) (xs : List PyObj) :
    (xs.foldl (fun f x => (farmAppend f x).2) (farmNew items) = items ++ xs.filter (fun x => x ≠ .other)) ∧
    (farmNWT (xs.foldl (fun f x => (farmAppend f x).2) (farmNew items)) = items.length + (xs.filter (fun x => x ≠ .other)).length) ∧
    ∀ f, (farmAppend f .other).2 = f ∧ (∃ e, (farmAppend f .other).1 = .error e) ∧ ∀ t, (farmAppend f (.turbine t)).1 = .ok () := by
  have main : ∀ f, xs.foldl (fun f x => (farmAppend f x).2) f = f ++ xs.filter (fun x => x ≠ .other) := by
    induction xs with
    | nil => intro f; simp
    | cons x xs ih =>
      intro f
      rw [List.foldl_cons, ih]
      cases x with
      | other => simp [farmAppend]
      | turbine t => simp [farmAppend]
  refine ⟨main _, ?_, fun f => ⟨rfl, ⟨_, rfl⟩, fun t => rfl⟩⟩
  unfold farmNWT
  rw [main, List.length_append]
  rfl

example : (farmAppend (farmAppend [] (.turbine 3)).2 .other).2 = [.turbine 3] := rfl

/-- the constructor does not check its items: one that is not a turbine makes every evaluation raise -/
theorem C20_constructor_unchecked (f g : List PyObj) (s : World) (pts : List (V3 ℝ)) (o : Opts) (U0 : Option (V3 ℝ)) :
    farmNew (f ++ .other :: g) = f ++ .other :: g ∧ ∃ e, (farmVelocity (farmNew (f ++ .other :: g)) s pts o U0).1 = .error e := by
  refine ⟨rfl, farmVelocity_err _ _ _ _ _ fun h => ?_⟩
  obtain ⟨t, v, h1, -⟩ := h .other (by simp [farmNew])
  exact nomatch h1

end Wiz
