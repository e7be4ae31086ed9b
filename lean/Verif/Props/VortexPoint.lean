import Verif.Lemmas.VortexPoint

/-! # Properties of `vps_u` and `vp_u` (C70–C72) -/
namespace Wiz
open Spec

/-- C70: for every documented smoothing model, every set of control points and every system
of vortices (of any size), `vps_u` succeeds and returns at each control point the (finite)
sum over the vortices of the single-vortex velocity; in particular a vortex within
`√1e-15` of the control point contributes `0`.  The core sizes must be nonzero, unless the
model is 0, in which case `SmoothParam` is ignored altogether (it may be `None`). -/
theorem C70_superposition (sm ko : ℤ) (w : ℝ → ℝ) (h : coreFunction sm ko = some w)
    (CP : List (V2 ℝ)) (vs : List Vortex) (SP : Option (List ℝ))
    (hc : sm = 0 ∨ (SP = some (vs.map Vortex.core) ∧ ∀ v ∈ vs, v.core ≠ 0)) :
    vpsU CP (vs.map Vortex.pos) (vs.map Vortex.circ) sm ko SP
      = .ok (CP.map fun p => V2.fin (vs.map (vortexVelocity w p)).sum) :=
  vpsU_eval sm ko w h CP vs SP hc

/-- C70: the order in which the vortices are listed is immaterial. -/
theorem C70_order (sm ko : ℤ) (CP : List (V2 ℝ)) (vs vs' : List Vortex) (hp : vs.Perm vs')
    (hd : coreFunction sm ko ≠ none) (hc : sm = 0 ∨ ∀ v ∈ vs, v.core ≠ 0) :
    vpsU CP (vs.map Vortex.pos) (vs.map Vortex.circ) sm ko (some (vs.map Vortex.core))
      = vpsU CP (vs'.map Vortex.pos) (vs'.map Vortex.circ) sm ko (some (vs'.map Vortex.core)) := by
  obtain ⟨w, hw⟩ := Option.ne_none_iff_exists'.mp hd
  rw [vpsU_eval sm ko w hw CP vs _ (hc.imp id fun h => ⟨rfl, h⟩),
    vpsU_eval sm ko w hw CP vs' _ (hc.imp id fun h => ⟨rfl, fun v hv => h v (hp.mem_iff.mpr hv)⟩)]
  congr 1
  apply List.map_congr_left
  intro p _
  rw [(hp.map _).sum_eq]

/-- C70: a single vortex agrees with `vp_u`: unsmoothed for model 0, with a viscous core for
order 2 of models 1 and 2. -/
theorem C70_single (p v : V2 ℝ) (Γ core : ℝ) (ko : ℤ) (SP : Option (List ℝ))
    (hfar : 1e-15 ≤ (p.x - v.x)^2 + (p.y - v.y)^2) :
    vpsU [p] [v] [Γ] 0 ko SP = .ok [vpU p v Γ core false] ∧
    (core ≠ 0 → vpsU [p] [v] [Γ] 1 2 (some [core]) = .ok [vpU p v Γ core true] ∧
      vpsU [p] [v] [Γ] 2 2 (some [core]) = .ok [vpU p v Γ core true]) := by
  have hr0 : (p.x - v.x)^2 + (p.y - v.y)^2 ≠ 0 := by
    intro h0; rw [h0] at hfar; norm_num at hfar
  have hnl : ¬ (p.x - v.x)^2 + (p.y - v.y)^2 < 1e-15 := not_lt.mpr hfar
  have hpi : (2 : ℝ) * Real.pi ≠ 0 := by positivity
  have h0 : coreFunction 0 ko = some (fun _ => 1) := by simp [coreFunction]
  have h1 : coreFunction 1 2 = some (fun q => 1 - laguerre 0 q * Real.exp (-q)) := by
    simp [coreFunction]
  have h2 : coreFunction 2 2 = some (fun q => 1 - Real.exp (-q)) := by
    simp [coreFunction]
  have e0 := vpsU_eval 0 ko _ h0 [p] [⟨v, Γ, core⟩] SP (Or.inl rfl)
  simp only [List.map_cons, List.map_nil, List.sum_cons, List.sum_nil, add_zero, vortexVelocity, hnl, if_false] at e0
  refine ⟨?_, fun hcore => ?_⟩
  · rw [e0]
    simp only [vpU, V2.fin, Num.ofNat_def, Num.fin_mul, Num.fin_div hr0, Num.fin_div hpi, Bool.false_eq_true, if_false]
    congr 3 <;> ring
  · have e1 := vpsU_eval 1 2 _ h1 [p] [⟨v, Γ, core⟩] (some [core]) (Or.inr ⟨rfl, by simpa using hcore⟩)
    have e2 := vpsU_eval 2 2 _ h2 [p] [⟨v, Γ, core⟩] (some [core]) (Or.inr ⟨rfl, by simpa using hcore⟩)
    simp only [List.map_cons, List.map_nil, List.sum_cons, List.sum_nil, add_zero, vortexVelocity, hnl, if_false] at e1 e2
    rw [e1, e2]
    simp only [vpU, V2.fin, Num.ofNat_def, Num.one_def, Num.fin_neg, Num.fin_pow, Num.fin_mul, Num.fin_sub,
      Num.fin_div hr0, Num.fin_div hpi, if_true, Num.fin_div (pow_ne_zero 2 hcore), Num.exp_fin, laguerre0]
    constructor <;> (congr 3 <;> rw [neg_div] <;> ring)

/-- C70: with a zero core a higher-order kernel is not finite (`inf * 0`), so the condition on
the cores cannot be dropped. -/
theorem C70_zero_core (p v : V2 ℝ) (Γ : ℝ) (hfar : 1e-15 ≤ (p.x - v.x)^2 + (p.y - v.y)^2) :
    vpsU [p] [v] [Γ] 1 4 (some [0]) = .ok [⟨Num.nan, Num.nan⟩] := by
  have hr0 : 0 < (p.x - v.x)*(p.x - v.x) + (p.y - v.y)*(p.y - v.y) := by
    have : (0:ℝ) < 1e-15 := by norm_num
    nlinarith
  have hnl : ¬ (p.x - v.x)*(p.x - v.x) + (p.y - v.y)*(p.y - v.y) < 1e-15 := by
    rw [← sq, ← sq]; exact not_lt.mpr hfar
  have e : Num.fin ((p.x - v.x)*(p.x - v.x) + (p.y - v.y)*(p.y - v.y)) / Num.fin 0 = Num.pinf := by
    rw [Num.fin_div_zero, Num.infSign, if_pos hr0]
  have k : (1 : Num) - Num.pinf = Num.ninf := rfl
  have k2 : Num.exp (-Num.pinf) = Num.fin 0 := rfl
  have k3 : Num.ninf * Num.fin 0 = Num.nan := by
    change Num.infSign (-0) = _; simp [Num.infSign]
  simp only [vpsU, vpsSetup, vpsPoints, vpsLoop, vpsStep]
  norm_num
  rw [if_neg (by norm_num at hnl ⊢; exact hnl)]
  simp only [e]
  rw [show ((1 : Num) - Num.pinf) = Num.ninf from rfl, k2, k3]
  simp only [Num.sub_nan, Num.mul_nan, Num.nan_div]

/-- Interchange of two finite sums. -/
theorem list_sum_swap {α} (f : α → α → ℝ) (l m : List α) :
    (l.map fun a => (m.map (f a)).sum).sum = (m.map fun b => (l.map fun a => f a b).sum).sum := by
  induction l with
  | nil => simp
  | cons a l ih => simp only [List.map_cons, List.sum_cons, ih, List.sum_map_add]

theorem list_sum_antisymm {α} (f : α → α → ℝ) (l : List α) (h : ∀ a ∈ l, ∀ b ∈ l, f a b = - f b a) :
    (l.map fun a => (l.map (f a)).sum).sum = 0 := by
  have h1 : (l.map fun a => (l.map (f a)).sum).sum = (l.map fun a => (l.map fun b => - f b a).sum).sum := by
    apply congrArg
    apply List.map_congr_left
    intro a ha
    apply congrArg
    apply List.map_congr_left
    intro b hb
    exact h a ha b hb
  have h2 := list_sum_swap (fun a b => - f b a) l l
  have h3 : (l.map fun b => (l.map fun a => - f b a).sum).sum = - (l.map fun b => (l.map (f b)).sum).sum := by
    have hn : ∀ (g : α → ℝ) (m : List α), (m.map fun x => - g x).sum = - (m.map g).sum := by
      intro g m
      induction m with
      | nil => simp
      | cons x m ih => simp only [List.map_cons, List.sum_cons, ih]; ring
    simp only [hn]
  linarith [h1, h2, h3]

theorem V2.sum_x (l : List (V2 ℝ)) : l.sum.x = (l.map V2.x).sum := by
  induction l with
  | nil => rfl
  | cons a l ih => simp [ih]
theorem V2.sum_y (l : List (V2 ℝ)) : l.sum.y = (l.map V2.y).sum := by
  induction l with
  | nil => rfl
  | cons a l ih => simp [ih]

/-- C71: evaluated at the vortices' own positions, with no smoothing or a common core size,
the velocities returned by `vps_u` conserve linear impulse (`Σ Γᵢ uᵢ = 0`, both components)
and angular impulse (`Σ Γᵢ xᵢ·uᵢ = 0`), for every number of vortices. -/
theorem C71_impulse (sm ko : ℤ) (hd : coreFunction sm ko ≠ none) (vs : List Vortex)
    (hc : sm = 0 ∨ ∃ c : ℝ, c ≠ 0 ∧ ∀ v ∈ vs, v.core = c) :
    ∃ us : List (V2 ℝ),
      vpsU (vs.map Vortex.pos) (vs.map Vortex.pos) (vs.map Vortex.circ) sm ko (some (vs.map Vortex.core))
        = .ok (us.map V2.fin) ∧ us.length = vs.length ∧
      (List.zipWith (fun v u => v.circ * u.x) vs us).sum = 0 ∧
      (List.zipWith (fun v u => v.circ * u.y) vs us).sum = 0 ∧
      (List.zipWith (fun v u => v.circ * (v.pos.x * u.x + v.pos.y * u.y)) vs us).sum = 0 := by
  obtain ⟨w, hw⟩ := Option.ne_none_iff_exists'.mp hd
  have hcore : ∀ a ∈ vs, ∀ b ∈ vs, ∀ q : ℝ, w (q / a.core^2) = w (q / b.core^2) := by
    rcases hc with rfl | ⟨c, hc0, hc⟩
    · have : w = fun _ => 1 := by simpa [coreFunction] using hw.symm
      subst this; intros; rfl
    · intro a ha b hb q; rw [hc a ha, hc b hb]
  refine ⟨vs.map fun a => (vs.map (vortexVelocity w a.pos)).sum, ?_, by simp, ?_, ?_, ?_⟩
  · rw [vpsU_eval sm ko w hw]
    · rw [List.map_map, List.map_map]; rfl
    · refine hc.imp id fun ⟨c, hc0, h⟩ => ⟨rfl, fun v hv => ?_⟩
      rw [h v hv]; exact hc0
  all_goals
    rw [List.zipWith_map_right, List.zipWith_self]
    simp only [V2.sum_x, V2.sum_y, List.map_map, ← List.sum_map_mul_left, Function.comp_def, ← List.sum_map_add]
    apply list_sum_antisymm
    intro a ha b hb
    have e := hcore a ha b hb
    simp only [vortexVelocity]
    have e1 : (b.pos.x - a.pos.x)^2 + (b.pos.y - a.pos.y)^2 = (a.pos.x - b.pos.x)^2 + (a.pos.y - b.pos.y)^2 := by ring
    rw [e1]
    split_ifs with hr
    · simp
    · simp only [e]
      ring

example : ∃ vs : List Vortex, vs.length = 2 ∧ (∃ c : ℝ, c ≠ 0 ∧ ∀ v ∈ vs, v.core = c) ∧
    coreFunction 1 4 ≠ none ∧ (vs.map Vortex.circ).sum ≠ 0 :=
  ⟨[⟨⟨0,0⟩, 1, 2⟩, ⟨⟨1,0⟩, 3, 2⟩], rfl, ⟨2, by norm_num, by simp⟩, by simp [coreFunction], by norm_num⟩

/-- C72: every undocumented smoothing model or kernel order makes `vps_u` raise, whatever the
other arguments (even with no control point or no vortex), and every documented one is
accepted (with valid arrays). -/
theorem C72_rejection (sm ko : ℤ) (CP XV : List (V2 ℝ)) (G : List ℝ) (SP : Option (List ℝ)) :
    ((sm ≠ 0 ∧ sm ≠ 1 ∧ sm ≠ 2) ∨ (sm = 1 ∧ ko ≠ 2 ∧ ko ≠ 4 ∧ ko ≠ 6 ∧ ko ≠ 8) ∨
      (sm = 2 ∧ ko ≠ 2 ∧ ko ≠ 4 ∧ ko ≠ 6 ∧ ko ≠ 8 ∧ ko ≠ 10) → ∃ e, vpsU CP XV G sm ko SP = .error e) ∧
    (vpsU [] XV G sm ko SP = .ok [] ↔
      sm = 0 ∨ (sm = 1 ∧ (ko = 2 ∨ ko = 4 ∨ ko = 6 ∨ ko = 8)) ∨
      (sm = 2 ∧ (ko = 2 ∨ ko = 4 ∨ ko = 6 ∨ ko = 8 ∨ ko = 10))) := by
  constructor
  · intro h
    have hn : coreFunction sm ko = none := by
      unfold coreFunction
      rcases h with ⟨h0, h1, h2⟩ | ⟨rfl, h⟩ | ⟨rfl, h⟩
      · simp [h0, h1, h2]
      · simp [h]
      · simp [h]
    obtain ⟨e, he⟩ := setup_error sm ko hn
    exact ⟨e, by simp [vpsU, he]⟩
  · constructor
    · intro h
      by_contra hcon
      push Not at hcon
      have hn : coreFunction sm ko = none := by
        unfold coreFunction
        obtain ⟨h0, h1, h2⟩ := hcon
        by_cases s1 : sm = 1
        · subst s1; simp [h1 rfl]
        · by_cases s2 : sm = 2
          · subst s2; simp [h2 rfl]
          · simp [h0, s1, s2]
      obtain ⟨e, he⟩ := setup_error sm ko hn
      simp [vpsU, he] at h
    · intro h
      have hn : ∃ w, coreFunction sm ko = some w := by
        unfold coreFunction
        rcases h with rfl | ⟨rfl, h⟩ | ⟨rfl, h⟩
        · simp
        · simp [h]
        · rcases h with h | h
          · simp [h]
          · rcases h with h | h | h | h <;> simp [h]
      obtain ⟨w, hw⟩ := hn
      obtain ⟨k, hk, -⟩ := setup_ok sm ko w hw
      simp [vpsU, hk, vpsPoints]

end Wiz
