import Verif.Lemmas.Solver
import Mathlib.Analysis.SpecialFunctions.Sqrt
import Mathlib.Analysis.Calculus.Deriv.Slope
import Mathlib.Analysis.Calculus.Deriv.Mul

/-! # Loading profiles, stream-tube inductions, prescribed thrust (C24–C26, C29) -/
namespace Wiz
open Spec Real Set Classical

/-- C24: the profile of `Ct_const_cutoff` with a tip radius: on `[0,1]` it is finite, within
`[0,CT0]`, vanishes at the root and at the tip, equals `CT0` between the two radii, is continuous,
non-decreasing inboard and non-increasing outboard; an array is treated entry by entry. -/
theorem C24_shape (CT0 rc rt : ℝ) (h0 : 0 ≤ CT0) (hc : 0 < rc) (hct : rc ≤ rt) (ht : rt < 1) :
    ∃ f : ℝ → ℝ, (∀ vr : List ℝ, ctConstCutoff CT0 rc vr (some rt) = vr.map fun r => Num.fin (f r)) ∧
      f 0 = 0 ∧ f 1 = 0 ∧ (∀ r ∈ Icc rc rt, f r = CT0) ∧ (∀ r ∈ Icc (0:ℝ) 1, f r ∈ Icc 0 CT0) ∧
      ContinuousOn f (Icc 0 1) ∧ MonotoneOn f (Icc 0 rc) ∧ AntitoneOn f (Icc rt 1) := by
  have h1t : 0 < 1 - rt := by linarith
  let f : ℝ → ℝ := fun r => CT0 * min (r / rc) (min 1 (1 - (r - rt) / (1 - rt)))
  have fA : ∀ r ≤ rc, f r = CT0 * (r / rc) := by
    intro r hr
    have a1 : r / rc ≤ 1 := (div_le_one hc).mpr hr
    have a2 : 0 ≤ (rt - r) / (1 - rt) := div_nonneg (by linarith) h1t.le
    have a3 : (r - rt) / (1 - rt) = - ((rt - r) / (1 - rt)) := by ring
    show CT0 * _ = _
    rw [min_eq_left]
    exact le_min a1 (by linarith)
  have fB : ∀ r, rc ≤ r → r ≤ rt → f r = CT0 := by
    intro r hr hr'
    have a1 : 1 ≤ r / rc := (one_le_div hc).mpr hr
    have a2 : 0 ≤ (rt - r) / (1 - rt) := div_nonneg (by linarith) h1t.le
    have a3 : (r - rt) / (1 - rt) = - ((rt - r) / (1 - rt)) := by ring
    show CT0 * _ = _
    rw [min_eq_left (show (1:ℝ) ≤ 1 - (r - rt) / (1 - rt) by linarith), min_eq_right a1, mul_one]
  have fC : ∀ r, rt ≤ r → f r = CT0 * (1 - (r - rt) / (1 - rt)) := by
    intro r hr
    have a1 : 1 ≤ r / rc := (one_le_div hc).mpr (by linarith)
    have a2 : 0 ≤ (r - rt) / (1 - rt) := div_nonneg (by linarith) h1t.le
    show CT0 * _ = _
    rw [min_eq_right (show 1 - (r - rt) / (1 - rt) ≤ 1 by linarith), min_eq_right (by linarith)]
  have eval : ∀ r, ctConstCutoff1 CT0 rc (some rt) r = .fin (f r) := by
    intro r
    unfold ctConstCutoff1
    simp only
    by_cases hr : r > rt
    · rw [if_pos hr, fC r hr.le]
      simp only [Num.one_def, Num.fin_sub, Num.fin_div h1t.ne', Num.fin_mul]
    · rw [if_neg hr]
      push Not at hr
      by_cases hr' : r < rc
      · rw [if_pos hr', fA r hr'.le]
        simp only [Num.fin_mul, Num.fin_div hc.ne']
        congr 1; ring
      · rw [if_neg hr', fB r (not_lt.mp hr') hr]
  refine ⟨f, ?_, ?_, ?_, ?_, ?_, ?_, ?_, ?_⟩
  · intro vr
    unfold ctConstCutoff
    exact List.map_congr_left fun r _ => eval r
  · rw [fA 0 hc.le]; simp
  · rw [fC 1 ht.le, div_self h1t.ne']; simp
  · intro r hr; exact fB r hr.1 hr.2
  · intro r hr
    rw [mem_Icc] at hr
    have m0 : 0 ≤ min (r / rc) (min 1 (1 - (r - rt) / (1 - rt))) := by
      refine le_min (div_nonneg hr.1 hc.le) (le_min zero_le_one ?_)
      have : (r - rt) / (1 - rt) ≤ 1 := (div_le_one h1t).mpr (by linarith)
      linarith
    have m1 : min (r / rc) (min 1 (1 - (r - rt) / (1 - rt))) ≤ 1 := le_trans (min_le_right _ _) (min_le_left _ _)
    exact ⟨mul_nonneg h0 m0, mul_le_of_le_one_right h0 m1⟩
  · have : Continuous f := by
      apply Continuous.mul continuous_const
      apply Continuous.min
      · exact continuous_id.div_const _
      · apply Continuous.min continuous_const
        exact continuous_const.sub ((continuous_id.sub continuous_const).div_const _)
    exact this.continuousOn
  · intro x hx y hy hxy
    rw [fA x hx.2, fA y hy.2]
    exact mul_le_mul_of_nonneg_left (div_le_div_of_nonneg_right hxy hc.le) h0
  · intro x hx y hy hxy
    rw [fC x hx.1, fC y hy.1]
    apply mul_le_mul_of_nonneg_left _ h0
    have : (x - rt) / (1 - rt) ≤ (y - rt) / (1 - rt) := div_le_div_of_nonneg_right (by linarith) h1t.le
    linarith

/-- C24: without a tip radius the profile is the inboard ramp and then `CT0`. -/
theorem C24_no_tip (CT0 rc : ℝ) (hc : 0 < rc) (vr : List ℝ) :
    ctConstCutoff CT0 rc vr none = vr.map fun r => Num.fin (CT0 * min (r / rc) 1) := by
  unfold ctConstCutoff
  apply List.map_congr_left
  intro r _
  unfold ctConstCutoff1
  simp only
  by_cases hr : r < rc
  · rw [if_pos hr, min_eq_left ((div_le_one hc).mpr hr.le)]
    simp only [Num.fin_mul, Num.fin_div hc.ne']
    congr 1; ring
  · rw [if_neg hr, min_eq_right ((one_le_div hc).mpr (not_lt.mp hr)), mul_one]

example : (0:ℝ) ≤ 0.8 ∧ (0:ℝ) < 0.11 ∧ (0.11:ℝ) ≤ 0.95 ∧ (0.95:ℝ) < 1 := by norm_num

/-- C25: stream-tube induction: momentum balance `4a(1-a)=Ct`, on the branch `a ≤ 1/2`. -/
theorem C25_axial (r_bar Cq Lambda : Num) (Ct : ℝ) (bSwirl : Bool) (h : Ct ≤ 1) :
    ∃ a : ℝ, (inductionsST r_bar (.fin Ct) Cq Lambda bSwirl).1 = .fin a ∧ 4 * a * (1 - a) = Ct ∧ a ≤ 1/2 := by
  have h1 : 0 ≤ 1 - Ct := by linarith
  refine ⟨1/2 * (1 - √(1 - Ct)), ?_, ?_, ?_⟩
  · unfold inductionsST
    simp only [Num.one_def, Num.fin_sub, Num.sqrt_fin h1, Num.fin_mul]
  · have := Real.sq_sqrt h1
    nlinarith
  · have := Real.sqrt_nonneg (1 - Ct)
    linarith

/-- C25: with swirl, angular momentum balance `4a'(1-a)λ_r=Cq`; without swirl `a'=0`. -/
theorem C25_tangential (r_bar Ct Cq Lambda : ℝ) (h : Ct ≤ 1) (hr : r_bar ≠ 0) (hl : Lambda ≠ 0) :
    (∃ a a' : ℝ, inductionsST (.fin r_bar) (.fin Ct) (.fin Cq) (.fin Lambda) true = (.fin a, .fin a') ∧
      4 * a' * (1 - a) * (Lambda * r_bar) = Cq) ∧
    (inductionsST (.fin r_bar) (.fin Ct) (.fin Cq) (.fin Lambda) false).2 = .fin 0 := by
  have h1 : 0 ≤ 1 - Ct := by linarith
  constructor
  · have hs := Real.sqrt_nonneg (1 - Ct)
    have hp : 0 < 1 - 1/2 * (1 - √(1 - Ct)) := by linarith
    have hd : 4 * (1 - 1/2 * (1 - √(1 - Ct))) * (Lambda * r_bar) ≠ 0 := by positivity
    refine ⟨1/2 * (1 - √(1 - Ct)), Cq / (4 * (1 - 1/2 * (1 - √(1 - Ct))) * (Lambda * r_bar)), ?_, ?_⟩
    · unfold inductionsST
      simp only [Num.one_def, Num.ofNat_def, Num.fin_sub, Num.sqrt_fin h1, Num.fin_mul, if_true, Num.fin_div hd]
    · generalize 1 - 1/2 * (1 - √(1 - Ct)) = u at *
      field_simp
  · rfl

/-- C25: beyond `Ct=1` the stream-tube induction is `nan`. -/
theorem C25_overload (r_bar Cq Lambda : Num) (Ct : ℝ) (bSwirl : Bool) (h : 1 < Ct) :
    (inductionsST r_bar (.fin Ct) Cq Lambda bSwirl).1 = .nan := by
  unfold inductionsST
  simp only [Num.one_def, Num.fin_sub, Num.sqrt_fin_neg (show 1 - Ct < 0 by linarith), Num.sub_nan, Num.mul_nan]

/-- the inductions of a thrust coefficient 8/9 with `Cq=1/10`, `λ=5` at mid radius -/
example : ((8:ℝ)/9 ≤ 1) ∧ ((1:ℝ)/2 ≠ 0) ∧ ((5:ℝ) ≠ 0) ∧ (1:ℝ) < 1.2 := by norm_num

/-! ### Prescribed thrust -/

/-- `k` is an exact minimiser of `f` on `[0,1.8]` -/
def IsExactMin (f : ℝ → Num) (k : ℝ) : Prop := 0 ≤ k ∧ k ≤ 1.8 ∧ ∀ k', 0 ≤ k' → k' ≤ 1.8 → f k ≤ f k'

theorem ctObjective_fin (l Ct k : ℝ) (hl : l ≠ 0) : ctObjective (.fin l) (.fin Ct) k = .fin |ctKJ k l - Ct| := by
  have : 4 * l^2 ≠ 0 := by positivity
  unfold ctObjective ctKJ
  simp only [Num.one_def, Num.ofNat_def, Num.fin_pow, Num.fin_mul, Num.fin_div this, Num.fin_add, Num.fin_sub, Num.abs_fin]

/-- expansion of the Kutta–Joukowski thrust -/
theorem ctKJ_eq (k l : ℝ) : ctKJ k l = k + k^2 * (1 / (4 * l^2)) := by unfold ctKJ; ring

/-- C26 (expansion): on `k ≥ 0` the thrust grows at least as fast as `k`. -/
theorem ctKJ_expand (k k' l : ℝ) (hk : 0 ≤ k) (h : k ≤ k') : k' - k ≤ ctKJ k' l - ctKJ k l := by
  rw [ctKJ_eq, ctKJ_eq]
  have hc : 0 ≤ 1 / (4 * l^2) := by positivity
  generalize 1 / (4 * l^2) = c at hc
  nlinarith [mul_nonneg hc (mul_nonneg (sub_nonneg.mpr h) (add_nonneg hk (le_trans hk h)))]

/-- C26: for every `Ct>0`, `λ_r>0` the equation `k(1+k/(4λ_r²))=Ct` has exactly one root `k≥0`,
and that root lies strictly between 0 and `Ct`. -/
theorem C26_unique_root (l Ct : ℝ) (hl : 0 < l) (hC : 0 < Ct) :
    ∃ k, (0 < k ∧ k < Ct ∧ k * (1 + k / (4 * l^2)) = Ct) ∧ ∀ k', 0 ≤ k' → k' * (1 + k' / (4 * l^2)) = Ct → k' = k := by
  have hcont : ContinuousOn (fun k => ctKJ k l) (Icc 0 Ct) := by
    apply Continuous.continuousOn
    unfold ctKJ
    exact continuous_id.mul (continuous_const.add (continuous_id.div_const _))
  have hmem : Ct ∈ Icc (ctKJ 0 l) (ctKJ Ct l) := by
    constructor
    · unfold ctKJ; simpa using hC.le
    · rw [ctKJ_eq]
      have : 0 ≤ Ct^2 * (1 / (4 * l^2)) := by positivity
      linarith
  obtain ⟨k, hk, e⟩ := intermediate_value_Icc hC.le hcont hmem
  have e' : ctKJ k l = Ct := e
  have hpos : 0 < k := by
    rcases hk.1.lt_or_eq with h | h
    · exact h
    · rw [← h] at e'; simp [ctKJ] at e'; exact absurd e' hC.ne
  refine ⟨k, ⟨hpos, ?_, e'⟩, ?_⟩
  · rw [ctKJ_eq] at e'
    have : 0 < k^2 * (1 / (4 * l^2)) := by positivity
    linarith
  · intro k' h0 h1
    have h1' : ctKJ k' l = Ct := h1
    rcases le_total k k' with h | h
    · have := ctKJ_expand k k' l hpos.le h
      linarith
    · have := ctKJ_expand k' k l h0 h
      linarith

/-- C26: the minimised objective is finite, strictly decreasing before the root and strictly
increasing after it. -/
theorem C26_unimodal (l Ct k : ℝ) (hl : 0 < l) (hk : 0 ≤ k) (e : k * (1 + k / (4 * l^2)) = Ct) :
    ∃ f : ℝ → ℝ, (∀ x, ctObjective (.fin l) (.fin Ct) x = .fin (f x)) ∧ StrictAntiOn f (Icc 0 k) ∧
      StrictMonoOn f (Ici k) ∧ f k = 0 := by
  refine ⟨fun x => |ctKJ x l - Ct|, fun x => ctObjective_fin l Ct x hl.ne', ?_, ?_, ?_⟩
  · intro x hx y hy hxy
    have h1 := ctKJ_expand x y l hx.1 hxy.le
    have h2 := ctKJ_expand y k l hy.1 hy.2
    have e' : ctKJ k l = Ct := e
    simp only
    rw [abs_of_nonpos (by linarith [hy.2]), abs_of_nonpos (by linarith [hy.2])]
    linarith
  · intro x hx y hy hxy
    have hx' : k ≤ x := hx
    have h1 := ctKJ_expand x y l (le_trans hk hx) hxy.le
    have h2 := ctKJ_expand k x l hk hx
    have e' : ctKJ k l = Ct := e
    simp only
    rw [abs_of_nonneg (by linarith), abs_of_nonneg (by linarith)]
    linarith
  · have e' : ctKJ k l = Ct := e
    simp [e']

/-- C26 (robustness): if the optimiser stops at a `k≥0` with residual `δ`, it is within `δ` of the
exact root. -/
theorem C26_residual_bound (l Ct k k0 δ : ℝ) (hl : 0 < l) (hk : 0 ≤ k) (hk0 : 0 ≤ k0)
    (e : k0 * (1 + k0 / (4 * l^2)) = Ct) (h : ctObjective (.fin l) (.fin Ct) k ≤ .fin δ) : |k - k0| ≤ δ := by
  rw [ctObjective_fin l Ct k hl.ne', Num.le_fin] at h
  have e' : ctKJ k0 l = Ct := e
  have h := abs_le.mp h
  rw [abs_le]
  rcases le_total k k0 with h' | h'
  · have := ctKJ_expand k k0 l hk h'
    constructor <;> linarith
  · have := ctKJ_expand k0 k l hk0 h'
    constructor <;> linarith

/-- C26: with any exact minimiser on `[0,1.8]`, at every station of an array of any length:
the circulation reproduces the prescribed thrust when the root is at most 1.8, is 1.8 when the
root is larger, and is 0 when the prescribed thrust or the radius is not positive. -/
theorem C26_reproduces (minimize : (ℝ → Num) → ℝ)
    (hmin : ∀ l Ct : ℝ, 0 < l → 0 < Ct → IsExactMin (ctObjective (.fin l) (.fin Ct)) (minimize (ctObjective (.fin l) (.fin Ct))))
    (n : ℕ) (r Ct : ℕ → ℝ) (Lambda : ℝ) (hL : 0 < Lambda) (i : ℕ) (hi : i < n) :
    ∃ k : ℝ, idx (circulationFromPrescribedCt minimize (farr n r) (farr n Ct) (.fin Lambda) true) i = .fin k ∧
      (0 < Ct i → 0 < r i → 1.8 * (1 + 1.8 / (4 * (Lambda * r i)^2)) ≥ Ct i →
        k * (1 + k / (4 * (Lambda * r i)^2)) = Ct i) ∧
      (0 < Ct i → 0 < r i → 1.8 * (1 + 1.8 / (4 * (Lambda * r i)^2)) ≤ Ct i → k = 1.8) ∧
      (Ct i ≤ 0 ∨ r i ≤ 0 → k = 0) := by
  have hx : idx (circulationFromPrescribedCt minimize (farr n r) (farr n Ct) (.fin Lambda) true) i =
      if 0 < Ct i ∧ 0 < r i then .fin (minimize (ctObjective (.fin (Lambda * r i)) (.fin (Ct i)))) else .fin 0 := by
    unfold circulationFromPrescribedCt idx farr arr
    rw [if_pos rfl, List.zipWith_map, List.zipWith_self]
    simp [List.getD_eq_getElem?_getD, hi]
  by_cases hp : 0 < Ct i ∧ 0 < r i
  · rw [hx, if_pos hp]
    have hl : 0 < Lambda * r i := mul_pos hL hp.2
    have hm := hmin _ (Ct i) hl hp.1
    generalize minimize (ctObjective (.fin (Lambda * r i)) (.fin (Ct i))) = k at hm
    generalize Lambda * r i = l at *
    obtain ⟨m0, m1, m2⟩ := hm
    have m2' : ∀ k', 0 ≤ k' → k' ≤ 1.8 → |ctKJ k l - Ct i| ≤ |ctKJ k' l - Ct i| := by
      intro k' a b
      have := m2 k' a b
      rwa [ctObjective_fin _ _ _ hl.ne', ctObjective_fin _ _ _ hl.ne', Num.le_fin] at this
    refine ⟨k, rfl, ?_, ?_, ?_⟩
    · intro _ _ h18
      obtain ⟨k0, ⟨a, _, e⟩, _⟩ := C26_unique_root l (Ct i) hl hp.1
      have e' : ctKJ k0 l = Ct i := e
      have hk0 : k0 ≤ 1.8 := by
        by_contra hlt
        push Not at hlt
        have := ctKJ_expand 1.8 k0 l (by norm_num) hlt.le
        have h18' : ctKJ 1.8 l ≥ Ct i := h18
        linarith
      have := m2' k0 a.le hk0
      rw [e', sub_self, abs_zero] at this
      have := abs_nonpos_iff.mp this
      have : ctKJ k l = Ct i := by linarith
      exact this
    · intro _ _ h18
      have h18' : ctKJ 1.8 l ≤ Ct i := h18
      have h1 := ctKJ_expand k 1.8 l m0 m1
      have := m2' 1.8 (by norm_num) le_rfl
      rw [abs_of_nonpos (by linarith), abs_of_nonpos (by linarith)] at this
      linarith
    · rintro (h | h)
      · exact absurd hp.1 (not_lt.mpr h)
      · exact absurd hp.2 (not_lt.mpr h)
  · rw [hx, if_neg hp]
    exact ⟨0, rfl, fun a b => absurd ⟨a, b⟩ hp, fun a b => absurd ⟨a, b⟩ hp, fun _ => rfl⟩

/-- there are exact minimisers: the hypothesis of `C26_reproduces` can be met -/
example : ∃ minimize : (ℝ → Num) → ℝ, ∀ l Ct : ℝ, 0 < l → 0 < Ct →
    IsExactMin (ctObjective (.fin l) (.fin Ct)) (minimize (ctObjective (.fin l) (.fin Ct))) := by
  refine ⟨fun f => if h : ∃ k, IsExactMin f k then Classical.choose h else 0, ?_⟩
  intro l Ct hl hC
  have hc : ContinuousOn (fun k => |ctKJ k l - Ct|) (Icc 0 1.8) := by
    apply Continuous.continuousOn
    unfold ctKJ
    exact ((continuous_id.mul (continuous_const.add (continuous_id.div_const _))).sub continuous_const).abs
  obtain ⟨k, hk, hmin⟩ := isCompact_Icc.exists_isMinOn (nonempty_Icc.mpr (by norm_num : (0:ℝ) ≤ 1.8)) hc
  have hex : ∃ k, IsExactMin (ctObjective (.fin l) (.fin Ct)) k := by
    refine ⟨k, hk.1, hk.2, ?_⟩
    intro k' a b
    rw [ctObjective_fin _ _ _ hl.ne', ctObjective_fin _ _ _ hl.ne', Num.le_fin]
    exact hmin (show k' ∈ Icc (0:ℝ) 1.8 from ⟨a, b⟩)
  simp only [dif_pos hex]
  exact Classical.choose_spec hex

/-- C26: without swirl the circulation is the thrust, entry by entry. -/
theorem C26_no_swirl (minimize : (ℝ → Num) → ℝ) (r Ct : List Num) (Lambda : Num) :
    circulationFromPrescribedCt minimize r Ct Lambda false = Ct := by
  unfold circulationFromPrescribedCt; simp

/-! ### High-thrust correction -/

theorem sqrt_Ctc : √(1 - Ctc) = 1 - 2 * ac := by
  rw [Real.sqrt_eq_iff_mul_self_eq (by linarith [Ctc_lt_one]) (by unfold ac; norm_num)]
  unfold Ctc; ring

/-- C29: both solvers use the same map `Ct ↦ a` (continuous solver; for the discrete one see
`C27_effective_thrust`): finite for every `Ct`, no negative square root is ever taken; without
the correction it is momentum theory, finite exactly up to `Ct=1`. -/
theorem C29_continuous_solver (c : ℝ) :
    contA true (.fin c) = .fin (aOfCt c) ∧
    (c ≤ 1 → contA false (.fin c) = .fin ((1 - √(1 - c)) / 2)) ∧ (1 < c → contA false (.fin c) = .nan) := by
  have h2 : ∀ c : ℝ, c ≤ 1 → Num.fin (1/2) * (1 - Num.sqrt (1 - .fin c)) = .fin ((1 - √(1 - c)) / 2) := by
    intro c hc
    simp only [Num.one_def, Num.fin_sub, Num.sqrt_fin (sub_nonneg.mpr hc), Num.fin_mul]
    congr 1; ring
  refine ⟨?_, ?_, ?_⟩
  · unfold contA aOfCt
    simp only [if_true, ctcN_fin, Num.le_fin, Num.lt_fin]
    by_cases hc : c ≤ Ctc
    · rw [if_pos hc, if_pos hc, h2 c (by linarith [Ctc_lt_one])]
    · rw [if_neg hc, if_neg hc, if_pos (not_le.mp hc), spera_fin]
  · intro hc
    unfold contA
    simp only [Bool.false_eq_true, if_false]
    exact h2 c hc
  · intro hc
    unfold contA
    simp only [Bool.false_eq_true, if_false, Num.one_def, Num.fin_sub,
      Num.sqrt_fin_neg (show 1 - c < 0 by linarith), Num.sub_nan, Num.mul_nan]

/-- C29: the map `Ct ↦ a` is continuous and strictly increasing, and `a` never exceeds `ac`
below the critical thrust. -/
theorem C29_monotone_continuous : Continuous aOfCt ∧ StrictMono aOfCt ∧ aOfCt 0 = 0 ∧ aOfCt Ctc = ac := by
  have hval : aOfCt Ctc = ac := by
    unfold aOfCt; rw [if_pos le_rfl, sqrt_Ctc]; ring
  refine ⟨?_, ?_, ?_, hval⟩
  · unfold aOfCt
    apply Continuous.if_le
    · exact (continuous_const.sub (Real.continuous_sqrt.comp (continuous_const.sub continuous_id))).div_const _
    · exact (continuous_id.sub continuous_const).div_const _
    · exact continuous_id
    · exact continuous_const
    · intro x hx
      rw [hx, sqrt_Ctc]
      unfold Ctc ac; norm_num
  · have lo : ∀ x y, x < y → y ≤ Ctc → aOfCt x < aOfCt y := by
      intro x y h hy
      unfold aOfCt
      rw [if_pos hy, if_pos (by linarith)]
      have := Real.sqrt_lt_sqrt (show 0 ≤ 1 - y by linarith [Ctc_lt_one]) (show 1 - y < 1 - x by linarith)
      linarith
    have hi : ∀ x y, x < y → Ctc ≤ x → aOfCt x < aOfCt y := by
      intro x y h hx
      have e : ∀ z, Ctc ≤ z → aOfCt z = (z - 4 * ac^2) / (4 * (1 - 2*ac)) := by
        intro z hz
        rcases hz.lt_or_eq with h | h
        · unfold aOfCt; rw [if_neg (not_le.mpr h)]
        · rw [← h, hval]; unfold Ctc ac; norm_num
      rw [e x hx, e y (by linarith)]
      apply div_lt_div_of_pos_right _ (by unfold ac; norm_num)
      linarith
    intro x y h
    rcases le_total y Ctc with hy | hy
    · exact lo x y h hy
    · rcases le_total Ctc x with hx | hx
      · exact hi x y h hx
      · rcases hx.lt_or_eq with hx' | hx'
        · rcases hy.lt_or_eq with hy' | hy'
          · exact (lo x Ctc hx' le_rfl).trans (hi Ctc y hy' le_rfl)
          · rw [← hy']; exact lo x Ctc hx' le_rfl
        · rw [hx'] at h ⊢; exact hi _ y h le_rfl
  · unfold aOfCt
    rw [if_pos (by unfold Ctc ac; norm_num)]; simp

/-- C29: at the critical thrust the slopes of the two branches match: the map is differentiable. -/
theorem C29_differentiable : HasDerivAt aOfCt (1 / (4 * (1 - 2 * ac))) Ctc := by
  have hpos : (0:ℝ) < 1 - Ctc := by linarith [Ctc_lt_one]
  have h1 : HasDerivAt (fun c : ℝ => (1 - √(1 - c)) / 2) (1 / (4 * (1 - 2 * ac))) Ctc := by
    have h := HasDerivAt.div_const (((hasDerivAt_id Ctc).const_sub 1).sqrt hpos.ne' |>.const_sub 1) 2
    refine h.congr_deriv ?_
    simp only [id]
    rw [sqrt_Ctc]
    field_simp
    norm_num
  have h2 : HasDerivAt (fun c : ℝ => (c - 4 * ac^2) / (4 * (1 - 2*ac))) (1 / (4 * (1 - 2 * ac))) Ctc :=
    HasDerivAt.div_const ((hasDerivAt_id Ctc).sub_const _) _
  have w1 : HasDerivWithinAt aOfCt (1 / (4 * (1 - 2 * ac))) (Iic Ctc) Ctc := by
    refine h1.hasDerivWithinAt.congr ?_ ?_
    · intro x hx; unfold aOfCt; rw [if_pos (show x ≤ Ctc from hx)]
    · unfold aOfCt; rw [if_pos le_rfl]
  have w2 : HasDerivWithinAt aOfCt (1 / (4 * (1 - 2 * ac))) (Ici Ctc) Ctc := by
    refine h2.hasDerivWithinAt.congr ?_ ?_
    · intro x hx
      rcases (show Ctc ≤ x from hx).lt_or_eq with h | h
      · unfold aOfCt; rw [if_neg (not_le.mpr h)]
      · rw [← h, C29_monotone_continuous.2.2.2]; unfold Ctc ac; norm_num
    · rw [C29_monotone_continuous.2.2.2]; unfold Ctc ac; norm_num
  have := w1.union w2
  rwa [Iic_union_Ici, hasDerivWithinAt_univ] at this

end Wiz
