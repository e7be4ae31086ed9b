import Verif.Props.CarlsonLimit
import Mathlib.Analysis.SpecialFunctions.Integrals.Basic
import Mathlib.Analysis.SpecialFunctions.Trigonometric.ArctanDeriv
/-! C110: the identities against which the test class of `elliptic.py` checks `ellipticPiCarlson` at a few points:
`Π(m,m)=E(m)/(1-m)`, `Π(0,m)=K(m)` and `Π(n,0)=π/(2√(1-n))`, for every parameter. -/
namespace Wiz
open Spec Real Classical MeasureTheory intervalIntegral

/-- `Π(m,m) = E(m)/(1-m)` -/
theorem ellPi_diag (m : ℝ) (hm : m < 1) : ellPi m m = ellE m/(1-m) := by
  have hD : ∀ t, 0 < √(1 - m * sin t^2) := fun t => sqrt_pos.mpr (delta_pos hm t)
  have hder : ∀ t ∈ Set.uIcc 0 (π/2), HasDerivAt (fun t => m * (sin t * cos t/√(1 - m * sin t^2)))
      (√(1 - m * sin t^2) - (1-m) * (1/((1 - m * sin t^2) * √(1 - m * sin t^2)))) t := by
    intro t _
    have h1 : HasDerivAt (fun t => 1 - m * sin t^2) (-(m * (2 * sin t * cos t))) t := by
      refine HasDerivAt.congr_deriv ((((hasDerivAt_sin t).pow 2).const_mul m).const_sub 1) ?_
      simp
    have h2 := h1.sqrt (delta_pos hm t).ne'
    have h3 := (((hasDerivAt_sin t).fun_mul (hasDerivAt_cos t)).fun_div h2 (hD t).ne').const_mul m
    refine HasDerivAt.congr_deriv h3 ?_
    have hs : √(1 - m * sin t^2)^2 = 1 - m * sin t^2 := sq_sqrt (delta_pos hm t).le
    clear h1 h2 h3
    have hc : cos t^2 = 1 - sin t^2 := by have := sin_sq_add_cos_sq t; linarith
    have hd := hD t
    generalize √(1 - m * sin t^2) = d at *
    generalize sin t = s at *
    generalize cos t = c at *
    rw [← hs]
    have e2 : c * c = 1 - s^2 := by rw [← hc]; ring
    have e3 : s * c * (s * c) = s^2 * (1 - s^2) := by rw [← hc]; ring
    have l1 : m * (((c * c + s * -s) * d - s * c * (-(m * (2 * s * c))/(2*d)))/d^2) =
        m * ((c * c - s^2) * d^2 + m * (s * c * (s * c)))/d^3 := by field_simp; ring
    have l2 : d - (1-m) * (1/(d^2*d)) = (d^2*d^2 - (1-m))/d^3 := by field_simp
    rw [l1, l2, e2, e3, hs]
    congr 1
    ring
  have hc1 : Continuous fun t : ℝ => √(1 - m * sin t^2) := by fun_prop
  have hc2 : Continuous fun t : ℝ => 1/((1 - m * sin t^2) * √(1 - m * sin t^2)) :=
    continuous_const.div (by fun_prop) fun t => (mul_pos (delta_pos hm t) (hD t)).ne'
  have h := integral_eq_sub_of_hasDerivAt hder ((hc1.sub (hc2.const_mul _)).intervalIntegrable _ _)
  rw [intervalIntegral.integral_sub (hc1.intervalIntegrable _ _) ((hc2.const_mul _).intervalIntegrable _ _),
    intervalIntegral.integral_const_mul] at h
  simp only [cos_pi_div_two, sin_zero, mul_zero, zero_mul, zero_div, sub_zero] at h
  have h1 : (1-m) ≠ 0 := by linarith
  unfold ellPi ellE
  rw [eq_div_iff h1]
  linarith

/-- `Π(0,m) = K(m)` -/
theorem ellPi_zero (m : ℝ) : ellPi 0 m = ellK m := by
  unfold ellPi ellK
  simp only [zero_mul, sub_zero, one_mul]

/-- `Π(n,0) = π/(2√(1-n))` -/
theorem ellPi_modulus_zero (n : ℝ) (hn : n < 1) : ellPi n 0 = π/(2*√(1-n)) := by
  obtain ⟨q, hq⟩ : ∃ q, q = √(1-n) := ⟨_, rfl⟩
  have hq0 : 0 < q := by rw [hq]; exact sqrt_pos.mpr (by linarith)
  have hq2 : n = 1 - q^2 := by rw [hq, sq_sqrt (by linarith)]; ring
  have hden : ∀ t, 0 < cos t^2 + q * sin t^2 := by
    intro t
    have := sin_sq_add_cos_sq t
    rcases eq_or_ne (sin t) 0 with h | h
    · rw [h] at this ⊢; nlinarith
    · have : 0 < sin t^2 := by positivity
      have := sq_nonneg (cos t)
      positivity
  have hder : ∀ t ∈ Set.uIcc 0 (π/2), HasDerivAt (fun t => (t + arctan ((q-1) * (sin t * cos t)/(cos t^2 + q * sin t^2)))/q)
      (1/((1 - n * sin t^2) * √(1 - 0 * sin t^2))) t := by
    intro t _
    have h1 : HasDerivAt (fun t => cos t^2 + q * sin t^2) (2*(q-1)*(sin t * cos t)) t := by
      refine HasDerivAt.congr_deriv (((hasDerivAt_cos t).pow 2).add (((hasDerivAt_sin t).pow 2).const_mul q)) ?_
      simp; ring
    have h2 := ((((hasDerivAt_sin t).fun_mul (hasDerivAt_cos t)).const_mul (q-1)).fun_div h1 (hden t).ne').arctan
    have h3 := ((hasDerivAt_id t).fun_add h2).div_const q
    refine HasDerivAt.congr_deriv h3 ?_
    simp only [zero_mul, sub_zero, sqrt_one, mul_one]
    have hd := hden t
    have hc := sin_sq_add_cos_sq t
    have hn' := delta_pos hn t
    rw [hq2] at hn' ⊢
    generalize sin t = s at *
    generalize cos t = c at *
    have hc2 : c^2 = 1 - s^2 := by linarith
    obtain ⟨D, hD⟩ : ∃ D, D = c^2 + q*s^2 := ⟨_, rfl⟩
    rw [← hD] at hd ⊢
    have hpos : 0 < D^2 + ((q-1)*(s*c))^2 := by positivity
    have hne : 1 + ((q-1)*(s*c)/D)^2 = (D^2 + ((q-1)*(s*c))^2)/D^2 := by field_simp
    rw [hne]
    -- the denominator is (cos² + q² sin²)(cos² + sin²)
    have hk : D^2 + ((q-1)*(s*c))^2 = 1 - (1-q^2)*s^2 := by
      rw [hD]
      have e1 : (c^2 + q*s^2)^2 + ((q-1)*(s*c))^2 = (c^2 + s^2) * (c^2 + q^2*s^2) := by ring
      rw [e1, hc2]; ring
    rw [hk]
    have hD1 : D = 1 + (q-1)*s^2 := by rw [hD, hc2]; ring
    field_simp
    rw [hc2, hD1]
    ring_nf
  have hc2 : Continuous fun t : ℝ => 1/((1 - n * sin t^2) * √(1 - 0 * sin t^2)) :=
    continuous_const.div (by fun_prop) fun t => by
      have := delta_pos hn t
      simp only [zero_mul, sub_zero, sqrt_one, mul_one]; exact this.ne'
  have h := integral_eq_sub_of_hasDerivAt hder (hc2.intervalIntegrable _ _)
  unfold ellPi
  rw [h]
  simp only [cos_pi_div_two, sin_zero, mul_zero, zero_mul, zero_div, arctan_zero, add_zero, sub_zero]
  rw [← hq]
  field_simp

/-- C110: for every parameter `m<1` the value that the code's recursion gives for `Π(m,m)` is, with enough passes, as close as
one wants to `ellipe(m)/(1-m)`, and that for `Π(0,m)` to `ellipk(m)`; the errors are those of `C76_rate`. -/
theorem C110_property (m : ℝ) (hm : m < 1) :
    ∃ E K : ℝ, ellipe (.fin m) = .fin E ∧ ellipk (.fin m) = .fin K ∧ ∀ ε > 0, ∃ N : ℕ, ∀ (kF kJ : ℕ) (kC : ℕ → ℕ), N ≤ kF → N ≤ kJ → (∀ j, N ≤ kC j) →
      ∃ u v : ℝ, carlsonPi kF kJ kC (.fin m) (.fin m) = .fin u ∧ |u - 1/(1-m) * E| < ε ∧
        carlsonPi kF kJ kC (.fin 0) (.fin m) = .fin v ∧ |v - K| < ε := by
  refine ⟨ellE m, ellK m, by unfold ellipe; simp only [if_pos hm.le], by unfold ellipk; simp only [if_pos hm], fun ε hε => ?_⟩
  obtain ⟨N1, h1⟩ := C76_converges m m hm hm ε hε
  obtain ⟨N2, h2⟩ := C76_converges 0 m zero_lt_one hm ε hε
  refine ⟨max N1 N2, fun kF kJ kC hF hJ hC => ?_⟩
  obtain ⟨u, hu, hu'⟩ := h1 kF kJ kC ((le_max_left _ _).trans hF) ((le_max_left _ _).trans hJ) fun j => (le_max_left _ _).trans (hC j)
  obtain ⟨v, hv, hv'⟩ := h2 kF kJ kC ((le_max_right _ _).trans hF) ((le_max_right _ _).trans hJ) fun j => (le_max_right _ _).trans (hC j)
  refine ⟨u, v, hu, ?_, hv, ?_⟩
  · rw [ellPi_diag m hm] at hu'
    rwa [one_div_mul_eq_div]
  · rwa [ellPi_zero] at hv'

/-- C110: for every `n<1`, `Π(n,0)` tends to `π/(2√(1-n))`; in particular the test value `Π(-3,0)=π/(2√4)`. -/
theorem C110_modulus_zero (n : ℝ) (hn : n < 1) (ε : ℝ) (hε : 0 < ε) :
    ∃ N : ℕ, ∀ (kF kJ : ℕ) (kC : ℕ → ℕ), N ≤ kF → N ≤ kJ → (∀ j, N ≤ kC j) →
      ∃ v : ℝ, carlsonPi kF kJ kC (.fin n) (.fin 0) = .fin v ∧ |v - π/(2*√(1-n))| < ε := by
  rw [← ellPi_modulus_zero n hn]
  exact C76_converges n 0 hn zero_lt_one ε hε

example : ((-3:ℝ) < 1 ∧ (1/2:ℝ) < 1) := by norm_num
end Wiz
