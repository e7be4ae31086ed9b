import Verif.Spec.Elliptic
import Mathlib.MeasureTheory.Integral.IntervalIntegral.FundThmCalculus
import Mathlib.Analysis.SpecialFunctions.Integrals.Basic
import Mathlib.Analysis.SpecialFunctions.Sqrt
import Mathlib.MeasureTheory.Integral.IntervalIntegral.Periodic
import Mathlib.MeasureTheory.Integral.IntervalIntegral.IntegrationByParts
namespace Wiz
open Real Spec MeasureTheory intervalIntegral

theorem sin_sq_le (t : ℝ) : 0 ≤ sin t ^ 2 ∧ sin t ^ 2 ≤ 1 := ⟨sq_nonneg _, sin_sq_le_one t⟩

/-- the radicand is positive below the pole -/
theorem delta_pos {m : ℝ} (hm : m < 1) (t : ℝ) : 0 < 1 - m * sin t ^ 2 := by
  obtain ⟨h0, h1⟩ := sin_sq_le t
  rcases le_or_gt 0 m with h | h
  · nlinarith
  · nlinarith

theorem continuous_delta (m : ℝ) : Continuous fun t => 1 - m * sin t ^ 2 := by fun_prop

theorem cont_inv_sqrt {m : ℝ} (hm : m < 1) : Continuous fun t => 1 / √(1 - m * sin t ^ 2) := by
  apply Continuous.div continuous_const (by fun_prop)
  intro t; exact (sqrt_pos.mpr (delta_pos hm t)).ne'

theorem cont_inv_sqrt3 {m : ℝ} (hm : m < 1) : Continuous fun t => 1 / √(1 - m * sin t ^ 2) ^ 3 := by
  apply Continuous.div continuous_const (by fun_prop)
  intro t; exact (pow_pos (sqrt_pos.mpr (delta_pos hm t)) 3).ne'

theorem ellK_zero : ellK 0 = π/2 := by simp [ellK]
theorem ellE_zero : ellE 0 = π/2 := by simp [ellE]

theorem ellK_pos {m : ℝ} (hm : m < 1) : 0 < ellK m := by
  apply intervalIntegral_pos_of_pos_on ((cont_inv_sqrt hm).intervalIntegrable _ _)
  · intro t _; have := sqrt_pos.mpr (delta_pos hm t); positivity
  · have := pi_pos; linarith
theorem ellE_pos {m : ℝ} (hm : m < 1) : 0 < ellE m := by
  apply intervalIntegral_pos_of_pos_on (Continuous.intervalIntegrable (by fun_prop) _ _)
  · intro t _; exact sqrt_pos.mpr (delta_pos hm t)
  · have := pi_pos; linarith

/-- `E(m)/(1-m) = ∫ (1 - m sin²t)^{-3/2} dt`. -/
theorem ellE_div (m : ℝ) (hm : m < 1) :
    ∫ t in (0:ℝ)..(π/2), 1 / √(1 - m * sin t ^ 2) ^ 3 = ellE m / (1 - m) := by
  have h1m : (1 - m) ≠ 0 := by linarith
  -- d/dt (sin t cos t / Δ) = ...
  have hd : ∀ t : ℝ, HasDerivAt (fun t => sin t * cos t / √(1 - m * sin t ^ 2))
      (if m = 0 then 1 - 2 * sin t ^ 2 else
        (√(1 - m * sin t ^ 2) - (1 - m) * (1 / √(1 - m * sin t ^ 2) ^ 3)) / m) t := by
    intro t
    have hp := delta_pos hm t
    have hs := sqrt_pos.mpr hp
    have h1 : HasDerivAt (fun t => 1 - m * sin t ^ 2) (-(m * (2 * sin t * cos t))) t := by
      have := ((hasDerivAt_sin t).pow 2).const_mul m
      have h2 := this.const_sub 1
      refine h2.congr_deriv ?_
      simp
    have h3 := h1.sqrt hp.ne'
    have h4 := ((hasDerivAt_sin t).mul (hasDerivAt_cos t)).div h3 hs.ne'
    refine h4.congr_deriv ?_
    simp only [Pi.mul_apply]
    have hc : cos t ^ 2 = 1 - sin t ^ 2 := by have := sin_sq_add_cos_sq t; linarith
    have hsq := sq_sqrt hp.le
    set D := √(1 - m * sin t ^ 2) with hD
    have hD0 : D ≠ 0 := hs.ne'
    split_ifs with h0
    · subst h0
      have : D = 1 := by simp [hD]
      rw [this]; simp; nlinarith
    · field_simp
      have e1 : D^4 = (1 - m * sin t ^ 2)^2 := by rw [← hsq]; ring
      have : (m * (cos t ^ 2 - sin t ^ 2) * D ^ 2 + m * (sin t ^ 2 * cos t ^ 2 * m)) = D^4 - (1 - m) := by
        rw [hsq, e1, hc]; ring
      nlinarith [this]
  have hint : IntervalIntegrable (fun t => if m = 0 then 1 - 2 * sin t ^ 2 else
        (√(1 - m * sin t ^ 2) - (1 - m) * (1 / √(1 - m * sin t ^ 2) ^ 3)) / m) volume 0 (π/2) := by
    apply Continuous.intervalIntegrable
    split_ifs with h0
    · fun_prop
    · have := cont_inv_sqrt3 hm; fun_prop
  have hF := integral_eq_sub_of_hasDerivAt (fun t _ => hd t) hint
  rw [cos_pi_div_two, sin_zero] at hF
  simp only [mul_zero, zero_div, zero_mul, sub_zero] at hF
  by_cases h0 : m = 0
  · subst h0
    simp [ellE]
  · simp only [h0, if_false] at hF
    rw [intervalIntegral.integral_div, intervalIntegral.integral_sub, intervalIntegral.integral_const_mul] at hF
    · rw [div_eq_zero_iff] at hF
      have := hF.resolve_right h0
      rw [eq_div_iff h1m]
      unfold ellE
      linarith
    · exact Continuous.intervalIntegrable (by fun_prop) _ _
    · exact Continuous.intervalIntegrable ((cont_inv_sqrt3 hm).const_mul _) _ _

/-- Full-circle integrals reduce to the quarter period, `θ = π - 2t`. -/
theorem circle_integral (f : ℝ → ℝ) (hf : Continuous fun θ => f (cos θ)) :
    ∫ θ in (0:ℝ)..(2*π), f (cos θ) = 4 * ∫ t in (0:ℝ)..(π/2), f (2 * sin t ^ 2 - 1) := by
  have hint : ∀ a b, IntervalIntegrable (fun θ => f (cos θ)) volume a b := fun a b => hf.intervalIntegrable _ _
  have h1 : ∫ θ in π..(2*π), f (cos θ) = ∫ θ in (0:ℝ)..π, f (cos θ) := by
    have := intervalIntegral.integral_comp_sub_left (fun θ => f (cos θ)) (a := 0) (b := π) (2*π)
    simp only [sub_zero, show 2*π - π = π by ring] at this
    rw [← this]
    congr 1; ext θ; rw [cos_two_pi_sub]
  have h2 : ∫ θ in (0:ℝ)..π, f (cos θ) = 2 * ∫ t in (0:ℝ)..(π/2), f (2 * sin t ^ 2 - 1) := by
    have h := intervalIntegral.integral_comp_sub_mul (fun θ => f (cos θ)) (a := 0) (b := π/2) (c := 2) (by norm_num) π
    simp only [mul_zero, sub_zero, show π - 2 * (π/2) = 0 by ring, smul_eq_mul] at h
    have e : (fun t => f (cos (π - 2 * t))) = fun t => f (2 * sin t ^ 2 - 1) := by
      ext t
      congr 1
      rw [cos_pi_sub, cos_two_mul, cos_sq']; ring
    rw [e] at h
    rw [h]; ring
  rw [← integral_add_adjacent_intervals (hint 0 π) (hint π (2*π)), h1, h2]; ring

end Wiz
