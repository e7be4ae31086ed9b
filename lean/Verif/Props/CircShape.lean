import Verif.Model.WindCoord
import Mathlib.Analysis.SpecialFunctions.Trigonometric.Deriv
import Mathlib.Analysis.SpecialFunctions.Trigonometric.ArctanDeriv
import Mathlib.Analysis.Real.Pi.Bounds
/-! # C113: the analytical circulation of the superposition script -/
namespace Wiz
open Real

theorem half_cos {r : ℝ} (h0 : 0 ≤ r) (h1 : r < 1/2) : 0 < cos (r * π) :=
  cos_pos_of_mem_Ioo ⟨by have := mul_nonneg h0 pi_pos.le; linarith [pi_pos], by nlinarith [pi_pos]⟩

/-- C113: the circulation starts from zero, increases strictly and stays below one. -/
theorem C113_shape (τ : ℝ) (hτ : 0 < τ) :
    shapeGt τ 0 = 0 ∧ (∀ r, 0 ≤ r → r < 1/2 → 0 ≤ shapeGt τ r ∧ shapeGt τ r < 1) ∧
    (∀ r s, 0 ≤ r → r < s → s < 1/2 → shapeGt τ r < shapeGt τ s) ∧
    Filter.Tendsto (shapeGt τ) (nhdsWithin (1/2) (Set.Iio (1/2))) (nhds 1) := by
  have hmono : ∀ r s, 0 ≤ r → r < s → s < 1/2 → shapeGt τ r < shapeGt τ s := by
    intro r s hr hrs hs
    have ht : tan (r * π) < tan (s * π) := tan_lt_tan_of_lt_of_lt_pi_div_two (by nlinarith [pi_pos]) (by nlinarith [pi_pos]) (by nlinarith [pi_pos])
    unfold shapeGt
    have : exp (-tan (s * π) / τ) < exp (-tan (r * π) / τ) := by
      apply exp_lt_exp.mpr
      apply div_lt_div_of_pos_right _ hτ
      linarith
    linarith
  have h0 : shapeGt τ 0 = 0 := by simp [shapeGt]
  refine ⟨h0, fun r hr hr2 => ⟨?_, ?_⟩, hmono, ?_⟩
  · rcases hr.eq_or_lt with rfl | hr
    · rw [h0]
    · have := hmono 0 r le_rfl hr hr2
      rw [h0] at this
      exact this.le
  · unfold shapeGt
    have := exp_pos (-tan (r * π) / τ)
    linarith
  · have ht : Filter.Tendsto (fun r : ℝ => tan (r * π)) (nhdsWithin (1/2) (Set.Iio (1/2))) Filter.atTop := by
      apply Filter.Tendsto.comp tendsto_tan_pi_div_two
      apply tendsto_nhdsWithin_of_tendsto_nhds_of_eventually_within
      · have : Filter.Tendsto (fun r : ℝ => r * π) (nhds (1/2)) (nhds (1/2 * π)) := (continuous_id.mul continuous_const).tendsto _
        rw [show (1:ℝ)/2 * π = π/2 by ring] at this
        exact this.mono_left nhdsWithin_le_nhds
      · filter_upwards [self_mem_nhdsWithin] with r hr
        have hr : r < 1/2 := hr
        show r * π < π/2
        nlinarith [pi_pos]
    have h1 : Filter.Tendsto (fun r : ℝ => exp (-tan (r * π) / τ)) (nhdsWithin (1/2) (Set.Iio (1/2))) (nhds 0) := by
      apply tendsto_exp_atBot.comp
      apply Filter.Tendsto.atBot_div_const hτ
      exact Filter.tendsto_neg_atTop_atBot.comp ht
    have := h1.const_sub 1
    rw [sub_zero] at this
    exact this

/-- C113: the slope of the circulation. -/
theorem C113_slope (τ r : ℝ) (hr : 0 ≤ r) (hr2 : r < 1/2) :
    HasDerivAt (shapeGt τ) (π / τ * (1 / cos (r * π)^2) * exp (-tan (r * π) / τ)) r := by
  have hc := half_cos hr hr2
  have h1 : HasDerivAt (fun r : ℝ => r * π) π r := by simpa using (hasDerivAt_id r).mul_const π
  have h2 : HasDerivAt (fun r : ℝ => tan (r * π)) (1 / cos (r * π)^2 * π) r := HasDerivAt.comp (h₂ := tan) r (hasDerivAt_tan hc.ne') h1
  have h3 : HasDerivAt (fun r : ℝ => -tan (r * π) / τ) (-(1 / cos (r * π)^2 * π) / τ) r := h2.fun_neg.div_const τ
  have h4 := (h3.exp).const_sub 1
  refine HasDerivAt.congr_deriv h4 ?_
  ring

/-- C113: the slope the script uses agrees, up to the constant `1/pi`, with the slope of the circulation at the root and tip. -/
theorem C113_slope_partial (τ : ℝ) : deriv (shapeGt τ) 0 = π * shapeDgt τ 0 := by
  rw [(C113_slope τ 0 le_rfl (by norm_num)).deriv]
  simp [shapeDgt]
  ring

/-- C113: no scaling makes the strengths the slope of the circulation: with the `tau=0.4` of the script, no constant `k` gives
`dgt = k*gt'` along the span. -/
theorem C113_slope_refuted : ¬ ∃ k : ℝ, ∀ r, 0 ≤ r → r < 1/2 → shapeDgt 0.4 r = k * deriv (shapeGt 0.4) r := by
  rintro ⟨k, hk⟩
  have h0 := hk 0 le_rfl (by norm_num)
  have h1 := hk (1/4) (by norm_num) (by norm_num)
  rw [C113_slope_partial] at h0
  rw [(C113_slope 0.4 (1/4) (by norm_num) (by norm_num)).deriv] at h1
  have hd : shapeDgt 0.4 0 ≠ 0 := by simp [shapeDgt]; norm_num
  have hkp : k * π = 1 := by
    apply mul_right_cancel₀ hd
    linarith
  have he := (exp_pos (-tan (1/4 * π) / 0.4)).ne'
  unfold shapeDgt at h1
  have h2 : 1 / cos (1/4/0.4)^2 = 1 / cos (1/4 * π)^2 := by
    have : (1 / 0.4 * exp (-tan (1/4 * π) / 0.4)) ≠ 0 := mul_ne_zero (by norm_num) he
    apply mul_left_cancel₀ this
    calc _ = 1 / 0.4 * (1 / cos (1/4/0.4)^2) * exp (-tan (1/4 * π) / 0.4) := by ring
      _ = _ := h1
      _ = (k * π) * (1 / 0.4 * exp (-tan (1/4 * π) / 0.4) * (1 / cos (1/4 * π)^2)) := by ring
      _ = _ := by rw [hkp, one_mul]
  have h3 : cos (1/4 * π) < cos (1/4/0.4) := by
    apply cos_lt_cos_of_nonneg_of_le_pi_div_two
    · norm_num
    · linarith [pi_pos]
    · have := pi_gt_three
      norm_num
      linarith
  have hc := half_cos (r := 1/4) (by norm_num) (by norm_num)
  have h4 := one_div_lt_one_div_of_lt (by positivity) (pow_lt_pow_left₀ h3 hc.le (n := 2) (by norm_num))
  linarith

/-- the middle of the inner half of the blade -/
example : 0 < shapeGt 0.4 (1/4) ∧ shapeGt 0.4 (1/4) < 1 := by
  obtain ⟨h0, h1, h2, -⟩ := C113_shape 0.4 (by norm_num)
  refine ⟨?_, (h1 _ (by norm_num) (by norm_num)).2⟩
  have := h2 0 (1/4) le_rfl (by norm_num) (by norm_num)
  rwa [h0] at this

end Wiz
