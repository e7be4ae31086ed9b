import Verif.Lemmas.Elliptic
import Mathlib.Analysis.SpecialFunctions.Trigonometric.InverseDeriv
import Mathlib.MeasureTheory.Integral.IntervalIntegral.IntegrationByParts

namespace Wiz
open Spec Real intervalIntegral

theorem half_turn (f : ℝ → ℝ) (hf : Continuous fun φ => f (sin φ)) :
    ∫ φ in (0:ℝ)..π, f (sin φ) = 2 * ∫ φ in (0:ℝ)..(π/2), f (sin φ) := by
  have hint : ∀ a b, IntervalIntegrable (fun θ => f (sin θ)) MeasureTheory.volume a b := fun a b => hf.intervalIntegrable _ _
  have h1 : ∫ φ in (π/2)..π, f (sin φ) = ∫ φ in (0:ℝ)..(π/2), f (sin φ) := by
    have := intervalIntegral.integral_comp_sub_left (fun θ => f (sin θ)) (a := 0) (b := π/2) π
    simp only [sub_zero, show π - π/2 = π/2 by ring] at this
    rw [← this]
    congr 1; ext θ; rw [sin_pi_sub]
  rw [← integral_add_adjacent_intervals (hint 0 (π/2)) (hint (π/2) π), h1]; ring

/-- Landen's transformation of the complete integral of the first kind. -/
theorem landen {r : ℝ} (hr : 0 ≤ r) (hr1 : r < 1) : ellK (4*r/(1+r)^2) = (1+r) * ellK (r^2) := by
  have h1r : 0 < 1 + r := by linarith
  have hk : 4*r/(1+r)^2 < 1 := by
    rw [div_lt_one (by positivity)]
    nlinarith [sq_nonneg (1-r), mul_self_pos.mpr (show 1 - r ≠ 0 by linarith)]
  have hr2 : r^2 < 1 := by nlinarith
  have hb : ∀ φ : ℝ, |r * sin φ| < 1 := by
    intro φ
    rw [abs_mul, abs_of_nonneg hr]
    have := abs_sin_le_one φ
    nlinarith [abs_nonneg (sin φ)]
  have hder : ∀ φ : ℝ, HasDerivAt (fun φ => (φ + arcsin (r * sin φ))/2)
      ((1 + 1/√(1 - (r * sin φ)^2) * (r * cos φ))/2) φ := by
    intro φ
    have h := abs_lt.mp (hb φ)
    have h1 : HasDerivAt (fun φ => r * sin φ) (r * cos φ) φ := (hasDerivAt_sin φ).const_mul r
    have h2 := (Real.hasDerivAt_arcsin h.1.ne' h.2.ne).comp φ h1
    exact HasDerivAt.div_const ((hasDerivAt_id φ).add h2) 2
  have hcont : Continuous fun φ : ℝ => (1 + 1/√(1 - (r * sin φ)^2) * (r * cos φ))/2 := by
    have h1 : Continuous fun φ : ℝ => 1/√(1 - (r * sin φ)^2) := by
      refine continuous_const.div (by fun_prop) fun φ => ?_
      have h := hb φ
      have : (r * sin φ)^2 < 1 := by rw [← sq_abs]; nlinarith [abs_nonneg (r * sin φ)]
      exact (sqrt_pos.mpr (by linarith)).ne'
    fun_prop
  have hsub := intervalIntegral.integral_comp_mul_deriv (a := 0) (b := π) (fun φ _ => hder φ) hcont.continuousOn (cont_inv_sqrt hk)
  have e0 : (0 + arcsin (r * sin 0))/2 = 0 := by simp
  have e1 : (π + arcsin (r * sin π))/2 = π/2 := by simp
  simp only [Function.comp_def] at hsub
  rw [e0, e1] at hsub
  have hpt : ∀ φ : ℝ, 1/√(1 - 4*r/(1+r)^2 * sin ((φ + arcsin (r * sin φ))/2)^2) *
      ((1 + 1/√(1 - (r * sin φ)^2) * (r * cos φ))/2) = (1+r)/2 * (1/√(1 - r^2 * sin φ^2)) := by
    intro φ
    have h := abs_lt.mp (hb φ)
    have hB : 0 < 1 - (r * sin φ)^2 := by nlinarith
    have hs := sin_arcsin h.1.le h.2.le
    have hc : cos (arcsin (r * sin φ)) = √(1 - (r * sin φ)^2) := cos_arcsin _
    have hq := sq_sqrt hB.le
    have hqp := sqrt_pos.mpr hB
    have hcos2 : 2 * sin ((φ + arcsin (r * sin φ))/2)^2 = 1 - cos (φ + arcsin (r * sin φ)) := by
      have := cos_sq' ((φ + arcsin (r * sin φ))/2)
      have h2 := cos_two_mul ((φ + arcsin (r * sin φ))/2)
      rw [show 2 * ((φ + arcsin (r * sin φ))/2) = φ + arcsin (r * sin φ) by ring] at h2
      linarith
    rw [cos_add, hs, hc] at hcos2
    rw [show r^2 * sin φ^2 = (r * sin φ)^2 by ring]
    generalize √(1 - (r * sin φ)^2) = B at *
    have hpos : 0 < B + r * cos φ := by
      have : (r * cos φ)^2 < B^2 := by rw [hq]; nlinarith [sin_sq_add_cos_sq φ]
      have := abs_lt_of_sq_lt_sq this hqp.le
      linarith [(abs_lt.mp this).1]
    have hroot : √(1 - 4*r/(1+r)^2 * sin ((φ + arcsin (r * sin φ))/2)^2) = (B + r * cos φ)/(1+r) := by
      rw [sqrt_eq_iff_mul_self_eq_of_pos (by positivity)]
      have e : sin ((φ + arcsin (r * sin φ))/2)^2 = (1 - (cos φ * B - sin φ * (r * sin φ)))/2 := by linarith
      rw [e]
      have hsc := sin_sq_add_cos_sq φ
      have h0 : (B + r * cos φ)^2 = (1+r)^2 - 2*r*(1 - (cos φ * B - sin φ * (r * sin φ))) := by
        linear_combination hq + r^2 * hsc
      rw [div_mul_div_comm, ← sq, ← sq, h0]
      field_simp
      ring
    rw [hroot]
    field_simp
  rw [integral_congr (g := fun φ => (1+r)/2 * (1/√(1 - r^2 * sin φ^2))) (fun φ _ => hpt φ),
    integral_const_mul, half_turn (fun s => 1/√(1 - r^2 * s^2)) (cont_inv_sqrt hr2)] at hsub
  unfold ellK
  rw [← hsub]
  ring

end Wiz
