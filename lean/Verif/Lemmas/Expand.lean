import Verif.Lemmas.RotorDisk
/-! # Second-order expansion of inverse distances, and integrals of trigonometric polynomials -/
namespace Wiz
open Real MeasureTheory Set

theorem near_root {a b : ℝ} (ha : 0 < a) (hb : 0 < b) (h : |b^2 - a^2| ≤ a^2/2) : 0.7 * a ≤ b ∧ b ≤ 1.23 * a := by
  obtain ⟨h1, h2⟩ := abs_le.mp h
  norm_num at *
  constructor <;> nlinarith

/-- `1/b = 1/a - (b²-a²)/(2a³) + O((b²-a²)²/a⁵)` -/
theorem inv1_expand {a b : ℝ} (ha : 0 < a) (hb : 0 < b) (h : |b^2 - a^2| ≤ a^2/2) :
    |1/b - (1/a - (b^2 - a^2)/(2*a^3))| ≤ (b^2 - a^2)^2/a^5 := by
  obtain ⟨h1, h2⟩ := near_root ha hb h
  have e : 1/b - (1/a - (b^2 - a^2)/(2*a^3)) = (b^2 - a^2)^2 * ((b + 2*a)/((a+b)^2 * (2*a^3*b))) := by
    field_simp; ring
  rw [e, abs_of_nonneg (by positivity), div_eq_mul_one_div ((b^2 - a^2)^2)]
  apply mul_le_mul_of_nonneg_left _ (sq_nonneg _)
  rw [div_le_div_iff₀ (by positivity) (by positivity)]
  have k : (b + 2*a) * a^2 ≤ 2 * b * (a+b)^2 := by
    norm_num at *
    nlinarith [mul_pos ha hb, mul_nonneg (sub_nonneg.mpr h1) (mul_pos ha hb).le, mul_nonneg (sub_nonneg.mpr h1) (sq_nonneg a),
      mul_nonneg (sub_nonneg.mpr h1) (sq_nonneg b)]
  have := mul_le_mul_of_nonneg_left k (by positivity : 0 ≤ a^3)
  nlinarith

/-- `1/b³ = 1/a³ - 3(b²-a²)/(2a⁵) + O((b²-a²)²/a⁷)` -/
theorem inv3_expand {a b : ℝ} (ha : 0 < a) (hb : 0 < b) (h : |b^2 - a^2| ≤ a^2/2) :
    |1/b^3 - (1/a^3 - 3*(b^2 - a^2)/(2*a^5))| ≤ 12 * (b^2 - a^2)^2/a^7 := by
  obtain ⟨h1, h2⟩ := near_root ha hb h
  have e : 1/b^3 - (1/a^3 - 3*(b^2 - a^2)/(2*a^5)) = (b^2 - a^2)^2 * ((3*b^3 + 6*a*b^2 + 4*a^2*b + 2*a^3)/((a+b)^2 * (2*a^5*b^3))) := by
    field_simp; ring
  rw [e, abs_of_nonneg (by positivity), show 12 * (b^2 - a^2)^2/a^7 = (b^2-a^2)^2 * (12/a^7) by ring]
  apply mul_le_mul_of_nonneg_left _ (sq_nonneg _)
  rw [div_le_div_iff₀ (by positivity) (by positivity)]
  have k : (3*b^3 + 6*a*b^2 + 4*a^2*b + 2*a^3) * a^2 ≤ 24 * b^3 * (a+b)^2 := by
    have q1 : 0.34 * a^3 ≤ b^3 := by
      have : (0.7*a)^3 ≤ b^3 := by gcongr
      have ha3 : 0 < a^3 := by positivity
      norm_num at *; nlinarith
    have q2 : (1.7*a)^2 ≤ (a+b)^2 := by
      have : 1.7 * a ≤ a + b := by norm_num at *; linarith
      gcongr
    have q3 : b^3 ≤ (1.23*a)^3 := by gcongr
    have q4 : b^2 ≤ (1.23*a)^2 := by gcongr
    have q5 : 24 * (0.34 * a^3) * (1.7*a)^2 ≤ 24 * b^3 * (a+b)^2 := by gcongr
    have q6 : 3*b^3 + 6*a*b^2 + 4*a^2*b + 2*a^3 ≤ 3*(1.23*a)^3 + 6*a*(1.23*a)^2 + 4*a^2*(1.23*a) + 2*a^3 := by gcongr
    have q7 : (3*b^3 + 6*a*b^2 + 4*a^2*b + 2*a^3) * a^2 ≤ (3*(1.23*a)^3 + 6*a*(1.23*a)^2 + 4*a^2*(1.23*a) + 2*a^3) * a^2 := by gcongr
    have ha5 : 0 < a^5 := by positivity
    norm_num at *
    nlinarith
  have := mul_le_mul_of_nonneg_left k (by positivity : 0 ≤ a^5)
  nlinarith

/-- the integral over a turn of a function close to a trigonometric polynomial of degree 2 -/
theorem int_close {f : ℝ → ℝ} (hf : Continuous f) (A B C D E F K : ℝ)
    (h : ∀ θ, |f θ - (A + B * cos θ + C * sin θ + D * cos θ^2 + E * sin θ^2 + F * (sin θ * cos θ))| ≤ K) :
    |(∫ θ in Ioc 0 (2*π), f θ) - (2*π*A + π*(D + E))| ≤ 2*π*K := by
  have hpi := pi_pos
  have hg : Continuous fun θ => A + B * cos θ + C * sin θ + D * cos θ^2 + E * sin θ^2 + F * (sin θ * cos θ) := by fun_prop
  have ii := fun (f : ℝ → ℝ) (hf : Continuous f) => hf.intervalIntegrable (μ := volume) 0 (2*π)
  have e : ∫ θ in Ioc 0 (2*π), (A + B * cos θ + C * sin θ + D * cos θ^2 + E * sin θ^2 + F * (sin θ * cos θ)) = 2*π*A + π*(D+E) := by
    rw [← intervalIntegral.integral_of_le (by positivity)]
    rw [intervalIntegral.integral_add (ii _ (by fun_prop)) (ii _ (by fun_prop)), intervalIntegral.integral_add (ii _ (by fun_prop)) (ii _ (by fun_prop)),
      intervalIntegral.integral_add (ii _ (by fun_prop)) (ii _ (by fun_prop)), intervalIntegral.integral_add (ii _ (by fun_prop)) (ii _ (by fun_prop)),
      intervalIntegral.integral_add (ii _ (by fun_prop)) (ii _ (by fun_prop))]
    simp only [intervalIntegral.integral_const_mul, intervalIntegral.integral_const, integral_cos, integral_sin, integral_cos_sq, integral_sin_sq,
      integral_sin_mul_cos₁, sin_two_pi, cos_two_pi, sin_zero, cos_zero, smul_eq_mul]
    ring
  rw [← e, ← integral_sub hf.integrableOn_Ioc hg.integrableOn_Ioc]
  have := norm_setIntegral_le_of_norm_le_const (μ := volume) (s := Ioc 0 (2*π)) (C := K)
    (f := fun θ => f θ - (A + B * cos θ + C * sin θ + D * cos θ^2 + E * sin θ^2 + F * (sin θ * cos θ)))
    (by rw [Real.volume_Ioc]; exact ENNReal.ofReal_lt_top) (fun θ _ => by rw [Real.norm_eq_abs]; exact h θ)
  rw [Real.norm_eq_abs] at this
  refine this.trans (le_of_eq ?_)
  rw [Measure.real, Real.volume_Ioc, sub_zero, ENNReal.toReal_ofReal (by positivity)]
  ring
end Wiz
