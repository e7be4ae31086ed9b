import Verif.Lemmas.RotorDisk
/-! # Velocity of the skewed sheet on the rotor disk -/
namespace Wiz
open Spec Real MeasureTheory Set

variable {R x y χ γ : ℝ}

/-- the part of the velocity that depends on the position: `∫ sin t g/(1+sin χ cos t)` -/
noncomputable def diskA (R x y χ : ℝ) : ℝ := ∫ t in (0:ℝ)..(2*π), sin t * offset R x y t / (1 + sin χ * cos t)
/-- `∫ cos t g/(1+sin χ cos t)` -/
noncomputable def diskB (R x y χ : ℝ) : ℝ := ∫ t in (0:ℝ)..(2*π), cos t * offset R x y t / (1 + sin χ * cos t)

theorem cont_over (hχ : 0 < cos χ) {f : ℝ → ℝ} (hf : Continuous f) : Continuous fun t => f t / (1 + sin χ * cos t) :=
  hf.div (by fun_prop) fun t => (den_pos hχ t).ne'

theorem skew_inv (hχ : 0 < cos χ) : ∫ t in (0:ℝ)..(2*π), 1/(1 + sin χ * cos t) = 2*π/cos χ := by
  have h1 := sin_sq_add_cos_sq χ
  have ha := abs_lt.mp (abs_sin_lt hχ)
  rcases lt_trichotomy (sin χ) 0 with hs | hs | hs
  · have hp : 1 < -1/sin χ := by rw [lt_div_iff_of_neg hs]; linarith
    have h := circle_inv hp
    have e : ∀ t, 1/(1 + sin χ * cos t) = (-1/sin χ) * (1/((-1/sin χ) - cos t)) := by
      intro t
      have h0 := (den_pos hχ t).ne'
      have hs' := hs.ne
      have : -1/sin χ - cos t = -(1 + sin χ * cos t)/sin χ := by field_simp; ring
      rw [this]; field_simp
    have hq : √((-1/sin χ)^2 - 1) = -cos χ/sin χ := by
      rw [show (-1/sin χ)^2 - 1 = (-cos χ/sin χ)^2 by have := hs.ne; field_simp; linarith, sqrt_sq]
      exact div_nonneg_of_nonpos (by linarith) hs.le
    simp only [e]
    rw [intervalIntegral.integral_const_mul, h, hq]
    have := hs.ne; field_simp
  · have hc : cos χ = 1 := by
      rw [hs] at h1
      nlinarith
    rw [hs, hc]; simp
  · have hp : 1 < 1/sin χ := by rw [lt_div_iff₀ hs]; linarith
    have h := circle_inv' hp
    have e : ∀ t, 1/(1 + sin χ * cos t) = (1/sin χ) * (1/((1/sin χ) + cos t)) := by
      intro t
      have h0 := (den_pos hχ t).ne'
      have hs' := hs.ne'
      have : 1/sin χ + cos t = (1 + sin χ * cos t)/sin χ := by field_simp
      rw [this]; field_simp
    have hq : √((1/sin χ)^2 - 1) = cos χ/sin χ := by
      rw [show (1/sin χ)^2 - 1 = (cos χ/sin χ)^2 by have := hs.ne'; field_simp; linarith, sqrt_sq (by positivity)]
    simp only [e]
    rw [intervalIntegral.integral_const_mul, h, hq]
    have := hs.ne'; field_simp

theorem tan_half_cos (hχ : 0 < cos χ) : tan (χ/2) = sin χ/(1 + cos χ) := by
  have e : χ = 2 * (χ/2) := by ring
  have hc : cos (χ/2) ≠ 0 := by
    intro h0
    rw [e, cos_two_mul, h0] at hχ; norm_num at hχ
  have h2 : sin χ = 2 * sin (χ/2) * cos (χ/2) := by rw [← sin_two_mul, ← e]
  have h3 : 1 + cos χ = 2 * cos (χ/2)^2 := by
    have : cos χ = 2 * cos (χ/2)^2 - 1 := by rw [← cos_two_mul, ← e]
    linarith
  rw [tan_eq_sin_div_cos, h2, h3]; field_simp

theorem skew_J (hχ : 0 < cos χ) : ∫ t in (0:ℝ)..(2*π), cos t/(1 + sin χ * cos t) = -(2*π * tan (χ/2)/cos χ) := by
  have h1 := sin_sq_add_cos_sq χ
  rw [tan_half_cos hχ]
  by_cases hs : sin χ = 0
  · rw [hs]; simp
  · have e : ∀ t, cos t/(1 + sin χ * cos t) = (1/sin χ) * (1 - 1/(1 + sin χ * cos t)) := by
      intro t
      have h0 := (den_pos hχ t).ne'
      generalize hD : 1 + sin χ * cos t = D at *
      have : cos t = (D - 1)/sin χ := by rw [← hD]; field_simp; ring
      rw [this]; field_simp
    simp only [e]
    rw [intervalIntegral.integral_const_mul, intervalIntegral.integral_sub (by simp)
      ((cont_over hχ continuous_const).intervalIntegrable _ _), skew_inv hχ]
    simp only [intervalIntegral.integral_const, smul_eq_mul]
    have : 1 + cos χ ≠ 0 := by linarith
    field_simp
    linear_combination 2 * π * h1

theorem odd_circle {f : ℝ → ℝ} (hp : ∀ t, f (t + 2*π) = f t) (ho : ∀ t, f (-t) = - f t) : ∫ t in (0:ℝ)..(2*π), f t = 0 := by
  have h := intervalIntegral.integral_comp_sub_left (a := 0) (b := 2*π) f (2*π)
  have e : ∀ t, f (2*π - t) = - f t := fun t => by rw [show 2*π - t = -t + 2*π by ring, hp, ho]
  simp only [e, sub_self, sub_zero, intervalIntegral.integral_neg] at h
  linarith

theorem shift_circle {f : ℝ → ℝ} (hp : ∀ t, f (t + 2*π) = f t) : ∫ t in (0:ℝ)..(2*π), f (t + π) = ∫ t in (0:ℝ)..(2*π), f t := by
  have hper : Function.Periodic f (2*π) := hp
  rw [intervalIntegral.integral_comp_add_right f π, zero_add, add_comm (2*π) π, hper.intervalIntegral_add_eq π 0, zero_add]

theorem skew_K : ∫ t in (0:ℝ)..(2*π), sin t/(1 + sin χ * cos t) = 0 :=
  odd_circle (fun t => by rw [sin_add_two_pi, cos_add_two_pi]) (fun t => by rw [sin_neg, cos_neg, neg_div])

/-- The exact velocity anywhere on the rotor disk. -/
theorem field_disk (hR : 0 < R) (h : x^2 + y^2 < R^2) (hχ : 0 < cos χ) :
    (skewTangField γ R (tan χ) ⟨x, y, 0⟩).x = γ/2 * tan (χ/2) - γ/(4*π) * cos χ * diskA R x y χ ∧
    (skewTangField γ R (tan χ) ⟨x, y, 0⟩).y = γ/(4*π) * cos χ * diskB R x y χ ∧
    (skewTangField γ R (tan χ) ⟨x, y, 0⟩).z = γ/2 + γ/(4*π) * sin χ * diskA R x y χ := by
  have hpi := pi_pos
  have hgc := offset_cont h
  have hgp := offset_period (R := R) (x := x) (y := y)
  have cA : Continuous fun t => sin t * offset R x y t / (1 + sin χ * cos t) := cont_over hχ (by fun_prop)
  have cB : Continuous fun t => cos t * offset R x y t / (1 + sin χ * cos t) := cont_over hχ (by fun_prop)
  have cJ : Continuous fun t => cos t / (1 + sin χ * cos t) := cont_over hχ (by fun_prop)
  have cK : Continuous fun t => sin t / (1 + sin χ * cos t) := cont_over hχ (by fun_prop)
  have ii := fun (f : ℝ → ℝ) (hf : Continuous f) => hf.intervalIntegrable (μ := volume) 0 (2*π)
  have hc := hχ.ne'
  refine ⟨?_, ?_, ?_⟩
  · simp only [skewTangField, vint]
    rw [seen_subst hR h (fun t => -(γ/(4*π) * cos χ) * (cos t/(1 + sin χ * cos t) + sin t * offset R x y t/(1 + sin χ * cos t)))
      (continuous_const.mul (cJ.add cA)) (fun t => by simp only [sin_add_two_pi, cos_add_two_pi, hgp])]
    · rw [intervalIntegral.integral_const_mul, intervalIntegral.integral_add (ii _ cJ) (ii _ cA), skew_J hχ, ← diskA]
      field_simp
      ring
    · intro θ n hn hn2 h1 h2
      rw [gen_disk hR h hχ θ n hn hn2 h1 h2]
      simp only [V3.smul_x]
      ring
  · simp only [skewTangField, vint]
    rw [seen_subst hR h (fun t => -(γ/(4*π) * cos χ) * (sin t/(1 + sin χ * cos t) - cos t * offset R x y t/(1 + sin χ * cos t)))
      (continuous_const.mul (cK.sub cB)) (fun t => by simp only [sin_add_two_pi, cos_add_two_pi, hgp])]
    · rw [intervalIntegral.integral_const_mul, intervalIntegral.integral_sub (ii _ cK) (ii _ cB), skew_K, ← diskB]
      ring
    · intro θ n hn hn2 h1 h2
      rw [gen_disk hR h hχ θ n hn hn2 h1 h2]
      simp only [V3.smul_y]
      ring
  · simp only [skewTangField, vint]
    rw [seen_subst hR h (fun t => (γ/(4*π)) * (1 + sin χ * (sin t * offset R x y t/(1 + sin χ * cos t))))
      (continuous_const.mul (continuous_const.add (continuous_const.mul cA))) (fun t => by simp only [sin_add_two_pi, cos_add_two_pi, hgp])]
    · rw [intervalIntegral.integral_const_mul, intervalIntegral.integral_add (ii (fun _ => 1) continuous_const)
          (ii (fun t => sin χ * (sin t * offset R x y t/(1 + sin χ * cos t))) (continuous_const.mul cA)),
        intervalIntegral.integral_const_mul, ← diskA]
      simp only [intervalIntegral.integral_const, smul_eq_mul]
      field_simp
      ring
    · intro θ n hn hn2 h1 h2
      rw [gen_disk hR h hχ θ n hn hn2 h1 h2]
      simp only [V3.smul_z]
      have h0 := (den_pos hχ (seen R x y θ)).ne'
      have hpi' := hpi.ne'
      have hn0 := hn.ne'
      field_simp
      ring

theorem diskA_neg : diskA R (-x) (-y) χ = - diskA R x y χ := by
  unfold diskA
  rw [← intervalIntegral.integral_neg]
  congr 1; funext t; rw [offset_neg]; ring
theorem diskB_neg : diskB R (-x) (-y) χ = - diskB R x y χ := by
  unfold diskB
  rw [← intervalIntegral.integral_neg]
  congr 1; funext t; rw [offset_neg]; ring
theorem diskA_zero : diskA R 0 0 χ = 0 := by simp [diskA, offset]
theorem diskB_zero : diskB R 0 0 χ = 0 := by simp [diskB, offset]
/-- on the diameter across the skew -/
theorem diskA_across : diskA R 0 y χ = 0 := by
  unfold diskA
  apply odd_circle
  · intro t; rw [offset_period, sin_add_two_pi, cos_add_two_pi]
  · intro t
    have : offset R 0 y (-t) = offset R 0 y t := by unfold offset; rw [sin_neg, cos_neg]; simp
    rw [this, sin_neg, cos_neg]; ring
theorem diskA_flip : diskA R x y (-χ) = diskA R x y χ := by
  unfold diskA
  rw [← shift_circle (f := fun t => sin t * offset R x y t / (1 + sin χ * cos t))
    (fun t => by rw [offset_period, sin_add_two_pi, cos_add_two_pi])]
  congr 1; funext t
  rw [offset_add_pi, sin_add_pi, cos_add_pi, sin_neg]; ring_nf
theorem diskB_flip : diskB R x y (-χ) = diskB R x y χ := by
  unfold diskB
  rw [← shift_circle (f := fun t => cos t * offset R x y t / (1 + sin χ * cos t))
    (fun t => by rw [offset_period, cos_add_two_pi])]
  congr 1; funext t
  rw [offset_add_pi, cos_add_pi, sin_neg]; ring_nf
end Wiz
