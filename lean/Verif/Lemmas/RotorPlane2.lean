import Verif.Lemmas.RotorPlane
import Verif.Lemmas.Riemann
import Mathlib.Analysis.SpecialFunctions.Trigonometric.Arctan

namespace Wiz
open Spec Real Classical intervalIntegral

theorem flip_cos (f : ℝ → ℝ) : ∫ θ in (0:ℝ)..(2*π), f (-cos θ) = ∫ θ in (0:ℝ)..(2*π), f (cos θ) := by
  have hp : Function.Periodic (fun θ => f (cos θ)) (2*π) := fun θ => by simp only [cos_add_two_pi]
  have h := hp.intervalIntegral_add_eq π 0
  have h2 := intervalIntegral.integral_comp_add_right (fun θ => f (cos θ)) (a := 0) (b := 2*π) π
  simp only [cos_add_pi, zero_add] at h2 h
  rw [h2, add_comm (2*π) π, h]

/-- `∫₀^{2π} dθ/(p - cos θ) = 2π/√(p²-1)` -/
theorem circle_inv {p : ℝ} (hp : 1 < p) : ∫ θ in (0:ℝ)..(2*π), 1/(p - cos θ) = 2*π/√(p^2-1) := by
  have hq : 0 < p^2 - 1 := by nlinarith
  have hs := sqrt_pos.mpr hq
  have hs2 := sq_sqrt hq.le
  have hlt : √(p^2-1) < p := by rw [sqrt_lt' (by linarith)]; linarith
  generalize √(p^2-1) = q at *
  have hr : 0 < p - q := by linarith
  have hr1 : p - q < 1 := by nlinarith
  have h := poisson_integral hr.le hr1
  have e : ∀ θ : ℝ, 1/((p-q)^2 + 1^2 - 2*(p-q)*1*cos θ) = 1/(2*(p-q)) * (1/(p - cos θ)) := by
    intro θ
    have h1 : (p-q)^2 + 1^2 - 2*(p-q)*1*cos θ = 2*(p-q)*(p - cos θ) := by linear_combination hs2
    rw [h1, ← one_div_mul_one_div]
  rw [integral_congr (fun θ _ => e θ), integral_const_mul] at h
  have h2 : ∫ θ in (0:ℝ)..(2*π), 1/(p - cos θ) = 2*(p-q)*(2*π/(1^2 - (p-q)^2)) := by
    rw [← h]; field_simp
  rw [h2, show (1:ℝ)^2 - (p-q)^2 = 2*(p-q)*q by linear_combination hs2]
  field_simp

theorem circle_inv' {p : ℝ} (hp : 1 < p) : ∫ θ in (0:ℝ)..(2*π), 1/(p + cos θ) = 2*π/√(p^2-1) := by
  rw [← circle_inv hp, ← flip_cos (fun c => 1/(p - c))]
  simp only [sub_neg_eq_add]

theorem dist_pos' {ρ : ℝ} (hρ : ρ ≠ 1) (hρ' : ρ ≠ -1) (c : ℝ) (h1 : -1 ≤ c) (h2 : c ≤ 1) : 0 < 1 + ρ^2 - 2*ρ*c := by
  have e : 1 + ρ^2 - 2*ρ*c = (1-ρ)^2 * ((1+c)/2) + (1+ρ)^2 * ((1-c)/2) := by ring
  have a1 : 0 < (1-ρ)^2 := by have := sub_ne_zero.mpr (Ne.symm hρ); positivity
  have a2 : 0 < (1+ρ)^2 := by have : 1 + ρ ≠ 0 := fun h => hρ' (by linarith); positivity
  rw [e]
  rcases lt_or_ge 0 c with h | h
  · have : 0 < (1-ρ)^2 * ((1+c)/2) := by have : 0 < 1 + c := by linarith
                                         positivity
    have : 0 ≤ (1+ρ)^2 * ((1-c)/2) := by have : 0 ≤ 1 - c := by linarith
                                         positivity
    linarith
  · have : 0 ≤ (1-ρ)^2 * ((1+c)/2) := by have : 0 ≤ 1 + c := by linarith
                                         positivity
    have : 0 < (1+ρ)^2 * ((1-c)/2) := by have : 0 < 1 - c := by linarith
                                         positivity
    linarith

theorem dist_pos {ρ : ℝ} (hρ : ρ ≠ 1) (hρ' : ρ ≠ -1) (θ : ℝ) : 0 < 1 + ρ^2 - 2*ρ*cos θ :=
  dist_pos' hρ hρ' _ (neg_one_le_cos θ) (cos_le_one θ)

/-- the rational part of the rotor-plane integrand averages out: positive radius, no skew -/
theorem rational_zero_pos {ρ : ℝ} (h0 : 0 < ρ) (h1 : ρ < 1) :
    ∫ θ in (0:ℝ)..(2*π), (cos θ - ρ)/(1 + ρ^2 - 2*ρ*cos θ) = 0 := by
  have hd := dist_pos (ρ := ρ) h1.ne (by linarith)
  have e : ∀ θ : ℝ, (cos θ - ρ)/(1 + ρ^2 - 2*ρ*cos θ) = (1-ρ^2)/(2*ρ) * (1/(ρ^2 + 1^2 - 2*ρ*1*cos θ)) - 1/(2*ρ) := by
    intro θ
    have h := (hd θ).ne'
    rw [show ρ^2 + 1^2 - 2*ρ*1*cos θ = 1 + ρ^2 - 2*ρ*cos θ by ring]
    have hc : cos θ - ρ = ((1 - ρ^2) - (1 + ρ^2 - 2*ρ*cos θ))/(2*ρ) := by field_simp; ring
    rw [hc]
    generalize 1 + ρ^2 - 2*ρ*cos θ = D at *
    field_simp
  have hi : IntervalIntegrable (fun θ => 1/(ρ^2 + 1^2 - 2*ρ*1*cos θ)) MeasureTheory.volume 0 (2*π) := by
    apply Continuous.intervalIntegrable
    refine continuous_const.div (by fun_prop) fun θ => ?_
    have := hd θ
    rw [show ρ^2 + 1^2 - 2*ρ*1*cos θ = 1 + ρ^2 - 2*ρ*cos θ by ring]; exact this.ne'
  rw [integral_congr (fun θ _ => e θ), integral_sub (hi.const_mul _) (by simp), integral_const_mul, poisson_integral h0.le h1]
  rw [integral_const]
  have : 1 - ρ^2 ≠ 0 := by nlinarith
  simp only [one_pow, smul_eq_mul]
  field_simp
  ring

theorem rational_zero_noskew {ρ : ℝ} (h0 : -1 < ρ) (h1 : ρ < 1) :
    ∫ θ in (0:ℝ)..(2*π), (cos θ - ρ)/(1 + ρ^2 - 2*ρ*cos θ) = 0 := by
  rcases lt_trichotomy ρ 0 with h | h | h
  · have := rational_zero_pos (ρ := -ρ) (by linarith) (by linarith)
    rw [← flip_cos (fun c => (c - -ρ)/(1 + (-ρ)^2 - 2 * -ρ*c))] at this
    rw [← neg_eq_zero, ← integral_neg, ← this]
    congr 1; ext θ
    rw [← neg_div]; congr 1 <;> ring
  · subst h; simp
  · exact rational_zero_pos h h1

theorem rational_zero_skew {ρ m : ℝ} (h0 : -1 < ρ) (h1 : ρ < 1) (hm : m ≠ 0) :
    ∫ θ in (0:ℝ)..(2*π), (cos θ - ρ)/(1 + ρ^2 - 2*ρ*cos θ + m^2 * sin θ^2) = 0 := by
  have hm2 : 0 < m^2 := by positivity
  have hSn : 0 ≤ (m^2+ρ^2)*(1+m^2) := by positivity
  have hS0 := sqrt_nonneg ((m^2+ρ^2)*(1+m^2))
  have hS2 := sq_sqrt hSn
  have hc : 0 < √(1+m^2) := sqrt_pos.mpr (by positivity)
  have hc2 := sq_sqrt (show 0 ≤ 1+m^2 by positivity)
  generalize √((m^2+ρ^2)*(1+m^2)) = S at *
  generalize √(1+m^2) = k at *
  obtain ⟨p, hp⟩ : ∃ p, m^2*p = S - ρ := ⟨(S-ρ)/m^2, by field_simp⟩
  obtain ⟨q, hq⟩ : ∃ q, m^2*q = S + ρ := ⟨(S+ρ)/m^2, by field_simp⟩
  have hp1 : 1 < p := by
    have : m^2 + ρ < S := by
      by_contra hcon
      push Not at hcon
      have : S^2 ≤ (m^2+ρ)^2 := pow_le_pow_left₀ hS0 hcon 2
      nlinarith [mul_pos hm2 (mul_self_pos.mpr (show 1 - ρ ≠ 0 by linarith))]
    nlinarith
  have hq1 : 1 < q := by
    have : m^2 - ρ < S := by
      by_contra hcon
      push Not at hcon
      have : S^2 ≤ (m^2-ρ)^2 := pow_le_pow_left₀ hS0 hcon 2
      nlinarith [mul_pos hm2 (mul_self_pos.mpr (show 1 + ρ ≠ 0 by linarith))]
    nlinarith
  have rp : m^2*p^2 + 2*ρ*p = 1 + ρ^2 + m^2 := by
    have : m^2*(m^2*p^2 + 2*ρ*p) = m^2*(1 + ρ^2 + m^2) := by
      linear_combination (m^2*p + (S - ρ) + 2*ρ)*hp + hS2
    exact mul_left_cancel₀ hm2.ne' this
  have rq : m^2*q^2 - 2*ρ*q = 1 + ρ^2 + m^2 := by
    have : m^2*(m^2*q^2 - 2*ρ*q) = m^2*(1 + ρ^2 + m^2) := by
      linear_combination (m^2*q + (S + ρ) - 2*ρ)*hq + hS2
    exact mul_left_cancel₀ hm2.ne' this
  have sp : √(p^2-1) = (p - ρ)/k := by
    rw [sqrt_eq_iff_mul_self_eq_of_pos (div_pos (by linarith) hc)]
    rw [div_mul_div_comm, div_eq_iff (by positivity)]
    linear_combination (-1)*rp - (p^2-1)*hc2
  have sq' : √(q^2-1) = (q + ρ)/k := by
    rw [sqrt_eq_iff_mul_self_eq_of_pos (div_pos (by linarith) hc)]
    rw [div_mul_div_comm, div_eq_iff (by positivity)]
    linear_combination (-1)*rq - (q^2-1)*hc2
  have hpq : m^2*(p+q) ≠ 0 := by have : 0 < p + q := by linarith
                                 positivity
  have e : ∀ θ : ℝ, (cos θ - ρ)/(1 + ρ^2 - 2*ρ*cos θ + m^2 * sin θ^2)
      = (p-ρ)/(m^2*(p+q)) * (1/(p - cos θ)) - (q+ρ)/(m^2*(p+q)) * (1/(q + cos θ)) := by
    intro θ
    have c1 := neg_one_le_cos θ
    have c2 := cos_le_one θ
    have a1 : p - cos θ ≠ 0 := by linarith
    have a2 : q + cos θ ≠ 0 := by linarith
    have hD : 1 + ρ^2 - 2*ρ*cos θ + m^2 * sin θ^2 = m^2*((p - cos θ)*(q + cos θ)) := by
      have hsin := sin_sq_add_cos_sq θ
      have h3 : m^2*(p*q) = 1 + ρ^2 + m^2 := by
        have : m^2*(m^2*(p*q)) = m^2*(1 + ρ^2 + m^2) := by linear_combination (m^2*q)*hp + (S-ρ)*hq + hS2
        exact mul_left_cancel₀ hm2.ne' this
      linear_combination m^2*hsin - h3 - cos θ*hp + cos θ*hq
    rw [hD]
    generalize cos θ = c at *
    have h4 : p + q ≠ 0 := by linarith
    field_simp
    ring
  have i1 : IntervalIntegrable (fun θ => 1/(p - cos θ)) MeasureTheory.volume 0 (2*π) := by
    apply Continuous.intervalIntegrable
    exact continuous_const.div (by fun_prop) fun θ => by have := cos_le_one θ; linarith
  have i2 : IntervalIntegrable (fun θ => 1/(q + cos θ)) MeasureTheory.volume 0 (2*π) := by
    apply Continuous.intervalIntegrable
    exact continuous_const.div (by fun_prop) fun θ => by have := neg_one_le_cos θ; linarith
  rw [integral_congr (fun θ _ => e θ), integral_sub (i1.const_mul _) (i2.const_mul _), integral_const_mul, integral_const_mul,
    circle_inv hp1, circle_inv' hq1, sp, sq']
  have h5 : p - ρ ≠ 0 := by linarith
  have h6 : q + ρ ≠ 0 := by linarith
  field_simp
  ring

theorem rational_zero {ρ m : ℝ} (h0 : -1 < ρ) (h1 : ρ < 1) :
    ∫ θ in (0:ℝ)..(2*π), (cos θ - ρ)/(1 + ρ^2 - 2*ρ*cos θ + m^2 * sin θ^2) = 0 := by
  by_cases hm : m = 0
  · subst hm
    simpa using rational_zero_noskew h0 h1
  · exact rational_zero_skew h0 h1 hm

theorem full_of_half (f : ℝ → ℝ) (hf : Continuous fun θ => f (cos θ)) :
    ∫ θ in (0:ℝ)..(2*π), f (cos θ) = 2 * ∫ θ in (0:ℝ)..π, f (cos θ) := by
  rw [circle_integral f hf, half_circle]; ring

/-- the axial velocity of the skewed sheet in the rotor plane, on the diameter along the skew -/
theorem rotor_plane_axial {γ R ρ m : ℝ} (hR : 0 < R) (h0 : -1 < ρ) (h1 : ρ < 1) :
    (skewTangField γ R m ⟨ρ*R, 0, 0⟩).z = γ/2 * (1 + skewAmplitude ρ m) := by
  have hpi := pi_pos
  have hk : 0 < √(1+m^2) := sqrt_pos.mpr (by positivity)
  have hk2 := sq_sqrt (show 0 ≤ 1+m^2 by positivity)
  have hgen : ∀ θ : ℝ, (tangGenerator γ R m ⟨ρ*R, 0, 0⟩ θ).z = γ/(4*π) * (1 + ρ * ((cos θ - ρ)/(1 + ρ^2 - 2*ρ*cos θ + m^2 * sin θ^2))
      + m*√(1+m^2)*ρ * (sin θ^2/(√(1 + ρ^2 - 2*ρ*cos θ) * (1 + ρ^2 - 2*ρ*cos θ + m^2 * sin θ^2)))) := by
    intro θ
    have ha := dist_pos (ρ := ρ) h1.ne h0.ne' θ
    have hsc := sin_sq_add_cos_sq θ
    have hN : V3.norm ((⟨ρ*R, 0, 0⟩ : V3 ℝ) - rim R θ) = R * √(1 + ρ^2 - 2*ρ*cos θ) := by
      unfold V3.norm rim
      simp only [V3.sub_x, V3.sub_y, V3.sub_z]
      rw [show (ρ*R - R*cos θ)^2 + (0 - R*sin θ)^2 + (0-0)^2 = R^2 * (1 + ρ^2 - 2*ρ*cos θ) by linear_combination R^2*hsc,
        sqrt_mul (by positivity), sqrt_sq hR.le]
    have hdot : V3.dot ((⟨ρ*R, 0, 0⟩ : V3 ℝ) - rim R θ) (skewDir m) = R*(m*(ρ - cos θ))/√(1+m^2) := by
      simp only [V3.dot, rim, skewDir, V3.sub_x, V3.sub_y, V3.sub_z]; ring
    have hq := sqrt_pos.mpr ha
    have hq2 := sq_sqrt ha.le
    have hlt : m*(ρ - cos θ) < √(1 + ρ^2 - 2*ρ*cos θ) * √(1+m^2) := by
      apply lt_of_pow_lt_pow_left₀ 2 (by positivity)
      rw [mul_pow, mul_pow, hq2, hk2]
      nlinarith [mul_nonneg (sq_nonneg m) (sq_nonneg (sin θ))]
    have hden : 0 < 1 + ρ^2 - 2*ρ*cos θ + m^2 * sin θ^2 := by positivity
    have hd : 0 < R * √(1 + ρ^2 - 2*ρ*cos θ) - R*(m*(ρ - cos θ))/√(1+m^2) := by
      rw [sub_pos, div_lt_iff₀ hk, mul_assoc]
      exact mul_lt_mul_of_pos_left hlt hR
    rw [tangGenerator_eval (by rw [hN]; positivity) (by rw [hN, hdot]; exact hd), hN, hdot]
    simp only [V3.smul_z, V3.sub_z]
    have hcA : (V3.cross (rimTangent R θ) ((⟨ρ*R, 0, 0⟩ : V3 ℝ) - rim R θ)).z = R^2*(1 - ρ*cos θ) := by
      simp only [V3.cross, rimTangent, rim, V3.sub_x, V3.sub_y]
      linear_combination R^2*hsc
    have hcd : (V3.cross (rimTangent R θ) (skewDir m)).z = -(R*cos θ*m/√(1+m^2)) := by
      simp only [V3.cross, rimTangent, skewDir]; ring
    rw [hcA, hcd]
    have hden2 : 1 + ρ^2 - 2*ρ*cos θ + m^2 * sin θ^2
        = (√(1 + ρ^2 - 2*ρ*cos θ) * √(1+m^2) - m*(ρ - cos θ)) * (√(1 + ρ^2 - 2*ρ*cos θ) * √(1+m^2) + m*(ρ - cos θ)) := by
      have : (√(1 + ρ^2 - 2*ρ*cos θ) * √(1+m^2))^2 = (1 + ρ^2 - 2*ρ*cos θ)*(1+m^2) := by rw [mul_pow, hq2, hk2]
      linear_combination (-1)*this + m^2*hsc
    have hadd : 0 < √(1 + ρ^2 - 2*ρ*cos θ) * √(1+m^2) + m*(ρ - cos θ) := by
      have : 0 < (√(1 + ρ^2 - 2*ρ*cos θ) * √(1+m^2) - m*(ρ - cos θ)) * (√(1 + ρ^2 - 2*ρ*cos θ) * √(1+m^2) + m*(ρ - cos θ)) := by
        rw [← hden2]; exact hden
      exact pos_of_mul_pos_right this (by linarith)
    have hsub : √(1 + ρ^2 - 2*ρ*cos θ) * √(1+m^2) - m*(ρ - cos θ) ≠ 0 := by linarith
    have hfac : R * √(1 + ρ^2 - 2*ρ*cos θ) - R*(m*(ρ - cos θ))/√(1+m^2)
        = R * (√(1 + ρ^2 - 2*ρ*cos θ) * √(1+m^2) - m*(ρ - cos θ))/√(1+m^2) := by field_simp
    rw [hfac]
    have hadd' := hadd.ne'
    have hs2 : sin θ^2 = 1 - cos θ^2 := by linarith
    have hlhs : γ/(4*π)/(R * √(1 + ρ^2 - 2*ρ*cos θ) * (R * (√(1 + ρ^2 - 2*ρ*cos θ) * √(1+m^2) - m*(ρ - cos θ))/√(1+m^2)))
          * (R^2*(1 - ρ*cos θ) - R * √(1 + ρ^2 - 2*ρ*cos θ) * -(R*cos θ*m/√(1+m^2)))
        = γ/(4*π) * (((1 - ρ*cos θ)*√(1+m^2) + √(1 + ρ^2 - 2*ρ*cos θ)*(cos θ*m)) *
          (√(1 + ρ^2 - 2*ρ*cos θ) * √(1+m^2) + m*(ρ - cos θ)) / (√(1 + ρ^2 - 2*ρ*cos θ) * (1 + ρ^2 - 2*ρ*cos θ + m^2 * sin θ^2))) := by
      rw [hden2]
      generalize √(1 + ρ^2 - 2*ρ*cos θ) * √(1+m^2) - m*(ρ - cos θ) = U at *
      generalize √(1 + ρ^2 - 2*ρ*cos θ) * √(1+m^2) + m*(ρ - cos θ) = V at *
      field_simp
      ring
    rw [hlhs]
    clear hlhs hden2 hfac hsub hadd hadd' hd hlt
    congr 1
    have hDne := hden.ne'
    rw [div_eq_iff (by positivity)]
    generalize hD : 1 + ρ^2 - 2*ρ*cos θ + m^2 * sin θ^2 = D at *
    have hrhs : (1 + ρ * ((cos θ - ρ)/D) + m*√(1+m^2)*ρ * (sin θ^2/(√(1 + ρ^2 - 2*ρ*cos θ) * D))) * (√(1 + ρ^2 - 2*ρ*cos θ) * D)
        = √(1 + ρ^2 - 2*ρ*cos θ) * D + ρ*(cos θ - ρ)*√(1 + ρ^2 - 2*ρ*cos θ) + m*√(1+m^2)*ρ*sin θ^2 := by
      have hq' := hq.ne'
      generalize √(1 + ρ^2 - 2*ρ*cos θ) = a at *
      generalize √(1+m^2) = k at *
      field_simp
    rw [hrhs, ← hD, hs2]
    generalize √(1 + ρ^2 - 2*ρ*cos θ) = a at *
    generalize √(1+m^2) = k at *
    generalize cos θ = c at *
    linear_combination ((1 - ρ*c)*a)*hk2 + (c*m*k)*hq2
  unfold skewTangField vint
  simp only []
  rw [MeasureTheory.setIntegral_congr_fun measurableSet_Ioc (fun θ _ => hgen θ),
    ← intervalIntegral.integral_of_le (by positivity)]
  have hc1 : Continuous fun θ => (cos θ - ρ)/(1 + ρ^2 - 2*ρ*cos θ + m^2 * sin θ^2) :=
    Continuous.div (by fun_prop) (by fun_prop) fun θ => by
      have := dist_pos (ρ := ρ) h1.ne h0.ne' θ
      positivity
  have hc2 : Continuous fun θ => sin θ^2/(√(1 + ρ^2 - 2*ρ*cos θ) * (1 + ρ^2 - 2*ρ*cos θ + m^2 * sin θ^2)) :=
    Continuous.div (by fun_prop) (by fun_prop) fun θ => by
      have h := dist_pos (ρ := ρ) h1.ne h0.ne' θ
      have h2 := sqrt_pos.mpr h
      positivity
  have hfull := full_of_half (fun c => (1-c^2)/(√(1 + ρ^2 - 2*ρ*c) * (1 + ρ^2 - 2*ρ*c + m^2 * (1-c^2))))
    (by refine hc2.congr fun θ => ?_
        simp only [sin_sq])
  simp only [← sin_sq] at hfull
  rw [integral_const_mul, integral_add, integral_add, integral_const_mul, integral_const_mul, rational_zero h0 h1, hfull]
  · unfold skewAmplitude
    rw [integral_const]
    simp only [smul_eq_mul]
    field_simp
    ring
  · simp
  · exact (hc1.const_mul _).intervalIntegrable _ _
  · exact Continuous.intervalIntegrable (by fun_prop) _ _
  · exact (hc2.const_mul _).intervalIntegrable _ _

end Wiz
