import Verif.Lemmas.Landen
import Verif.Lemmas.Skewed
import Verif.Lemmas.SkewedConv
import Verif.Lemmas.CylinderIntegral
import Verif.Lemmas.CarlsonConv
import Verif.Model.RotorPlane
import Verif.Spec.RotorPlane

namespace Wiz
open Spec Real Classical intervalIntegral

theorem half_circle (f : ℝ → ℝ) :
    ∫ θ in (0:ℝ)..π, f (cos θ) = 2 * ∫ t in (0:ℝ)..(π/2), f (2 * sin t ^ 2 - 1) := by
  have h := intervalIntegral.integral_comp_sub_mul (fun θ => f (cos θ)) (a := 0) (b := π/2) (c := 2) (by norm_num) π
  simp only [mul_zero, sub_zero, show π - 2 * (π/2) = 0 by ring, smul_eq_mul] at h
  have e : (fun t => f (cos (π - 2 * t))) = fun t => f (2 * sin t ^ 2 - 1) := by
    ext t
    congr 1
    rw [cos_pi_sub, cos_two_mul, cos_sq']; ring
  rw [e] at h
  rw [h]; ring

/-- real values of the auxiliary variables of `fKzt` -/
noncomputable def rJ (r : ℝ) : ℝ := 1 - (1-r)^2/(1+r)^2
noncomputable def rB1 (r m : ℝ) : ℝ := ((√(1+m^2) + √(r^2+m^2))/(1+r))^2 - 1
noncomputable def rB2 (r m : ℝ) : ℝ := 1 - ((√(1+m^2) - √(r^2+m^2))/(1+r))^2

theorem rJ_eq {r : ℝ} (hr : 0 ≤ r) : rJ r = 4*r/(1+r)^2 := by
  have : 1 + r ≠ 0 := by linarith
  unfold rJ; field_simp; ring

theorem rJ_lt {r : ℝ} (hr : 0 ≤ r) (hr1 : r ≠ 1) : rJ r < 1 := by
  have : 0 < (1-r)^2/(1+r)^2 := by
    have h1 : 1 - r ≠ 0 := sub_ne_zero.mpr (Ne.symm hr1)
    have h2 : 1 + r ≠ 0 := by linarith
    positivity
  unfold rJ; linarith

theorem rB2_lt {r m : ℝ} (hr : 0 ≤ r) (hr1 : r < 1) : rB2 r m < 1 := by
  have h1 : √(r^2+m^2) < √(1+m^2) := sqrt_lt_sqrt (by positivity) (by nlinarith)
  have h2 : 0 < (√(1+m^2) - √(r^2+m^2))/(1+r) := div_pos (by linarith) (by linarith)
  have := pow_pos h2 2
  unfold rB2; linarith

theorem rB1_nonneg {r m : ℝ} (hr : 0 ≤ r) : 0 ≤ rB1 r m := by
  have h1 : 1 ≤ √(1+m^2) := le_sqrt_of_sq_le (by nlinarith [sq_nonneg m])
  have h2 : r ≤ √(r^2+m^2) := le_sqrt_of_sq_le (by nlinarith [sq_nonneg m])
  have h3 : 1 ≤ (√(1+m^2) + √(r^2+m^2))/(1+r) := by rw [le_div_iff₀ (by linarith)]; linarith
  unfold rB1; nlinarith

theorem rB_diff {r m : ℝ} (hr : 0 ≤ r) : rB1 r m - rB2 r m = 4*(m^2 - r)/(1+r)^2 := by
  have h1 := sq_sqrt (show 0 ≤ 1 + m^2 by positivity)
  have h2 := sq_sqrt (show 0 ≤ r^2 + m^2 by positivity)
  have : 1 + r ≠ 0 := by linarith
  unfold rB1 rB2
  generalize √(1+m^2) = A at *
  generalize √(r^2+m^2) = B at *
  field_simp
  linear_combination 2*h1 + 2*h2

theorem rB_sum {r m : ℝ} (hr : 0 ≤ r) : rB1 r m + rB2 r m = 4*(√(1+m^2)*√(r^2+m^2))/(1+r)^2 := by
  have : 1 + r ≠ 0 := by linarith
  unfold rB1 rB2
  field_simp
  ring

theorem rB_prod {r m : ℝ} (hr : 0 ≤ r) : rB1 r m * rB2 r m = 4*m^2/(1+r)^2 := by
  have h1 := sq_sqrt (show 0 ≤ 1 + m^2 by positivity)
  have h2 := sq_sqrt (show 0 ≤ r^2 + m^2 by positivity)
  have hne : 1 + r ≠ 0 := by linarith
  unfold rB1 rB2
  generalize √(1+m^2) = A at *
  generalize √(r^2+m^2) = B at *
  have e : (((A+B)/(1+r))^2 - 1) * (1 - ((A-B)/(1+r))^2)
      = ((A+B)^2 - (1+r)^2) * ((1+r)^2 - (A-B)^2) / (1+r)^4 := by field_simp
  rw [e, div_eq_div_iff (by positivity) (by positivity)]
  have e1 : ((A+B)^2 - (1+r)^2) * ((1+r)^2 - (A-B)^2) = (A^2 + B^2 + 2*(A*B) - (1+r)^2) * ((1+r)^2 - (A^2 + B^2) + 2*(A*B)) := by ring
  have e2 : (A^2 + B^2 + 2*(A*B) - (1+r)^2) * ((1+r)^2 - (A^2 + B^2) + 2*(A*B)) = 4*(A^2*B^2) - (A^2+B^2-(1+r)^2)^2 := by ring
  rw [e1, e2, h1, h2]; ring

/-- The closed form of `Kzt` with the exact elliptic integrals. -/
theorem kzt_closed {r m : ℝ} (hr : 0 ≤ r) (hr1 : r < 1) (hm : m ≠ 0) :
    2*√(1+m^2)*r/(m*π) * ellK (r^2) - r*(r+1)/(2*m*π*√(m^2+r^2)) *
      ((rB1 r m + rJ r) * ellPi (-rB1 r m) (rJ r) + (rB2 r m - rJ r) * ellPi (rB2 r m) (rJ r)) = skewAmplitude r m := by
  have hpi := pi_pos
  have h1r : 0 < 1 + r := by linarith
  have hJ := rJ_lt hr hr1.ne
  have hb1 := rB1_nonneg (m := m) hr
  have hb2 := rB2_lt (m := m) hr hr1
  have hdiff := rB_diff (m := m) hr
  have hsum := rB_sum (m := m) hr
  have hprod := rB_prod (m := m) hr
  have hA : 0 < √(1+m^2) := sqrt_pos.mpr (by positivity)
  have hB : 0 < √(r^2+m^2) := sqrt_pos.mpr (by positivity)
  have hs0 : 0 < rB1 r m + rB2 r m := by rw [hsum]; positivity
  have hL := landen hr hr1
  rw [← rJ_eq hr] at hL
  have hjr : (1+r)^2 * rJ r = 4*r := by rw [rJ_eq hr]; field_simp
  unfold skewAmplitude
  have e : ∀ θ : ℝ, sin θ^2 / (√(1 + r^2 - 2*r*cos θ) * (1 + r^2 - 2*r*cos θ + m^2 * sin θ^2))
      = (fun c => (1-c^2) / (√(1 + r^2 - 2*r*c) * (1 + r^2 - 2*r*c + m^2 * (1-c^2)))) (cos θ) := by
    intro θ
    simp only [sin_sq]
  rw [integral_congr (fun θ _ => e θ),
    half_circle (fun c => (1-c^2) / (√(1 + r^2 - 2*r*c) * (1 + r^2 - 2*r*c + m^2 * (1-c^2))))]
  have hpt : ∀ t : ℝ, (1-(2 * sin t ^ 2 - 1)^2) / (√(1 + r^2 - 2*r*(2 * sin t ^ 2 - 1)) *
        (1 + r^2 - 2*r*(2 * sin t ^ 2 - 1) + m^2 * (1-(2 * sin t ^ 2 - 1)^2)))
      = 1/(m^2*(1+r)) * (1/√(1 - rJ r * sin t^2)) - (rB1 r m + rJ r)/(m^2*(1+r)*(rB1 r m + rB2 r m)) *
          (1/((1 - -rB1 r m * sin t^2) * √(1 - rJ r * sin t^2)))
        - (rB2 r m - rJ r)/(m^2*(1+r)*(rB1 r m + rB2 r m)) *
          (1/((1 - rB2 r m * sin t^2) * √(1 - rJ r * sin t^2))) := by
    intro t
    have hs := sin_sq_le t
    have hD := delta_pos hJ t
    have hP2 := delta_pos hb2 t
    have hP1 : 0 < 1 - -rB1 r m * sin t^2 := by nlinarith
    have hroot : √(1 + r^2 - 2*r*(2 * sin t ^ 2 - 1)) = (1+r) * √(1 - rJ r * sin t^2) := by
      rw [show 1 + r^2 - 2*r*(2 * sin t ^ 2 - 1) = (1+r)^2 * (1 - rJ r * sin t^2) by linear_combination (sin t^2)*hjr,
        sqrt_mul (by positivity), sqrt_sq h1r.le]
    have hden : 1 + r^2 - 2*r*(2 * sin t ^ 2 - 1) + m^2 * (1-(2 * sin t ^ 2 - 1)^2)
        = (1+r)^2 * ((1 - -rB1 r m * sin t^2) * (1 - rB2 r m * sin t^2)) := by
      have h3 : (1+r)^2 * (rB1 r m - rB2 r m) = 4*(m^2-r) := by rw [hdiff]; field_simp
      have h4 : (1+r)^2 * (rB1 r m * rB2 r m) = 4*m^2 := by rw [hprod]; field_simp
      linear_combination (-(sin t^2))*h3 + (sin t^2)^2*h4
    have hnum : (1+r)^2 * (rB1 r m * rB2 r m) = 4*m^2 := by rw [hprod]; field_simp
    have hd' : (1+r)^2 * (rB1 r m - rB2 r m + rJ r) = 4*m^2 := by
      rw [mul_add, hjr, hdiff]; field_simp; ring
    rw [hroot, hden]
    have hq := sqrt_pos.mpr hD
    clear hdiff hsum hprod hroot hden hD hL
    generalize √(1 - rJ r * sin t^2) = D at *
    have hP1' := hP1.ne'
    have hP2' := hP2.ne'
    have hs0' := hs0.ne'
    have hkey : (1-(2 * sin t ^ 2 - 1)^2) * m^2 = (1+r)^2 * ((1 - -rB1 r m * sin t^2) * (1 - rB2 r m * sin t^2) - (1 - rJ r * sin t^2)) := by
      linear_combination (-(sin t^2))*hd' + (sin t^2)^2*hnum
    have hpf : 1 - rJ r * sin t^2 = ((rB1 r m + rJ r) * (1 - rB2 r m * sin t^2) + (rB2 r m - rJ r) * (1 - -rB1 r m * sin t^2))/(rB1 r m + rB2 r m) := by
      field_simp; ring
    have hkey2 : (1-(2 * sin t ^ 2 - 1)^2) = (1+r)^2 * ((1 - -rB1 r m * sin t^2) * (1 - rB2 r m * sin t^2) -
        ((rB1 r m + rJ r) * (1 - rB2 r m * sin t^2) + (rB2 r m - rJ r) * (1 - -rB1 r m * sin t^2))/(rB1 r m + rB2 r m)) / m^2 := by
      rw [eq_div_iff (by positivity), hkey, ← hpf]
    rw [hkey2]
    generalize 1 - -rB1 r m * sin t^2 = P1 at *
    generalize 1 - rB2 r m * sin t^2 = P2 at *
    generalize hX : rB1 r m + rJ r = X1 at *
    generalize rB2 r m - rJ r = X2 at *
    generalize rB1 r m + rB2 r m = S at *
    field_simp
    ring
  have i0 : IntervalIntegrable (fun t => 1/√(1 - rJ r * sin t^2)) MeasureTheory.volume 0 (π/2) :=
    (cont_inv_sqrt hJ).intervalIntegrable _ _
  have iP : ∀ n, n < 1 → IntervalIntegrable (fun t => 1/((1 - n * sin t^2) * √(1 - rJ r * sin t^2))) MeasureTheory.volume 0 (π/2) := by
    intro n hn
    apply Continuous.intervalIntegrable
    refine continuous_const.div (by fun_prop) fun t => ?_
    exact mul_ne_zero (delta_pos hn t).ne' (sqrt_pos.mpr (delta_pos hJ t)).ne'
  have i1 := iP (-rB1 r m) (by linarith)
  have i2 := iP (rB2 r m) hb2
  rw [integral_congr (fun t _ => hpt t), integral_sub ((i0.const_mul _).sub (i1.const_mul _)) (i2.const_mul _),
    integral_sub (i0.const_mul _) (i1.const_mul _), integral_const_mul, integral_const_mul, integral_const_mul]
  rw [show ∫ t in (0:ℝ)..(π/2), 1/√(1 - rJ r * sin t^2) = ellK (rJ r) from rfl,
    show ∫ t in (0:ℝ)..(π/2), 1/((1 - -rB1 r m * sin t^2) * √(1 - rJ r * sin t^2)) = ellPi (-rB1 r m) (rJ r) from rfl,
    show ∫ t in (0:ℝ)..(π/2), 1/((1 - rB2 r m * sin t^2) * √(1 - rJ r * sin t^2)) = ellPi (rB2 r m) (rJ r) from rfl, hL, hsum]
  rw [add_comm (m^2) (r^2)]
  have hA2 := sq_sqrt (show 0 ≤ 1 + m^2 by positivity)
  generalize √(1+m^2) = A at *
  generalize √(r^2+m^2) = B at *
  generalize rB1 r m + rJ r = X1 at *
  generalize rB2 r m - rJ r = X2 at *
  generalize ellPi (-rB1 r m) (rJ r) = P1 at *
  generalize ellPi (rB2 r m) (rJ r) = P2 at *
  generalize ellK (r^2) = K at *
  field_simp
  ring

end Wiz
