import Verif.Props.YawedRotor
import Verif.Props.SolidAngle
import Mathlib.Analysis.SpecialFunctions.Trigonometric.ArctanDeriv

/-! Along its own direction, the velocity induced by a skewed cylinder is the solid angle of the rotor. -/
set_option autoImplicit false
namespace Wiz
open Spec Real Set MeasureTheory
noncomputable section

/-- the integrand of the component along the wake -/
def alongI (R χ : ℝ) (P : V3 ℝ) (θ : ℝ) : ℝ :=
  (R * (cos χ * (R - P.x * cos θ - P.y * sin θ) + sin χ * P.z * cos θ)) /
    (V3.norm (P - rim R θ) * (V3.norm (P - rim R θ) - V3.dot (P - rim R θ) ⟨sin χ, 0, cos χ⟩))

theorem gen_along {γ R χ : ℝ} {P : V3 ℝ} (hχ : 0 < cos χ) (h : OffWake R (tan χ) P) (θ : ℝ) :
    (tangGenerator γ R (tan χ) P θ).x * sin χ + (tangGenerator γ R (tan χ) P θ).z * cos χ = γ/(4*π) * alongI R χ P θ := by
  obtain ⟨h1, h2⟩ := offWake_pos h θ
  rw [tangGenerator_eval h1 h2]
  rw [skewDir_tan hχ] at *
  unfold alongI
  generalize V3.norm (P - rim R θ) = n at *
  generalize n - V3.dot (P - rim R θ) ⟨sin χ, 0, cos χ⟩ = D at *
  have hpi := pi_pos
  simp only [V3.smul_x, V3.smul_z, V3.sub_x, V3.sub_z, V3.cross, V3.sub_y, rim, rimTangent]
  field_simp
  linear_combination (γ * cos χ * R^2) * sin_sq_add_cos_sq θ

theorem alongI_cont {R χ : ℝ} {P : V3 ℝ} (hχ : 0 < cos χ) (h : OffWake R (tan χ) P) : Continuous (alongI R χ P) := by
  obtain ⟨c1, -, c2, -⟩ := gen_continuous R (tan χ) P h (4*π)
  have : alongI R χ P = fun θ => (tangGenerator (4*π) R (tan χ) P θ).x * sin χ + (tangGenerator (4*π) R (tan χ) P θ).z * cos χ := by
    funext θ
    rw [gen_along hχ h, div_self (by positivity), one_mul]
  rw [this]
  exact (c1.mul continuous_const).add (c2.mul continuous_const)

theorem alongI_period (R χ : ℝ) (P : V3 ℝ) (θ : ℝ) : alongI R χ P (θ + 2*π) = alongI R χ P θ := by
  simp only [alongI, rim, sin_add_two_pi, cos_add_two_pi]

theorem field_along {γ R χ : ℝ} {P : V3 ℝ} (hχ : 0 < cos χ) (h : OffWake R (tan χ) P) :
    (skewTangField γ R (tan χ) P).x * sin χ + (skewTangField γ R (tan χ) P).z * cos χ = γ/(4*π) * ∫ θ in (0:ℝ)..(2*π), alongI R χ P θ := by
  obtain ⟨c1, -, c2, -⟩ := gen_continuous R (tan χ) P h γ
  have hpi := pi_pos
  rw [← intervalIntegral.integral_const_mul]
  simp only [← gen_along hχ h]
  rw [intervalIntegral.integral_add ((c1.intervalIntegrable _ _).mul_const _) ((c2.intervalIntegrable _ _).mul_const _),
    intervalIntegral.integral_mul_const, intervalIntegral.integral_mul_const]
  simp only [skewTangField, vint]
  rw [intervalIntegral.integral_of_le (by positivity), intervalIntegral.integral_of_le (by positivity)]

theorem rim_deriv {R : ℝ} {P : V3 ℝ} {θ : ℝ} (h : 0 < V3.norm (P - rim R θ)) :
    HasDerivAt (fun θ => V3.norm (P - rim R θ)) (((P.x - R * cos θ) * (R * sin θ) + (P.y - R * sin θ) * (-(R * cos θ))) / V3.norm (P - rim R θ)) θ := by
  have hx : HasDerivAt (fun θ => P.x - R * cos θ) (R * sin θ) θ := by
    exact (((hasDerivAt_cos θ).const_mul R).const_sub P.x).congr_deriv (by ring)
  have hy : HasDerivAt (fun θ => P.y - R * sin θ) (-(R * cos θ)) θ := ((hasDerivAt_sin θ).const_mul R).const_sub P.y
  have hs : HasDerivAt (fun θ => (P.x - R * cos θ)^2 + (P.y - R * sin θ)^2 + (P.z - 0)^2)
      (2 * ((P.x - R * cos θ) * (R * sin θ) + (P.y - R * sin θ) * (-(R * cos θ)))) θ := by
    refine (((hx.pow 2).add (hy.pow 2)).add_const ((P.z - 0)^2)).congr_deriv ?_
    push_cast; ring
  have hne : (P.x - R * cos θ)^2 + (P.y - R * sin θ)^2 + (P.z - 0)^2 ≠ 0 := by
    intro h0
    have : V3.norm (P - rim R θ) = 0 := by
      change √((P.x - R * cos θ)^2 + (P.y - R * sin θ)^2 + (P.z - 0)^2) = 0
      rw [h0, Real.sqrt_zero]
    linarith
  have := hs.sqrt hne
  change HasDerivAt (fun θ => √((P.x - R * cos θ)^2 + (P.y - R * sin θ)^2 + (P.z - 0)^2)) (_ / √((P.x - R * cos θ)^2 + (P.y - R * sin θ)^2 + (P.z - 0)^2)) θ
  convert this using 1
  rw [mul_div_mul_left _ _ two_ne_zero]

/-- upstream of the rotor, the integrands of a skewed and of a straight cylinder differ by a total derivative -/
theorem along_deriv {R χ : ℝ} {P : V3 ℝ} (hχ : 0 < cos χ) (hz : P.z ≤ 0) (h : ∀ θ, 0 < V3.norm (P - rim R θ)) (θ : ℝ) :
    HasDerivAt (fun θ => 2 * arctan (tan (χ/2) * (P.y - R * sin θ) / (V3.norm (P - rim R θ) - P.z - tan (χ/2) * (P.x - R * cos θ))))
      (alongI R χ P θ - alongI R 0 P θ) θ := by
  obtain ⟨t, ht⟩ : ∃ t, t = tan (χ/2) := ⟨_, rfl⟩
  rw [← ht]
  have hS : sin χ * (1 + t^2) = 2 * t := by
    rw [ht, tan_half_cos hχ]
    have : 1 + cos χ ≠ 0 := by linarith
    field_simp
    linear_combination sin χ * sin_sq_add_cos_sq χ
  have hC : cos χ * (1 + t^2) = 1 - t^2 := by
    rw [ht, tan_half_cos hχ]
    have : 1 + cos χ ≠ 0 := by linarith
    field_simp
    linear_combination (1 + cos χ) * sin_sq_add_cos_sq χ
  have ht1 : |t| < 1 := by
    rw [← sq_lt_one_iff_abs_lt_one]
    nlinarith [mul_pos hχ (show 0 < 1 + t^2 by positivity)]
  have hr := h θ
  have hd := rim_deriv hr
  have hr2 : V3.norm (P - rim R θ)^2 = (P.x - R * cos θ)^2 + (P.y - R * sin θ)^2 + P.z^2 := by
    change √((P.x - R * cos θ)^2 + (P.y - R * sin θ)^2 + (P.z - 0)^2)^2 = _
    rw [Real.sq_sqrt (by positivity), sub_zero]
  have hx : HasDerivAt (fun θ => P.x - R * cos θ) (R * sin θ) θ := by
    exact (((hasDerivAt_cos θ).const_mul R).const_sub P.x).congr_deriv (by ring)
  have hy : HasDerivAt (fun θ => P.y - R * sin θ) (-(R * cos θ)) θ := ((hasDerivAt_sin θ).const_mul R).const_sub P.y
  obtain ⟨r, hrd⟩ : ∃ r, r = V3.norm (P - rim R θ) := ⟨_, rfl⟩
  obtain ⟨x, hxd⟩ : ∃ x, x = P.x - R * cos θ := ⟨_, rfl⟩
  obtain ⟨y, hyd⟩ : ∃ y, y = P.y - R * sin θ := ⟨_, rfl⟩
  obtain ⟨z, hzd⟩ : ∃ z, z = P.z := ⟨_, rfl⟩
  have hxr : |x| ≤ r := abs_le_of_sq_le_sq (by rw [hrd, hr2, ← hxd, ← hyd]; nlinarith [sq_nonneg y, sq_nonneg P.z]) (by rw [hrd]; exact hr.le)
  have htx : t * x < r := by
    have h1 : |t * x| ≤ |t| * r := by rw [abs_mul]; gcongr
    have h2 : |t| * r < 1 * r := mul_lt_mul_of_pos_right ht1 (by rw [hrd]; exact hr)
    linarith [le_abs_self (t * x)]
  have hq : 0 < r - z - t * x := by linarith
  have hA : 0 < r - z := by rw [hrd, hzd]; linarith
  have hne : V3.norm (P - rim R θ) - P.z - t * (P.x - R * cos θ) ≠ 0 := by rw [← hrd, ← hxd, ← hzd]; exact hq.ne'
  have := (((hy.const_mul t).fun_div ((hd.sub_const P.z).fun_sub (hx.const_mul t)) hne).arctan).const_mul 2
  refine this.congr_deriv ?_
  have e1 : V3.dot (P - rim R θ) ⟨sin χ, 0, cos χ⟩ = x * sin χ + z * cos χ := by
    simp only [V3.dot, V3.sub_x, V3.sub_y, V3.sub_z, rim]; rw [← hxd, ← hzd]; ring
  have e2 : V3.dot (P - rim R θ) ⟨sin 0, 0, cos 0⟩ = z := by
    simp only [V3.dot, V3.sub_x, V3.sub_y, V3.sub_z, rim, sin_zero, cos_zero]; rw [← hzd]; ring
  unfold alongI
  rw [e1, e2, ← hrd, ← hxd, ← hyd, ← hzd, sin_zero, cos_zero]
  have n1 : R * (cos χ * (R - P.x * cos θ - P.y * sin θ) + sin χ * z * cos θ) = -(cos χ) * y * (R * sin θ) + (cos χ * x - sin χ * z) * (-(R * cos θ)) := by
    rw [hxd, hyd]; linear_combination (-(R^2 * cos χ)) * sin_sq_add_cos_sq θ
  have n2 : R * (1 * (R - P.x * cos θ - P.y * sin θ) + 0 * z * cos θ) = - y * (R * sin θ) + x * (-(R * cos θ)) := by
    rw [hxd, hyd]; linear_combination (-(R^2)) * sin_sq_add_cos_sq θ
  rw [n1, n2]
  rw [← hrd, ← hxd, ← hyd, ← hzd] at hr2
  generalize R * sin θ = x' at *
  generalize -(R * cos θ) = y' at *
  have hB : r - (x * sin χ + z * cos χ) = ((r - z) - 2 * x * t + t^2 * (r + z)) / (1 + t^2) := by
    rw [eq_div_iff (by positivity)]
    linear_combination (-x) * hS - z * hC
  have hBpos : 0 < (r - z) - 2 * x * t + t^2 * (r + z) := by
    have : 0 < (r - z) * ((r - z) - 2 * x * t + t^2 * (r + z)) := by
      have e : (r - z) * ((r - z) - 2 * x * t + t^2 * (r + z)) = (r - z - t * x)^2 + t^2 * y^2 := by linear_combination t^2 * hr2
      rw [e]; positivity
    exact (mul_pos_iff_of_pos_left hA).1 this
  have hS' : sin χ = 2 * t / (1 + t^2) := by rw [eq_div_iff (by positivity)]; exact hS
  have hC' : cos χ = (1 - t^2) / (1 + t^2) := by rw [eq_div_iff (by positivity)]; exact hC
  have hq2 : 1 + (t * y / (r - z - t * x))^2 = (r - z) * ((r - z) - 2 * x * t + t^2 * (r + z)) / (r - z - t * x)^2 := by
    have := hq.ne'
    generalize hqq : r - z - t * x = q at *
    field_simp
    subst hqq
    linear_combination (-t^2) * hr2
  rw [hB, hq2, hS', hC']
  have hr0 : r ≠ 0 := by rw [hrd]; exact hr.ne'
  have h1t : 1 + t^2 ≠ 0 := by positivity
  clear hB hq2 hS' hC' n1 n2 e1 e2 this hd hx hy hne hS hC hxr htx
  have hqn := hq.ne'
  have hAn := hA.ne'
  have hBn := hBpos.ne'
  have key : (r - z) * (-(1 - t^2) * y * x' + ((1 - t^2) * x - 2 * t * z) * y') - ((r - z) - 2 * x * t + t^2 * (r + z)) * (- y * x' + x * y')
      = 2 * (t * y' * (r - z - t * x) * r - t * y * ((x * x' + y * y') - t * x' * r)) := by
    linear_combination (-2 * t * y') * hr2
  generalize hqq : r - z - t * x = q at *
  generalize (r - z) - 2 * x * t + t^2 * (r + z) = B at *
  generalize r - z = A at *
  field_simp
  linear_combination (-1) * key

theorem along_integral {R χ : ℝ} {P : V3 ℝ} (hχ : 0 < cos χ) (hz : P.z ≤ 0) (h : OffWake R (tan χ) P) (h0 : OffWake R (tan 0) P) :
    ∫ θ in (0:ℝ)..(2*π), alongI R χ P θ = ∫ θ in (0:ℝ)..(2*π), alongI R 0 P θ := by
  have c1 := alongI_cont hχ h
  have c0 := alongI_cont (χ := 0) (by rw [cos_zero]; exact one_pos) h0
  have hi := intervalIntegral.integral_eq_sub_of_hasDerivAt (a := 0) (b := 2*π) (fun θ _ => along_deriv (χ := χ) hχ hz (fun θ => (offWake_pos h θ).1) θ)
    ((c1.sub c0).intervalIntegrable _ _)
  rw [intervalIntegral.integral_sub (c1.intervalIntegrable _ _) (c0.intervalIntegrable _ _)] at hi
  simp only [rim, cos_two_pi, sin_two_pi, cos_zero, sin_zero, sub_self] at hi
  linarith

/-- winding number of an ellipse -/
theorem ellipse_deriv {C X Y R : ℝ} (hC : 0 < C) (h : X^2 + Y^2 ≠ R^2) (θ : ℝ) :
    HasDerivAt (fun θ => arctan ((1 - C) * (X - R * cos θ) * (Y - R * sin θ) / (C * (X - R * cos θ)^2 + (Y - R * sin θ)^2)))
      (C * (R * (R - X * cos θ - Y * sin θ)) / (C^2 * (X - R * cos θ)^2 + (Y - R * sin θ)^2)
        - R * (R - X * cos θ - Y * sin θ) / ((X - R * cos θ)^2 + (Y - R * sin θ)^2)) θ := by
  have hx : HasDerivAt (fun θ => X - R * cos θ) (R * sin θ) θ := by
    exact (((hasDerivAt_cos θ).const_mul R).const_sub X).congr_deriv (by ring)
  have hy : HasDerivAt (fun θ => Y - R * sin θ) (-(R * cos θ)) θ := ((hasDerivAt_sin θ).const_mul R).const_sub Y
  have n1 : R * (R - X * cos θ - Y * sin θ) = (X - R * cos θ) * (-(R * cos θ)) - (Y - R * sin θ) * (R * sin θ) := by
    linear_combination (-(R^2)) * sin_sq_add_cos_sq θ
  rw [n1]
  have hne : ¬ (X - R * cos θ = 0 ∧ Y - R * sin θ = 0) := by
    rintro ⟨a, b⟩
    apply h
    linear_combination (X + R * cos θ) * a + (Y + R * sin θ) * b + R^2 * sin_sq_add_cos_sq θ
  have hpos : 0 < (X - R * cos θ)^2 + (Y - R * sin θ)^2 := by
    rcases not_and_or.1 hne with h1 | h1 <;> positivity
  have hpos1 : 0 < C * (X - R * cos θ)^2 + (Y - R * sin θ)^2 := by
    rcases not_and_or.1 hne with h1 | h1 <;> positivity
  have hpos2 : 0 < C^2 * (X - R * cos θ)^2 + (Y - R * sin θ)^2 := by
    rcases not_and_or.1 hne with h1 | h1 <;> positivity
  have hden : HasDerivAt (fun θ => C * (X - R * cos θ)^2 + (Y - R * sin θ)^2) (C * (2 * (X - R * cos θ) * (R * sin θ)) + 2 * (Y - R * sin θ) * (-(R * cos θ))) θ :=
    (((hx.pow 2).const_mul C).add (hy.pow 2)).congr_deriv (by push_cast; ring)
  have hnum := (hx.const_mul (1 - C)).fun_mul hy
  refine ((hnum.fun_div hden hpos1.ne').arctan).congr_deriv ?_
  generalize X - R * cos θ = x at *
  generalize Y - R * sin θ = y at *
  generalize R * sin θ = x' at *
  generalize -(R * cos θ) = y' at *
  clear hnum hden hx hy n1 hne
  have hq : 1 + ((1 - C) * x * y / (C * x^2 + y^2))^2 = (x^2 + y^2) * (C^2 * x^2 + y^2) / (C * x^2 + y^2)^2 := by
    have := hpos1.ne'
    generalize hg : C * x^2 + y^2 = g at *
    field_simp
    subst hg
    ring
  rw [hq]
  have h1 := hpos.ne'
  have h2 := hpos1.ne'
  have h3 := hpos2.ne'
  have key : (((1 - C) * x' * y + (1 - C) * x * y') * (C * x^2 + y^2) - (1 - C) * x * y * (C * (2 * x * x') + 2 * y * y'))
      = (C * (x * y' - y * x')) * (x^2 + y^2) - (x * y' - y * x') * (C^2 * x^2 + y^2) := by ring
  generalize C * x^2 + y^2 = g1 at *
  generalize C^2 * x^2 + y^2 = g2 at *
  generalize x^2 + y^2 = g at *
  field_simp
  linear_combination key

theorem circle_winding {X Y R : ℝ} (hR : 0 < R) (h : X^2 + Y^2 ≠ R^2) :
    ∫ θ in (0:ℝ)..(2*π), R * (R - X * cos θ - Y * sin θ) / ((X - R * cos θ)^2 + (Y - R * sin θ)^2) = if X^2 + Y^2 < R^2 then 2*π else 0 := by
  have hp := polar_form ⟨X, Y, 0⟩
  have hX : X = polarR X Y * cos (arctan2 Y X) := congrArg V3.x hp
  have hY : Y = polarR X Y * sin (arctan2 Y X) := congrArg V3.y hp
  obtain ⟨ρ, hρ⟩ : ∃ ρ, ρ = polarR X Y := ⟨_, rfl⟩
  obtain ⟨ψ, hψ⟩ : ∃ ψ, ψ = arctan2 Y X := ⟨_, rfl⟩
  rw [← hρ, ← hψ] at hX hY
  have hρ0 : 0 ≤ ρ := by rw [hρ]; exact polarR_nonneg _ _
  have hρ2 : X^2 + Y^2 = ρ^2 := by rw [hX, hY]; linear_combination ρ^2 * sin_sq_add_cos_sq ψ
  have hne : ρ ≠ R := by rintro rfl; exact h hρ2
  have hd : ∀ θ, 0 < dist2 ρ 0 R θ := fun θ => dist2_pos hρ0 hR (fun h => hne h.1) θ
  have e1 : ∀ θ, R * (R - X * cos θ - Y * sin θ) / ((X - R * cos θ)^2 + (Y - R * sin θ)^2)
      = (fun t => 1/2 + (R^2 - ρ^2)/2 * (1 / dist2 ρ 0 R t)) (θ - ψ) := by
    intro θ
    have hdd := (hd (θ - ψ)).ne'
    have e2 : (X - R * cos θ)^2 + (Y - R * sin θ)^2 = dist2 ρ 0 R (θ - ψ) := by
      rw [dist2, cos_sub, hX, hY]
      linear_combination ρ^2 * sin_sq_add_cos_sq ψ + R^2 * sin_sq_add_cos_sq θ
    have e3 : R * (R - X * cos θ - Y * sin θ) = dist2 ρ 0 R (θ - ψ)/2 + (R^2 - ρ^2)/2 := by
      rw [dist2, cos_sub, hX, hY]; ring
    rw [e2, e3]
    simp only
    generalize dist2 ρ 0 R (θ - ψ) = D at *
    field_simp
  simp only [e1]
  have hper : Function.Periodic (fun t => 1/2 + (R^2 - ρ^2)/2 * (1 / dist2 ρ 0 R t)) (2*π) := by
    intro t; simp only [dist2, cos_add_two_pi]
  have hc : Continuous fun t => 1 / dist2 ρ 0 R t := by
    apply Continuous.div continuous_const _ (fun t => (hd t).ne')
    unfold dist2; fun_prop
  rw [intervalIntegral.integral_comp_sub_right (fun t => 1/2 + (R^2 - ρ^2)/2 * (1 / dist2 ρ 0 R t)), show 2*π - ψ = (0 - ψ) + 2*π by ring,
    hper.intervalIntegral_add_eq (0 - ψ) 0, zero_add,
    intervalIntegral.integral_add (by simp) ((hc.intervalIntegrable _ _).const_mul _), intervalIntegral.integral_const_mul, poisson_integral' hρ0 hR.le hne,
    intervalIntegral.integral_const, hρ2]
  have hpi := pi_pos
  split_ifs with hlt
  · have : 0 < R^2 - ρ^2 := by linarith
    rw [abs_of_pos this, smul_eq_mul]
    generalize R^2 - ρ^2 = g at *
    field_simp; ring
  · have : R^2 - ρ^2 < 0 := by
      rcases lt_or_eq_of_le (not_lt.1 hlt) with h1 | h1
      · linarith
      · exact absurd (hρ2.trans h1.symm) h
    rw [abs_of_neg this, smul_eq_mul]
    have hn := this.ne
    generalize R^2 - ρ^2 = g at *
    field_simp; ring

theorem ellipse_winding {C X Y R : ℝ} (hC : 0 < C) (hR : 0 < R) (h : X^2 + Y^2 ≠ R^2) :
    ∫ θ in (0:ℝ)..(2*π), C * (R * (R - X * cos θ - Y * sin θ)) / (C^2 * (X - R * cos θ)^2 + (Y - R * sin θ)^2) = if X^2 + Y^2 < R^2 then 2*π else 0 := by
  rw [← circle_winding hR h]
  have hne : ∀ θ, ¬ (X - R * cos θ = 0 ∧ Y - R * sin θ = 0) := by
    rintro θ ⟨a, b⟩
    apply h
    linear_combination (X + R * cos θ) * a + (Y + R * sin θ) * b + R^2 * sin_sq_add_cos_sq θ
  have c1 : Continuous fun θ => C * (R * (R - X * cos θ - Y * sin θ)) / (C^2 * (X - R * cos θ)^2 + (Y - R * sin θ)^2) := by
    apply Continuous.div (by fun_prop) (by fun_prop)
    intro θ
    have := hne θ
    rcases not_and_or.1 this with h1 | h1 <;> positivity
  have c0 : Continuous fun θ => R * (R - X * cos θ - Y * sin θ) / ((X - R * cos θ)^2 + (Y - R * sin θ)^2) := by
    apply Continuous.div (by fun_prop) (by fun_prop)
    intro θ
    have := hne θ
    rcases not_and_or.1 this with h1 | h1 <;> positivity
  have hi := intervalIntegral.integral_eq_sub_of_hasDerivAt (a := 0) (b := 2*π) (fun θ _ => ellipse_deriv hC h θ) ((c1.sub c0).intervalIntegrable _ _)
  rw [intervalIntegral.integral_sub (c1.intervalIntegrable _ _) (c0.intervalIntegrable _ _)] at hi
  simp only [cos_two_pi, sin_two_pi, cos_zero, sin_zero, sub_self] at hi
  linarith

/-- a point and its image through the hub -/
theorem alongI_image {R χ : ℝ} {P : V3 ℝ} (hχ : 0 < cos χ) (h : OffWake R (tan χ) P) (h' : OffWake R (tan χ) (V3.smul (-1) P)) (θ : ℝ) :
    alongI R χ P θ + alongI R χ (V3.smul (-1) P) (θ + π) =
      2 * (cos χ * (R * (R - (P.x - tan χ * P.z) * cos θ - P.y * sin θ)) / (cos χ^2 * ((P.x - tan χ * P.z) - R * cos θ)^2 + (P.y - R * sin θ)^2)) := by
  obtain ⟨h1, h2⟩ := offWake_pos h θ
  obtain ⟨g1, g2⟩ := offWake_pos h' (θ + π)
  have e : V3.smul (-1) P - rim R (θ + π) = V3.smul (-1) (P - rim R θ) := by
    ext <;> simp [rim, cos_add_pi, sin_add_pi] <;> ring
  have en : V3.norm (V3.smul (-1) (P - rim R θ)) = V3.norm (P - rim R θ) := by unfold V3.norm; congr 1; simp; ring
  rw [skewDir_tan hχ] at h2 g2
  rw [e] at g1 g2
  rw [en] at g1 g2
  rw [dot_smul_left] at g2
  unfold alongI
  rw [e, en, dot_smul_left]
  have hr2 : V3.norm (P - rim R θ)^2 = (P.x - R * cos θ)^2 + (P.y - R * sin θ)^2 + P.z^2 := by
    change √((P.x - R * cos θ)^2 + (P.y - R * sin θ)^2 + (P.z - 0)^2)^2 = _
    rw [Real.sq_sqrt (by positivity), sub_zero]
  have hdot : V3.dot (P - rim R θ) ⟨sin χ, 0, cos χ⟩ = (P.x - R * cos θ) * sin χ + P.z * cos χ := by
    simp only [V3.dot, V3.sub_x, V3.sub_y, V3.sub_z, rim]; ring
  have ht : tan χ * cos χ = sin χ := tan_mul_cos hχ.ne'
  have hg : cos χ^2 * ((P.x - tan χ * P.z) - R * cos θ)^2 + (P.y - R * sin θ)^2
      = (V3.norm (P - rim R θ) - V3.dot (P - rim R θ) ⟨sin χ, 0, cos χ⟩) * (V3.norm (P - rim R θ) + V3.dot (P - rim R θ) ⟨sin χ, 0, cos χ⟩) := by
    have : cos χ^2 * ((P.x - tan χ * P.z) - R * cos θ)^2 = ((P.x - R * cos θ) * cos χ - P.z * sin χ)^2 := by rw [← ht]; ring
    rw [this, hdot]
    linear_combination ((P.x - R * cos θ)^2 + P.z^2) * sin_sq_add_cos_sq χ - hr2
  have n1 : R * (cos χ * (R - (V3.smul (-1) P).x * cos (θ + π) - (V3.smul (-1) P).y * sin (θ + π)) + sin χ * (V3.smul (-1) P).z * cos (θ + π))
      = R * (cos χ * (R - P.x * cos θ - P.y * sin θ) + sin χ * P.z * cos θ) := by
    simp only [V3.smul_x, V3.smul_y, V3.smul_z, cos_add_pi, sin_add_pi]; ring
  have n2 : cos χ * (R * (R - (P.x - tan χ * P.z) * cos θ - P.y * sin θ)) = R * (cos χ * (R - P.x * cos θ - P.y * sin θ) + sin χ * P.z * cos θ) := by
    rw [← ht]; ring
  rw [n1, n2, hg]
  generalize R * (cos χ * (R - P.x * cos θ - P.y * sin θ) + sin χ * P.z * cos θ) = N
  generalize V3.norm (P - rim R θ) = n at *
  generalize V3.dot (P - rim R θ) ⟨sin χ, 0, cos χ⟩ = p at *
  have k1 : n - p ≠ 0 := h2.ne'
  have k2 : n + p ≠ 0 := by linarith
  rw [show n - -1 * p = n + p by ring]
  field_simp
  ring

/-- the sum of the velocities at two points symmetric about the hub is the intensity inside the wake and its upstream extension, and zero around them -/
theorem along_image {γ R χ : ℝ} {P : V3 ℝ} (hR : 0 < R) (hχ : 0 < cos χ) (h : OffWake R (tan χ) P) (h' : OffWake R (tan χ) (V3.smul (-1) P))
    (hoff : (P.x - tan χ * P.z)^2 + P.y^2 ≠ R^2) :
    ((skewTangField γ R (tan χ) P).x * sin χ + (skewTangField γ R (tan χ) P).z * cos χ) +
      ((skewTangField γ R (tan χ) (V3.smul (-1) P)).x * sin χ + (skewTangField γ R (tan χ) (V3.smul (-1) P)).z * cos χ)
      = if (P.x - tan χ * P.z)^2 + P.y^2 < R^2 then γ else 0 := by
  have c1 := alongI_cont hχ h
  have c2 := alongI_cont hχ h'
  have hpi := pi_pos
  rw [field_along hχ h, field_along hχ h', ← mul_add, ← shift_circle (alongI_period R χ (V3.smul (-1) P)),
    ← intervalIntegral.integral_add (c1.intervalIntegrable _ _) ((show Continuous fun t => alongI R χ (V3.smul (-1) P) (t + π) from c2.comp (continuous_id.add continuous_const)).intervalIntegrable _ _)]
  simp only [alongI_image hχ h h']
  rw [intervalIntegral.integral_const_mul, ellipse_winding hχ hR hoff]
  split_ifs
  · field_simp; ring
  · ring

theorem alongI_zero {R : ℝ} {P : V3 ℝ} (hz : P.z = 0) (θ : ℝ) :
    alongI R 0 P θ = R * (R - P.x * cos θ - P.y * sin θ) / ((P.x - R * cos θ)^2 + (P.y - R * sin θ)^2) := by
  have hr2 : V3.norm (P - rim R θ)^2 = (P.x - R * cos θ)^2 + (P.y - R * sin θ)^2 := by
    change √((P.x - R * cos θ)^2 + (P.y - R * sin θ)^2 + (P.z - 0)^2)^2 = _
    rw [Real.sq_sqrt (by positivity), hz]; ring
  unfold alongI
  rw [← hr2, show V3.dot (P - rim R θ) ⟨sin 0, 0, cos 0⟩ = 0 by simp [V3.dot, rim, hz], sub_zero, cos_zero, sin_zero, hz]
  ring

theorem off_plane {R m : ℝ} {P : V3 ℝ} (hz : P.z ≤ 0) (h : P.z = 0 → P.x^2 + P.y^2 ≠ R^2) : OffWake R m P := by
  intro θ s hs he
  have hx := congrArg V3.x he
  have hy := congrArg V3.y he
  have hz' := congrArg V3.z he
  simp only [wakePoint, rim, skewDir, V3.add_x, V3.add_y, V3.add_z, V3.smul_x, V3.smul_y, V3.smul_z] at hx hy hz'
  have hp : 0 < 1 / √(1 + m^2) := by positivity
  have hs0 : s = 0 := by
    rcases hs.lt_or_eq with h1 | h1
    · have := mul_pos h1 hp
      linarith
    · exact h1.symm
  rw [hs0] at hx hy hz'
  apply h (by rw [hz']; ring)
  rw [hx, hy]
  linear_combination R^2 * sin_sq_add_cos_sq θ

theorem off_around {R χ : ℝ} {P : V3 ℝ} (hχ : 0 < cos χ) (h : (P.x - tan χ * P.z)^2 + P.y^2 ≠ R^2) : OffWake R (tan χ) P := by
  intro θ s _ he
  have hx := congrArg V3.x he
  have hy := congrArg V3.y he
  have hz := congrArg V3.z he
  simp only [wakePoint, rim, skewDir_tan hχ, V3.add_x, V3.add_y, V3.add_z, V3.smul_x, V3.smul_y, V3.smul_z] at hx hy hz
  have ht : tan χ * cos χ = sin χ := tan_mul_cos hχ.ne'
  apply h
  rw [hx, hy, hz, ← ht]
  linear_combination R^2 * sin_sq_add_cos_sq θ

theorem solidAngle_neg {R : ℝ} {P : V3 ℝ} (hR : 0 ≤ R) (hz : P.z ≠ 0) : diskSolidAngle R (V3.smul (-1) P) = diskSolidAngle R P := by
  have h1 := polar_form P
  have h2 := polar_form (V3.smul (-1) P)
  have e : polarR (V3.smul (-1) P).x (V3.smul (-1) P).y = polarR P.x P.y := by
    unfold polarR; simp only [V3.smul_x, V3.smul_y]; congr 1; ring
  have q1 := solidAngle_eq R (polarR P.x P.y) P.z (arctan2 P.y P.x) hz hR
  have q2 := solidAngle_eq R (polarR (V3.smul (-1) P).x (V3.smul (-1) P).y) (V3.smul (-1) P).z (arctan2 (V3.smul (-1) P).y (V3.smul (-1) P).x) (by simp [hz]) hR
  rw [← h1] at q1
  rw [← h2, e] at q2
  rw [q1, q2]
  simp

end
end Wiz
