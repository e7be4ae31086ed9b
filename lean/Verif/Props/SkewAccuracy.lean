import Verif.Lemmas.SkewAccuracy
import Verif.Lemmas.SkewTurbine
import Verif.Props.SkewedGround
import Verif.Props.RotorDisk
import Verif.Props.VortexCylinderSkewed
import Mathlib.Analysis.Real.Pi.Bounds
/-! # C114: accuracy of the azimuthal quadrature of skewed wakes -/
namespace Wiz
open Spec Real Classical MeasureTheory Set

theorem comp_le_norm (v : V3 ℝ) : |v.x| ≤ V3.norm v ∧ |v.y| ≤ V3.norm v ∧ |v.z| ≤ V3.norm v := by
  unfold V3.norm
  exact ⟨abs_le_sqrt (by nlinarith [sq_nonneg v.y, sq_nonneg v.z]), abs_le_sqrt (by nlinarith [sq_nonneg v.x, sq_nonneg v.z]), abs_le_sqrt (by nlinarith [sq_nonneg v.x, sq_nonneg v.y])⟩

/-- a plane vector turned by any angle is not longer than the space vector -/
theorem turn_le_norm (v : V3 ℝ) (θ : ℝ) : |v.x * cos θ + v.y * sin θ| ≤ V3.norm v ∧ |v.x * sin θ - v.y * cos θ| ≤ V3.norm v := by
  have h := sin_sq_add_cos_sq θ
  unfold V3.norm
  constructor <;> apply abs_le_sqrt
  · nlinarith [sq_nonneg (v.x * sin θ - v.y * cos θ), sq_nonneg v.z]
  · nlinarith [sq_nonneg (v.x * cos θ + v.y * sin θ), sq_nonneg v.z]

theorem unit_le {R a t : ℝ} (hR : 0 ≤ R) (ht : |t| ≤ 1) {d : ℝ} (ha : |a| ≤ d) : |R * t * a| ≤ R * d := by
  rw [abs_mul, abs_mul, abs_of_nonneg hR]
  have := abs_nonneg a
  calc R * |t| * |a| ≤ R * 1 * d := by gcongr
    _ = _ := by ring

/-- polynomial bound for the tangential sheet -/
theorem tang_poly {R D d : ℝ} (hR : 0 ≤ R) (hD : 0 < D) (h : d ≥ D) :
    (R * d + R^2 + 3 * R^2) * d⁻¹^3 + (6 * (R * d) * R + 18 * R^3) * d⁻¹^4 ≤ R * (1 + 10 * (R/D) + 18 * (R/D)^2) * d⁻¹^2 := by
  have hd : 0 < d := lt_of_lt_of_le hD h
  have h1 : R/d ≤ R/D := by gcongr
  have h2 : 0 ≤ R/d := by positivity
  calc (R * d + R^2 + 3 * R^2) * d⁻¹^3 + (6 * (R * d) * R + 18 * R^3) * d⁻¹^4 = R * (1 + 10 * (R/d) + 18 * (R/d)^2) * d⁻¹^2 := by
        field_simp; ring
    _ ≤ _ := by gcongr

theorem longi_poly {R D d : ℝ} (hR : 0 ≤ R) (hD : 0 < D) (h : d ≥ D) :
    (R^2 + 3 * R^2) * d⁻¹^3 + (6 * R^2 * R + 18 * R^3) * d⁻¹^4 ≤ R * (4 * (R/D) + 24 * (R/D)^2) * d⁻¹^2 := by
  have hd : 0 < d := lt_of_lt_of_le hD h
  have h1 : R/d ≤ R/D := by gcongr
  have h2 : 0 ≤ R/d := by positivity
  calc (R^2 + 3 * R^2) * d⁻¹^3 + (6 * R^2 * R + 18 * R^3) * d⁻¹^4 = R * (4 * (R/d) + 24 * (R/d)^2) * d⁻¹^2 := by
        field_simp; ring
    _ ≤ _ := by gcongr

theorem tang_kernel (R m θ s : ℝ) (P : V3 ℝ) :
    bsKernel (wakePoint R m θ s) (rimTangent R θ) P = V3.smul (1 / (4*π) * (1 / V3.norm (P - wakePoint R m θ s)^3))
      ⟨R * cos θ * (P.z - s * (skewDir m).z), R * sin θ * (P.z - s * (skewDir m).z), R * (R - ((P.x - s * (skewDir m).x) * cos θ + P.y * sin θ))⟩ := by
  unfold bsKernel
  congr 1
  rw [wake_coord]
  have hcs := sin_sq_add_cos_sq θ
  ext
  · simp [V3.cross, rimTangent]
  · simp [V3.cross, rimTangent]
  · simp only [V3.cross, rimTangent]
    linear_combination R^2 * hcs

theorem wake_z (R m θ s : ℝ) (P : V3 ℝ) : |P.z - s * (skewDir m).z| ≤ V3.norm (P - wakePoint R m θ s) := by
  have := (comp_le_norm (P - wakePoint R m θ s)).2.2
  rw [wake_coord] at this ⊢
  exact this

theorem wake_turn (R m θ s : ℝ) (P : V3 ℝ) :
    |(P.x - s * (skewDir m).x) * cos θ + P.y * sin θ - R| ≤ V3.norm (P - wakePoint R m θ s) ∧
    |(P.x - s * (skewDir m).x) * sin θ - P.y * cos θ| ≤ V3.norm (P - wakePoint R m θ s) := by
  have := turn_le_norm (P - wakePoint R m θ s) θ
  have hcs := sin_sq_add_cos_sq θ
  rw [wake_coord] at this ⊢
  constructor
  · refine le_of_eq_of_le (congrArg abs ?_) this.1
    simp only
    linear_combination R * hcs
  · refine le_of_eq_of_le (congrArg abs ?_) this.2
    simp only
    ring

theorem skewDir_le (m : ℝ) : |(skewDir m).x| ≤ 1 ∧ |(skewDir m).z| ≤ 1 := by
  have he := skewDir_unit m
  simp only [V3.dot] at he
  constructor
  · rw [← sqrt_sq_eq_abs]
    exact sqrt_le_one.mpr (by nlinarith [sq_nonneg (skewDir m).y, sq_nonneg (skewDir m).z])
  · rw [← sqrt_sq_eq_abs]
    exact sqrt_le_one.mpr (by nlinarith [sq_nonneg (skewDir m).y, sq_nonneg (skewDir m).x])

theorem longi_kernel (R m θ s : ℝ) (P : V3 ℝ) :
    bsKernel (wakePoint R m θ s) (skewDir m) P = V3.smul (1 / (4*π) * (1 / V3.norm (P - wakePoint R m θ s)^3))
      ⟨-((skewDir m).z * (P.y - R * sin θ)), (skewDir m).z * (P.x - s * (skewDir m).x - R * cos θ) - (skewDir m).x * (P.z - s * (skewDir m).z),
        (skewDir m).x * (P.y - R * sin θ)⟩ := by
  unfold bsKernel
  congr 1
  rw [wake_coord]
  have hy : (skewDir m).y = 0 := rfl
  ext <;> simp [V3.cross, hy]

theorem wake_xy (R m θ s : ℝ) (P : V3 ℝ) : |P.x - s * (skewDir m).x - R * cos θ| ≤ V3.norm (P - wakePoint R m θ s) ∧
    |P.y - R * sin θ| ≤ V3.norm (P - wakePoint R m θ s) := by
  have := comp_le_norm (P - wakePoint R m θ s)
  rw [wake_coord] at this ⊢
  exact ⟨this.1, this.2.1⟩

theorem wake_cross (R m θ s : ℝ) (P : V3 ℝ) :
    |(skewDir m).z * (P.x - s * (skewDir m).x - R * cos θ) - (skewDir m).x * (P.z - s * (skewDir m).z)| ≤ V3.norm (P - wakePoint R m θ s) := by
  have he := skewDir_unit m
  have hy : (skewDir m).y = 0 := rfl
  simp only [V3.dot, hy] at he
  rw [wake_norm]
  apply abs_le_sqrt
  generalize P.x - s * (skewDir m).x - R * cos θ = a
  generalize P.z - s * (skewDir m).z = b
  have h1 : (skewDir m).z^2 + (skewDir m).x^2 = 1 := by linarith
  generalize (skewDir m).z = c at *
  generalize (skewDir m).x = d at *
  have : (c*a - d*b)^2 + (d*a + c*b)^2 = a^2 + b^2 := by linear_combination (a^2+b^2) * h1
  nlinarith [sq_nonneg (d*a + c*b), sq_nonneg (P.y - R * sin θ)]

theorem two_le {R a t : ℝ} (hR : 0 ≤ R) (ha : |a| ≤ 1) (ht : |t| ≤ 1) : |R * (R * (a * t))| ≤ R^2 := by
  rw [abs_mul, abs_mul, abs_mul, abs_of_nonneg hR]
  calc R * (R * (|a| * |t|)) ≤ R * (R * (1 * 1)) := by gcongr
    _ = _ := by ring

section
variable {R m D : ℝ} {P : V3 ℝ} (hR : 0 ≤ R) (hD : 0 < D) (hdist : ∀ θ s, 0 ≤ s → D ≤ V3.norm (P - wakePoint R m θ s))
  (θ0 : ℝ) {n : ℕ} (hn : 0 < n)
include hR hD hdist hn

theorem tang_rule_x : |turnRule θ0 n (fun θ => ∫ s in Ioi 0, (bsKernel (wakePoint R m θ s) (rimTangent R θ) P).x)
      - ∫ θ in Ioc 0 (2*π), ∫ s in Ioi 0, (bsKernel (wakePoint R m θ s) (rimTangent R θ) P).x|
    ≤ (2*π)^3/(12 * n^2) * (1/(4*π) * (R * (1 + 10 * (R/D) + 18 * (R/D)^2)) * ((2*R + 4*D)/D^2)) := by
  simp only [tang_kernel, V3.smul_x]
  refine sheet_rule hR hD hdist (fun θ s => R * cos θ * (P.z - s * (skewDir m).z))
      (fun θ s => -(R * sin θ * (P.z - s * (skewDir m).z))) (fun θ s => -(R * cos θ * (P.z - s * (skewDir m).z)))
      (fun d => R * d) (fun d => R * d + R^2) ?_ ?_ ?_ ?_ ?_ ?_ ?_ ?_ (fun d hd => tang_poly hR hD hd) θ0 hn
  · exact Continuous.measurable (by unfold Function.uncurry; fun_prop)
  · intro s θ
    exact HasDerivAt.congr_deriv (((hasDerivAt_cos θ).const_mul R).mul_const (P.z - s * (skewDir m).z)) (by ring)
  · intro s θ
    exact (((hasDerivAt_sin θ).const_mul R).mul_const (P.z - s * (skewDir m).z)).fun_neg
  · intro s; fun_prop
  · intro s θ; rw [cos_add_two_pi]
  · intro θ s
    exact unit_le hR (abs_cos_le_one θ) (wake_z R m θ s P)
  · intro θ s
    rw [abs_neg]
    exact unit_le hR (abs_sin_le_one θ) (wake_z R m θ s P)
  · intro θ s
    rw [abs_neg]
    have := unit_le hR (abs_cos_le_one θ) (wake_z R m θ s P)
    nlinarith [sq_nonneg R]

theorem tang_rule_y : |turnRule θ0 n (fun θ => ∫ s in Ioi 0, (bsKernel (wakePoint R m θ s) (rimTangent R θ) P).y)
      - ∫ θ in Ioc 0 (2*π), ∫ s in Ioi 0, (bsKernel (wakePoint R m θ s) (rimTangent R θ) P).y|
    ≤ (2*π)^3/(12 * n^2) * (1/(4*π) * (R * (1 + 10 * (R/D) + 18 * (R/D)^2)) * ((2*R + 4*D)/D^2)) := by
  simp only [tang_kernel, V3.smul_y]
  refine sheet_rule hR hD hdist (fun θ s => R * sin θ * (P.z - s * (skewDir m).z))
      (fun θ s => R * cos θ * (P.z - s * (skewDir m).z)) (fun θ s => -(R * sin θ * (P.z - s * (skewDir m).z)))
      (fun d => R * d) (fun d => R * d + R^2) ?_ ?_ ?_ ?_ ?_ ?_ ?_ ?_ (fun d hd => tang_poly hR hD hd) θ0 hn
  · exact Continuous.measurable (by unfold Function.uncurry; fun_prop)
  · intro s θ
    exact ((hasDerivAt_sin θ).const_mul R).mul_const (P.z - s * (skewDir m).z)
  · intro s θ
    exact HasDerivAt.congr_deriv (((hasDerivAt_cos θ).const_mul R).mul_const (P.z - s * (skewDir m).z)) (by ring)
  · intro s; fun_prop
  · intro s θ; rw [sin_add_two_pi]
  · intro θ s
    exact unit_le hR (abs_sin_le_one θ) (wake_z R m θ s P)
  · intro θ s
    exact unit_le hR (abs_cos_le_one θ) (wake_z R m θ s P)
  · intro θ s
    rw [abs_neg]
    have := unit_le hR (abs_sin_le_one θ) (wake_z R m θ s P)
    nlinarith [sq_nonneg R]

theorem tang_rule_z : |turnRule θ0 n (fun θ => ∫ s in Ioi 0, (bsKernel (wakePoint R m θ s) (rimTangent R θ) P).z)
      - ∫ θ in Ioc 0 (2*π), ∫ s in Ioi 0, (bsKernel (wakePoint R m θ s) (rimTangent R θ) P).z|
    ≤ (2*π)^3/(12 * n^2) * (1/(4*π) * (R * (1 + 10 * (R/D) + 18 * (R/D)^2)) * ((2*R + 4*D)/D^2)) := by
  simp only [tang_kernel, V3.smul_z]
  refine sheet_rule hR hD hdist (fun θ s => R * (R - ((P.x - s * (skewDir m).x) * cos θ + P.y * sin θ)))
      (fun θ s => R * ((P.x - s * (skewDir m).x) * sin θ - P.y * cos θ)) (fun θ s => R * ((P.x - s * (skewDir m).x) * cos θ + P.y * sin θ))
      (fun d => R * d) (fun d => R * d + R^2) ?_ ?_ ?_ ?_ ?_ ?_ ?_ ?_ (fun d hd => tang_poly hR hD hd) θ0 hn
  · exact Continuous.measurable (by unfold Function.uncurry; fun_prop)
  · intro s θ
    exact HasDerivAt.congr_deriv (((((hasDerivAt_cos θ).const_mul (P.x - s * (skewDir m).x)).fun_add ((hasDerivAt_sin θ).const_mul P.y)).const_sub R).const_mul R) (by ring)
  · intro s θ
    exact HasDerivAt.congr_deriv ((((hasDerivAt_sin θ).const_mul (P.x - s * (skewDir m).x)).fun_sub ((hasDerivAt_cos θ).const_mul P.y)).const_mul R) (by ring)
  · intro s; fun_prop
  · intro s θ; rw [cos_add_two_pi, sin_add_two_pi]
  · intro θ s
    have h := (wake_turn R m θ s P).1
    rw [abs_mul, abs_of_nonneg hR, abs_sub_comm]
    gcongr
  · intro θ s
    rw [abs_mul, abs_of_nonneg hR]
    have := (wake_turn R m θ s P).2
    gcongr
  · intro θ s
    have h := (wake_turn R m θ s P).1
    rw [abs_mul, abs_of_nonneg hR]
    have h2 : |(P.x - s * (skewDir m).x) * cos θ + P.y * sin θ| ≤ V3.norm (P - wakePoint R m θ s) + R := by
      calc _ = |((P.x - s * (skewDir m).x) * cos θ + P.y * sin θ - R) + R| := by congr 1; ring
        _ ≤ _ := (abs_add_le _ _).trans (add_le_add h (abs_of_nonneg hR).le)
    calc _ ≤ R * (V3.norm (P - wakePoint R m θ s) + R) := by gcongr
      _ = _ := by ring

/-- the rule for the tangential sheet -/
theorem tang_rule (γ : ℝ) (π' : V3 ℝ → ℝ) (hπ : π' = V3.x ∨ π' = V3.y ∨ π' = V3.z) :
    |π' (turnRuleV θ0 n (tangGenerator γ R m P)) - π' (skewTangField γ R m P)|
      ≤ |γ| * (π^2/(3 * n^2) * (R/D * (R/D + 2)) * (1 + 10 * (R/D) + 18 * (R/D)^2)) := by
  have hlin : ∀ f : ℝ → ℝ → ℝ, |turnRule θ0 n (fun θ => ∫ s in Ioi 0, f θ s) - ∫ θ in Ioc 0 (2*π), ∫ s in Ioi 0, f θ s|
        ≤ (2*π)^3/(12 * n^2) * (1/(4*π) * (R * (1 + 10 * (R/D) + 18 * (R/D)^2)) * ((2*R + 4*D)/D^2)) →
      |turnRule θ0 n (fun θ => γ * ∫ s in Ioi 0, f θ s) - ∫ θ in Ioc 0 (2*π), γ * ∫ s in Ioi 0, f θ s|
        ≤ |γ| * (π^2/(3 * n^2) * (R/D * (R/D + 2)) * (1 + 10 * (R/D) + 18 * (R/D)^2)) := by
    intro f h
    rw [turnRule_smul, integral_const_mul, ← mul_sub, abs_mul]
    refine mul_le_mul_of_nonneg_left (h.trans (le_of_eq ?_)) (abs_nonneg γ)
    have := pi_pos.ne'
    field_simp
    ring
  rcases hπ with rfl | rfl | rfl
  · exact hlin (fun θ s => (bsKernel (wakePoint R m θ s) (rimTangent R θ) P).x) (tang_rule_x hR hD hdist θ0 hn)
  · exact hlin (fun θ s => (bsKernel (wakePoint R m θ s) (rimTangent R θ) P).y) (tang_rule_y hR hD hdist θ0 hn)
  · exact hlin (fun θ s => (bsKernel (wakePoint R m θ s) (rimTangent R θ) P).z) (tang_rule_z hR hD hdist θ0 hn)

theorem longi_rule_x : |turnRule θ0 n (fun θ => ∫ s in Ioi 0, R * (bsKernel (wakePoint R m θ s) (skewDir m) P).x)
      - ∫ θ in Ioc 0 (2*π), ∫ s in Ioi 0, R * (bsKernel (wakePoint R m θ s) (skewDir m) P).x|
    ≤ (2*π)^3/(12 * n^2) * (1/(4*π) * (R * (4 * (R/D) + 24 * (R/D)^2)) * ((2*R + 4*D)/D^2)) := by
  obtain ⟨hex, hez⟩ := skewDir_le m
  simp only [longi_kernel, V3.smul_x, mul_left_comm R]
  refine sheet_rule hR hD hdist (fun θ s => R * -((skewDir m).z * (P.y - R * sin θ))) (fun θ s => R * (R * ((skewDir m).z * cos θ))) (fun θ s => -(R * (R * ((skewDir m).z * sin θ))))
      (fun d => R^2) (fun d => R^2) ?_ ?_ ?_ ?_ ?_ ?_ ?_ ?_ (fun d hd => longi_poly hR hD hd) θ0 hn
  · exact Continuous.measurable (by unfold Function.uncurry; fun_prop)
  · intro s θ
    exact HasDerivAt.congr_deriv ((((((hasDerivAt_sin θ).const_mul R).const_sub P.y).const_mul (skewDir m).z).fun_neg).const_mul R) (by ring)
  · intro s θ
    exact HasDerivAt.congr_deriv ((((hasDerivAt_cos θ).const_mul (skewDir m).z).const_mul R).const_mul R) (by ring)
  · intro s; fun_prop
  · intro s θ; rw [sin_add_two_pi]
  · intro θ s
    have h := (wake_xy R m θ s P).2
    rw [mul_neg, abs_neg, ← mul_assoc]
    exact unit_le hR hez h
  · intro θ s
    exact two_le hR hez (abs_cos_le_one θ)
  · intro θ s
    exact by rw [abs_neg]; exact two_le hR hez (abs_sin_le_one θ)

theorem longi_rule_y : |turnRule θ0 n (fun θ => ∫ s in Ioi 0, R * (bsKernel (wakePoint R m θ s) (skewDir m) P).y)
      - ∫ θ in Ioc 0 (2*π), ∫ s in Ioi 0, R * (bsKernel (wakePoint R m θ s) (skewDir m) P).y|
    ≤ (2*π)^3/(12 * n^2) * (1/(4*π) * (R * (4 * (R/D) + 24 * (R/D)^2)) * ((2*R + 4*D)/D^2)) := by
  obtain ⟨hex, hez⟩ := skewDir_le m
  simp only [longi_kernel, V3.smul_y, mul_left_comm R]
  refine sheet_rule hR hD hdist (fun θ s => R * ((skewDir m).z * (P.x - s * (skewDir m).x - R * cos θ) - (skewDir m).x * (P.z - s * (skewDir m).z))) (fun θ s => R * (R * ((skewDir m).z * sin θ))) (fun θ s => R * (R * ((skewDir m).z * cos θ)))
      (fun d => R^2) (fun d => R^2) ?_ ?_ ?_ ?_ ?_ ?_ ?_ ?_ (fun d hd => longi_poly hR hD hd) θ0 hn
  · exact Continuous.measurable (by unfold Function.uncurry; fun_prop)
  · intro s θ
    exact HasDerivAt.congr_deriv ((((((hasDerivAt_cos θ).const_mul R).const_sub (P.x - s * (skewDir m).x)).const_mul (skewDir m).z).sub_const ((skewDir m).x * (P.z - s * (skewDir m).z))).const_mul R) (by ring)
  · intro s θ
    exact HasDerivAt.congr_deriv ((((hasDerivAt_sin θ).const_mul (skewDir m).z).const_mul R).const_mul R) (by ring)
  · intro s; fun_prop
  · intro s θ; rw [cos_add_two_pi]
  · intro θ s
    have h := wake_cross R m θ s P
    rw [abs_mul, abs_of_nonneg hR]
    gcongr
  · intro θ s
    exact two_le hR hez (abs_sin_le_one θ)
  · intro θ s
    exact two_le hR hez (abs_cos_le_one θ)

theorem longi_rule_z : |turnRule θ0 n (fun θ => ∫ s in Ioi 0, R * (bsKernel (wakePoint R m θ s) (skewDir m) P).z)
      - ∫ θ in Ioc 0 (2*π), ∫ s in Ioi 0, R * (bsKernel (wakePoint R m θ s) (skewDir m) P).z|
    ≤ (2*π)^3/(12 * n^2) * (1/(4*π) * (R * (4 * (R/D) + 24 * (R/D)^2)) * ((2*R + 4*D)/D^2)) := by
  obtain ⟨hex, hez⟩ := skewDir_le m
  simp only [longi_kernel, V3.smul_z, mul_left_comm R (1 / (4 * π) * _)]
  refine sheet_rule hR hD hdist (fun θ s => R * ((skewDir m).x * (P.y - R * sin θ))) (fun θ s => -(R * (R * ((skewDir m).x * cos θ)))) (fun θ s => R * (R * ((skewDir m).x * sin θ)))
      (fun d => R^2) (fun d => R^2) ?_ ?_ ?_ ?_ ?_ ?_ ?_ ?_ (fun d hd => longi_poly hR hD hd) θ0 hn
  · exact Continuous.measurable (by unfold Function.uncurry; fun_prop)
  · intro s θ
    exact HasDerivAt.congr_deriv (((((hasDerivAt_sin θ).const_mul R).const_sub P.y).const_mul (skewDir m).x).const_mul R) (by ring)
  · intro s θ
    exact HasDerivAt.congr_deriv (((((hasDerivAt_cos θ).const_mul (skewDir m).x).const_mul R).const_mul R).fun_neg) (by ring)
  · intro s; fun_prop
  · intro s θ; rw [sin_add_two_pi]
  · intro θ s
    have h := (wake_xy R m θ s P).2
    rw [← mul_assoc]
    exact unit_le hR hex h
  · intro θ s
    exact by rw [abs_neg]; exact two_le hR hex (abs_cos_le_one θ)
  · intro θ s
    exact two_le hR hex (abs_sin_le_one θ)

/-- the rule for the longitudinal sheet -/
theorem longi_rule (γ : ℝ) (π' : V3 ℝ → ℝ) (hπ : π' = V3.x ∨ π' = V3.y ∨ π' = V3.z) :
    |π' (turnRuleV θ0 n (longiGenerator γ R m P)) - π' (skewLongiField γ R m P)|
      ≤ |γ| * (π^2/(3 * n^2) * (R/D * (R/D + 2)) * (4 * (R/D) + 24 * (R/D)^2)) := by
  have hlin : ∀ f : ℝ → ℝ → ℝ, |turnRule θ0 n (fun θ => ∫ s in Ioi 0, R * f θ s) - ∫ θ in Ioc 0 (2*π), ∫ s in Ioi 0, R * f θ s|
        ≤ (2*π)^3/(12 * n^2) * (1/(4*π) * (R * (4 * (R/D) + 24 * (R/D)^2)) * ((2*R + 4*D)/D^2)) →
      |turnRule θ0 n (fun θ => γ * R * ∫ s in Ioi 0, f θ s) - ∫ θ in Ioc 0 (2*π), γ * R * ∫ s in Ioi 0, f θ s|
        ≤ |γ| * (π^2/(3 * n^2) * (R/D * (R/D + 2)) * (4 * (R/D) + 24 * (R/D)^2)) := by
    intro f h
    simp only [integral_const_mul] at h
    simp only [mul_assoc γ R]
    rw [turnRule_smul, integral_const_mul, ← mul_sub, abs_mul]
    rw [integral_const_mul]
    refine mul_le_mul_of_nonneg_left (h.trans (le_of_eq ?_)) (abs_nonneg γ)
    have := pi_pos.ne'
    field_simp
    ring
  rcases hπ with rfl | rfl | rfl
  · exact hlin (fun θ s => (bsKernel (wakePoint R m θ s) (skewDir m) P).x) (longi_rule_x hR hD hdist θ0 hn)
  · exact hlin (fun θ s => (bsKernel (wakePoint R m θ s) (skewDir m) P).y) (longi_rule_y hR hD hdist θ0 hn)
  · exact hlin (fun θ s => (bsKernel (wakePoint R m θ s) (skewDir m) P).z) (longi_rule_z hR hD hdist θ0 hn)

end

theorem off_of_dist {R m D : ℝ} {P : V3 ℝ} (hD : 0 < D) (hdist : ∀ θ s, 0 ≤ s → D ≤ V3.norm (P - wakePoint R m θ s)) :
    ∀ θ s, 0 ≤ s → P ≠ wakePoint R m θ s := by
  intro θ s hs e
  have := hdist θ s hs
  rw [← e] at this
  simp [V3.norm] at this
  linarith

/-- C114: accuracy of the tangential part.  At a point whose distance to the skewed wake is at least `D`, each velocity component
returned with `n+1` azimuths is within `|gamma| pi²/(3n²) (R/D)(R/D+2)(1+10 R/D+18 (R/D)²)` of the Biot–Savart integral over the sheet. -/
theorem C114_tang (pts : List (V3 ℝ)) (γ R m D : ℝ) (hR : 0 < R) (hD : 0 < D) (n i : ℕ) (hn : 0 < n) (P : V3 ℝ) (hi : pts[i]? = some P)
    (hdist : ∀ θ s, 0 ≤ s → D ≤ V3.norm (P - wakePoint R m θ s)) (E : ℝ)
    (hE : E = |γ| * (π^2/(3 * n^2) * (R/D * (R/D + 2)) * (1 + 10 * (R/D) + 18 * (R/D)^2))) :
    ∃ u : V3 ℝ, (svcTang pts (.fin γ) R (.fin m) (n+1) false)[i]? = some (V3.fin u) ∧
      |u.x - (skewTangField γ R m P).x| ≤ E ∧ |u.y - (skewTangField γ R m P).y| ≤ E ∧ |u.z - (skewTangField γ R m P).z| ≤ E := by
  have h := tang_rule hR.le hD hdist (π/2) hn γ
  rw [← hE] at h
  exact ⟨_, (C65_cartesian pts γ R m hR n i P hi (off_of_dist hD hdist)).1, h _ (Or.inl rfl), h _ (Or.inr (Or.inl rfl)), h _ (Or.inr (Or.inr rfl))⟩

/-- C114: accuracy of the longitudinal part. -/
theorem C114_longi (pts : List (V3 ℝ)) (γ R m D : ℝ) (hR : 0 < R) (hD : 0 < D) (n i : ℕ) (hn : 0 < n) (P : V3 ℝ) (hi : pts[i]? = some P)
    (hdist : ∀ θ s, 0 ≤ s → D ≤ V3.norm (P - wakePoint R m θ s)) (E : ℝ)
    (hE : E = |γ| * (π^2/(3 * n^2) * (R/D * (R/D + 2)) * (4 * (R/D) + 24 * (R/D)^2))) :
    ∃ u : V3 ℝ, (svcLongi pts (.fin γ) R (.fin m) (n+1) false)[i]? = some (V3.fin u) ∧
      |u.x - (skewLongiField γ R m P).x| ≤ E ∧ |u.y - (skewLongiField γ R m P).y| ≤ E ∧ |u.z - (skewLongiField γ R m P).z| ≤ E := by
  have h := longi_rule hR.le hD hdist (π/((n:ℝ)+1)) hn γ
  rw [← hE] at h
  exact ⟨_, (C65_cartesian pts γ R m hR n i P hi (off_of_dist hD hdist)).2, h _ (Or.inl rfl), h _ (Or.inr (Or.inl rfl)), h _ (Or.inr (Or.inr rfl))⟩

/-- the axes of a turbine are orthonormal after any history -/
theorem rotorAxes_run (mini : (ℝ → Num) → ℝ) (R : ℝ) (hub shaft vert U0 : V3 ℝ) (L : Option Num) (G : Bool)
    (M : String) (ho : Orthonormal shaft vert) (h : List Op) :
    let s := ((WT.new R hub shaft vert U0 L G M).run mini h).e_shaft_g
    let a := V3.cross vert s
    V3.dot a a = 1 ∧ V3.dot a vert = 0 ∧ V3.dot a s = 0 ∧ V3.dot vert vert = 1 ∧ V3.dot vert s = 0 ∧ V3.dot s s = 1 := by
  intro s a
  have hfr := frame_run mini shaft vert R h _ (frame_new R hub shaft vert U0 L G M)
  obtain ⟨a', s', -, -, e2, h1, h2, h3, h4, h5, h6⟩ := frame_cols shaft vert R ho _ hfr
  have hs : s = s' := by
    have := hfr.e_shaft_g
    rw [turn_eq] at this
    rw [e2]; exact this
  have ha : a = a' := by rw [h6, ← hs]
  rw [ha, hs]
  refine ⟨h1, h3, h4, ho.vert, ?_, h2⟩
  simp only [V3.dot] at h5 ⊢
  linarith

/-- C114: accuracy of a yawed turbine.  After any history of calls, `compute_u` of a skewed turbine with one cylinder returns at
a point `q` (in rotor axes) at distance `D` from the wake, wind plus, within `|gamma|(pi²/(3*179²))...` per rotor-axis component,
the Biot–Savart velocity of the skewed sheet. -/
theorem C114_turbine (mini : (ℝ → Num) → ℝ) (R : ℝ) (hub shaft vert U0 : V3 ℝ) (L : Option Num) (G : Bool)
    (M : String) (ho : Orthonormal shaft vert) (hR : 0 < R) (h : List Op) (pts : List (V3 ℝ)) (o : Opts) (γ χ : ℝ) :
    let w := (WT.new R hub shaft vert U0 L G M).run mini h
    let s := w.e_shaft_g
    let a := V3.cross vert s
    o.tang = true → o.longi = false → o.root = false → o.no_wake = false → o.Model.getD w.Model = "VC" → o.ground.getD w.Ground = false →
    w.gamma_t = some [.fin γ] → (w.computeU pts o).2.chi = some (.fin χ) → 1e-7 < |χ| → cos χ ≠ 0 →
    ∃ u, (w.computeU pts o).1 = .ok u ∧ ∀ (i : ℕ) (p q : V3 ℝ) (D : ℝ), pts[i]? = some p → 0 < D →
      q = ⟨V3.dot (p - w.r_hub) a, V3.dot (p - w.r_hub) vert, V3.dot (p - w.r_hub) s⟩ →
      (∀ θ t, 0 ≤ t → D ≤ V3.norm (q - wakePoint R (tan χ) θ t)) →
      ∃ v : V3 ℝ, u[i]? = some (V3.fin v) ∧ ∀ v0 F : V3 ℝ, v0 = v - (if o.only_ind then 0 else w.U0_g) → F = skewTangField γ R (tan χ) q →
        ∀ E, E = |γ| * (π^2/(3 * 179^2) * (R/D * (R/D + 2)) * (1 + 10 * (R/D) + 18 * (R/D)^2)) →
        |V3.dot v0 a - F.x| ≤ E ∧ |V3.dot v0 vert - F.y| ≤ E ∧ |V3.dot v0 s - F.z| ≤ E := by
  intro w s a h1 h2 h3 h4 h6 h7 hg hchi hsk hcos
  obtain ⟨u, hu, -, hall⟩ := skew_value mini R hub shaft vert U0 L G M ho hR h pts o γ χ
    (by constructor <;> assumption) hg hchi hsk hcos
  refine ⟨u, hu, fun i p q D hi hD hq hdist => ?_⟩
  refine ⟨_, hall i p q hi hq (off_of_dist hD hdist) _ rfl, ?_⟩
  have hr := tang_rule hR.le hD hdist (π/2) (n := 179) (by norm_num) γ
  generalize turnRuleV (π/2) 179 (tangGenerator γ R (tan χ) q) = c at *
  intro v0 F hv0 hF E hE
  subst hF
  have hax := rotorAxes_run mini R hub shaft vert U0 L G M ho h
  obtain ⟨aa, av, as, vv, vs, ss⟩ := hax
  change V3.dot a a = 1 at aa
  change V3.dot a vert = 0 at av
  change V3.dot a s = 0 at as
  change V3.dot vert vert = 1 at vv
  change V3.dot vert s = 0 at vs
  change V3.dot s s = 1 at ss
  have hvv : v0 = V3.smul c.x a + V3.smul c.y vert + V3.smul c.z s := by
    rw [hv0]
    change (V3.smul c.x a + V3.smul c.y vert + V3.smul c.z s + (if o.only_ind then 0 else w.U0_g)) - _ = _
    ext <;> simp
  rw [hvv]
  clear hvv hv0
  generalize a = a at *
  generalize s = s at *
  have e1 : V3.dot (V3.smul c.x a + V3.smul c.y vert + V3.smul c.z s) a = c.x := by
    simp only [V3.dot, V3.add_x, V3.add_y, V3.add_z, V3.smul_x, V3.smul_y, V3.smul_z] at *
    linear_combination c.x * aa + c.y * av + c.z * as
  have e2 : V3.dot (V3.smul c.x a + V3.smul c.y vert + V3.smul c.z s) vert = c.y := by
    simp only [V3.dot, V3.add_x, V3.add_y, V3.add_z, V3.smul_x, V3.smul_y, V3.smul_z] at *
    linear_combination c.x * av + c.y * vv + c.z * vs
  have e3 : V3.dot (V3.smul c.x a + V3.smul c.y vert + V3.smul c.z s) s = c.z := by
    simp only [V3.dot, V3.add_x, V3.add_y, V3.add_z, V3.smul_x, V3.smul_y, V3.smul_z] at *
    linear_combination c.x * as + c.y * vs + c.z * ss
  rw [e1, e2, e3, hE]
  have hr' := fun π' hπ => hr π' hπ
  norm_num at hr' ⊢
  exact hr'

/-- every point at least `D` upstream of the rotor plane is at distance at least `D` from the wake -/
theorem upstream_dist (R m D : ℝ) (q : V3 ℝ) (h : q.z ≤ -D) (hD : 0 < D) : ∀ θ t, 0 ≤ t → D ≤ V3.norm (q - wakePoint R m θ t) := by
  intro θ t ht
  have h1 := (comp_le_norm (q - wakePoint R m θ t)).2.2
  have hz : (q - wakePoint R m θ t).z = q.z - t * (skewDir m).z := by rw [wake_coord]
  have hp : 0 ≤ t * (skewDir m).z := mul_nonneg ht (by simp only [skewDir]; positivity)
  rw [hz, abs_of_neg (by linarith)] at h1
  linarith

/-- C114: upstream of the rotor.  In the region used for blockage, one radius or more upstream of the rotor plane, the velocity
that a skewed turbine returns is within 1% of the strength of the wake of the exact one, for every skew, strength, radius and history. -/
theorem C114_upstream (mini : (ℝ → Num) → ℝ) (R : ℝ) (hub shaft vert U0 : V3 ℝ) (L : Option Num) (G : Bool)
    (M : String) (ho : Orthonormal shaft vert) (hR : 0 < R) (h : List Op) (pts : List (V3 ℝ)) (o : Opts) (γ χ : ℝ) :
    let w := (WT.new R hub shaft vert U0 L G M).run mini h
    let s := w.e_shaft_g
    let a := V3.cross vert s
    o.tang = true → o.longi = false → o.root = false → o.no_wake = false → o.Model.getD w.Model = "VC" → o.ground.getD w.Ground = false →
    w.gamma_t = some [.fin γ] → (w.computeU pts o).2.chi = some (.fin χ) → 1e-7 < |χ| → cos χ ≠ 0 →
    ∃ u, (w.computeU pts o).1 = .ok u ∧ ∀ (i : ℕ) (p : V3 ℝ), pts[i]? = some p → V3.dot (p - w.r_hub) s ≤ -R →
      ∃ v : V3 ℝ, u[i]? = some (V3.fin v) ∧ ∀ v0 F : V3 ℝ, v0 = v - (if o.only_ind then 0 else w.U0_g) →
        F = skewTangField γ R (tan χ) ⟨V3.dot (p - w.r_hub) a, V3.dot (p - w.r_hub) vert, V3.dot (p - w.r_hub) s⟩ →
        |V3.dot v0 a - F.x| ≤ 0.01 * |γ| ∧ |V3.dot v0 vert - F.y| ≤ 0.01 * |γ| ∧ |V3.dot v0 s - F.z| ≤ 0.01 * |γ| := by
  intro w s a h1 h2 h3 h4 h6 h7 hg hchi hsk hcos
  obtain ⟨u, hu, hall⟩ := C114_turbine mini R hub shaft vert U0 L G M ho hR h pts o γ χ h1 h2 h3 h4 h6 h7 hg hchi hsk hcos
  refine ⟨u, hu, fun i p hi hup => ?_⟩
  obtain ⟨v, hv, hb⟩ := hall i p _ R hi hR rfl (upstream_dist R _ R _ hup hR)
  refine ⟨v, hv, fun v0 F hv0 hF => ?_⟩
  have hE : |γ| * (π^2/(3 * 179^2) * (R/R * (R/R + 2)) * (1 + 10 * (R/R) + 18 * (R/R)^2)) ≤ 0.01 * |γ| := by
    rw [div_self hR.ne', mul_comm]
    gcongr
    have h4 : π < 3.15 := pi_lt_d2
    have h3 := pi_pos
    norm_num at *
    nlinarith
  obtain ⟨b1, b2, b3⟩ := hb v0 F hv0 hF _ rfl
  exact ⟨b1.trans hE, b2.trans hE, b3.trans hE⟩

/-- C114: at the hub the velocity along the shaft is exact for every skew: wind plus half the strength. -/
theorem C114_hub (mini : (ℝ → Num) → ℝ) (R : ℝ) (hub shaft vert U0 : V3 ℝ) (L : Option Num) (G : Bool)
    (M : String) (ho : Orthonormal shaft vert) (hR : 0 < R) (h : List Op) (pts : List (V3 ℝ)) (o : Opts) (γ χ : ℝ) :
    let w := (WT.new R hub shaft vert U0 L G M).run mini h
    o.tang = true → o.longi = false → o.root = false → o.no_wake = false → o.Model.getD w.Model = "VC" → o.ground.getD w.Ground = false →
    w.gamma_t = some [.fin γ] → (w.computeU pts o).2.chi = some (.fin χ) → 1e-7 < |χ| → cos χ ≠ 0 →
    ∃ u, (w.computeU pts o).1 = .ok u ∧ ∀ i : ℕ, pts[i]? = some w.r_hub →
      ∃ v : V3 ℝ, u[i]? = some (V3.fin v) ∧ V3.dot v w.e_shaft_g = V3.dot (if o.only_ind then 0 else w.U0_g) w.e_shaft_g + γ/2 := by
  intro w h1 h2 h3 h4 h6 h7 hg hchi hsk hcos
  obtain ⟨u, hu, -, hall⟩ := skew_value mini R hub shaft vert U0 L G M ho hR h pts o γ χ
    (by constructor <;> assumption) hg hchi hsk hcos
  refine ⟨u, hu, fun i hi => ?_⟩
  have hoff : ∀ θ t, 0 ≤ t → (⟨0, 0, 0⟩ : V3 ℝ) ≠ wakePoint R (tan χ) θ t := by
    have := offWake_axis R (tan χ) 0 hR
    rw [mul_zero] at this
    exact this
  have hz : ∀ x v : V3 ℝ, 0 = V3.dot (x - x) v := by intro x v; simp [V3.dot]
  have hv := hall i w.r_hub ⟨0, 0, 0⟩ hi (by ext; exacts [hz w.r_hub _, hz w.r_hub _, hz w.r_hub _]) hoff _ rfl
  have hc : (turnRuleV (π/2) 179 (tangGenerator γ R (tan χ) ⟨0, 0, 0⟩)).z = γ/2 := by
    have hc := C66_rotor_centre 0 γ R (tan χ) hR 180 (by norm_num) false
    have hP : polarPoint 0 0 0 = ⟨0, 0, 0⟩ := by simp [polarPoint]
    rw [svcTang_cart ⟨0, 0, 0⟩ γ R (tan χ) 179 (by show OffWake _ _ (polarPoint 0 0 0); rw [hP]; exact hoff)] at hc
    change Num.fin (turnRuleV (π/2) 179 (tangGenerator γ R (tan χ) (polarPoint 0 0 0))).z = _ at hc
    rw [hP] at hc
    exact Num.fin.inj hc
  generalize turnRuleV (π/2) 179 (tangGenerator γ R (tan χ) ⟨0, 0, 0⟩) = c at *
  refine ⟨_, hv, ?_⟩
  obtain ⟨aa, av, as, vv, vs, ss⟩ := rotorAxes_run mini R hub shaft vert U0 L G M ho h
  change V3.dot (V3.cross vert w.e_shaft_g) w.e_shaft_g = 0 at as
  change V3.dot vert w.e_shaft_g = 0 at vs
  change V3.dot w.e_shaft_g w.e_shaft_g = 1 at ss
  change V3.dot (V3.smul c.x (V3.cross vert w.e_shaft_g) + V3.smul c.y vert + V3.smul c.z w.e_shaft_g + (if o.only_ind then 0 else w.U0_g)) w.e_shaft_g = _
  generalize (if o.only_ind then 0 else w.U0_g) = U
  clear aa
  generalize V3.cross vert w.e_shaft_g = a at *
  generalize w.e_shaft_g = s at *
  rw [← hc]
  simp only [V3.dot, V3.add_x, V3.add_y, V3.add_z, V3.smul_x, V3.smul_y, V3.smul_z] at *
  linear_combination c.x * as + c.y * vs + c.z * ss

/-- the hypotheses are met by a rotor of radius 50 m, skew 30 degrees, at a point 100 m upstream -/
example : ∀ θ t, 0 ≤ t → (100:ℝ) ≤ V3.norm ((⟨20, -10, -100⟩ : V3 ℝ) - wakePoint 50 (tan (π/6)) θ t) :=
  upstream_dist 50 _ 100 _ (by norm_num) (by norm_num)

end Wiz
