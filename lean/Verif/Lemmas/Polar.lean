import Verif.Model.VortexLine
import Mathlib.Tactic.LinearCombination
namespace Wiz

theorem polarR_nonneg (x y : ℝ) : 0 ≤ polarR x y := Real.sqrt_nonneg _
theorem polarR_sq (x y : ℝ) : polarR x y ^ 2 = x^2 + y^2 := Real.sq_sqrt (by positivity)
theorem polarR_pos {x y : ℝ} (h : x ≠ 0 ∨ y ≠ 0) : 0 < polarR x y := by
  apply Real.sqrt_pos.mpr
  rcases h with h | h <;> positivity
theorem polarR_eq_zero {x y : ℝ} : polarR x y = 0 ↔ x = 0 ∧ y = 0 := by
  constructor
  · intro h
    have := polarR_sq x y
    rw [h] at this
    constructor <;> nlinarith [sq_nonneg x, sq_nonneg y]
  · rintro ⟨rfl, rfl⟩; simp [polarR]

theorem norm_eq_polarR (x y : ℝ) : ‖(⟨x, y⟩ : ℂ)‖ = polarR x y := by
  rw [Complex.norm_def, Complex.normSq_mk]; unfold polarR; congr 1; ring

theorem r_cos (x y : ℝ) : polarR x y * Real.cos (arctan2 y x) = x := by
  have := Complex.norm_mul_cos_arg (⟨x, y⟩ : ℂ)
  rwa [norm_eq_polarR] at this
theorem r_sin (x y : ℝ) : polarR x y * Real.sin (arctan2 y x) = y := by
  have := Complex.norm_mul_sin_arg (⟨x, y⟩ : ℂ)
  rwa [norm_eq_polarR] at this
theorem cos_arctan2 {x y : ℝ} (h : x ≠ 0 ∨ y ≠ 0) : Real.cos (arctan2 y x) = x / polarR x y := by
  rw [eq_div_iff (polarR_pos h).ne', mul_comm]; exact r_cos x y
theorem sin_arctan2 {x y : ℝ} (h : x ≠ 0 ∨ y ≠ 0) : Real.sin (arctan2 y x) = y / polarR x y := by
  rw [eq_div_iff (polarR_pos h).ne', mul_comm]; exact r_sin x y
theorem arctan2_zero : arctan2 0 0 = 0 := Complex.arg_zero

end Wiz
