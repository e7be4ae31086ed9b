import Verif.Props.Elliptic

/-!
# C39: relative deviations of the `RC` and `RJ` recursions
-/
set_option autoImplicit false
namespace Wiz
open Spec Real

/-- C39: the relative deviation `s` of pass `k+1` of `RC` is at most `C·4^{-(k+1)}`, with `C` depending only on the starting values. -/
theorem C39_rc_deviation (x y : ℝ) (hx : 0 ≤ x) (hy : 0 < y) :
    ∃ C : ℝ, ∀ k : ℕ, ∃ xk yk v : ℝ, rcStep^[k+1] ⟨.fin x, .fin y, 0⟩ = ⟨.fin xk, .fin yk, .fin v⟩ ∧
      |(yk - xk) / (3 * ((xk + 2 * yk)/3))| ≤ C / 4^(k+1) := by
  have hl : 0 < rcLam x y / 4 := by
    have h1 : 0 ≤ √(x*y) := by positivity
    unfold rcLam; linarith
  have iter : ∀ k, rcStep^[k+1] ⟨.fin x, .fin y, 0⟩ =
      ⟨.fin (rcIter x y (k+1)).1, .fin (rcIter x y (k+1)).2, .fin (rcVal (rcIter x y k).1 (rcIter x y k).2)⟩ := by
    intro k
    induction k with
    | zero => exact rcStep_fin x y 0 hx hy.le (by positivity)
    | succ k ih =>
      rw [Function.iterate_succ_apply', ih]
      obtain ⟨a, b⟩ := rcIter_nonneg x y hx hy (k+1)
      rw [rcStep_fin _ _ _ a b.le (by positivity)]
      rfl
  refine ⟨|x - y| / (3 * (rcLam x y / 4)), fun k => ⟨_, _, _, iter k, ?_⟩⟩
  obtain ⟨l1, l2⟩ := rcIter_lower' x y hx hy.le k
  have d := rcIter_diff x y (k+1)
  have h4 : (0:ℝ) < 4^(k+1) := by positivity
  generalize (rcIter x y (k+1)).1 = X at *
  generalize (rcIter x y (k+1)).2 = Y at *
  have hmu : 0 < 3 * ((X + 2 * Y)/3) := by linarith
  rw [abs_div, abs_of_pos hmu, abs_sub_comm, d, abs_div, abs_of_pos h4, div_div, div_div, mul_comm ((4:ℝ)^(k+1))]
  have hle : 3 * (rcLam x y / 4) ≤ 3 * ((X + 2 * Y)/3) := by linarith
  exact div_le_div_of_nonneg_left (abs_nonneg _) (mul_pos (by linarith) h4) (mul_le_mul_of_nonneg_right hle h4.le)

/-- C39: the relative deviations `X,Y,Z,P` of pass `k+1` of `RJ` at `(0,y,1,p)` are at most `C·4^{-(k+1)}`, with `C` depending only on the starting values, whatever the
numbers of passes of the inner `RC` loops. -/
theorem C39_rj_deviation (y p : ℝ) (hy : 0 < y) (hp : 0 < p) :
    ∃ C : ℝ, ∀ (kC : ℕ → ℕ), (∀ j, 1 ≤ kC j) → ∀ k : ℕ, ∃ xk yk zk pk a v : ℝ,
      carlsonRJst kC (.fin y) (.fin p) (k+1) = ⟨.fin xk, .fin yk, .fin zk, .fin pk, .fin a, .fin v⟩ ∧
      ∀ w, (w = xk ∨ w = yk ∨ w = zk ∨ w = pk) → |1 - w / ((xk + yk + zk + 2 * pk)/5)| ≤ C / 4^(k+1) := by
  have hl : 0 < lam 0 y 1 / 4 := by
    have : 0 < √(y*1) := by rw [mul_one]; positivity
    unfold lam; simp only [zero_mul, sqrt_zero]; linarith
  refine ⟨(y + 1 + |y - 1| + p) / (lam 0 y 1 / 4), fun kC hC k => ⟨_, _, _, _, _, _, carlsonRJst_fin kC hC y p hy.le hp k, ?_⟩⟩
  intro w hw
  obtain ⟨d1, d2, d3⟩ := dupIter_diff 0 y 1 (k+1)
  have d4 := dupP_diff 0 y 1 p (k+1)
  obtain ⟨l1, l2, l3⟩ := dupIter_lower' 0 y 1 le_rfl hy.le zero_le_one k
  have h4 : (0:ℝ) < 4^(k+1) := by positivity
  generalize (dupIter 0 y 1 (k+1)).1 = X at *
  generalize (dupIter 0 y 1 (k+1)).2.1 = Y at *
  generalize (dupIter 0 y 1 (k+1)).2.2 = Z at *
  generalize dupP 0 y 1 p (k+1) = P at *
  generalize lam 0 y 1 / 4 = e at *
  have q1 : 0 < y / 4^(k+1) := by positivity
  have q2 : (0:ℝ) < 1 / 4^(k+1) := by positivity
  have q3 : 0 < p / 4^(k+1) := by positivity
  have q4 : 0 ≤ |y - 1| / 4^(k+1) := by positivity
  have e1 : (0 - y) / 4^(k+1) = -(y / 4^(k+1)) := by ring
  have e2 : (0 - 1) / 4^(k+1) = -((1:ℝ) / 4^(k+1)) := by ring
  rw [e1] at d1
  rw [e2] at d2
  rw [sub_zero] at d4
  obtain ⟨D, hD⟩ : ∃ D, D = (y + 1 + |y - 1| + p) / 4^(k+1) := ⟨_, rfl⟩
  have hD' : D = y / 4^(k+1) + 1 / 4^(k+1) + |y - 1| / 4^(k+1) + p / 4^(k+1) := by rw [hD]; ring
  have hmu : e ≤ (X + Y + Z + 2 * P)/5 := by linarith
  have hmu0 : 0 < (X + Y + Z + 2 * P)/5 := by linarith
  have hn : |(X + Y + Z + 2 * P)/5 - w| ≤ D := by
    rw [abs_le, hD']
    rcases hw with rfl | rfl | rfl | rfl <;> constructor <;> linarith
  have e3 : 1 - w / ((X + Y + Z + 2 * P)/5) = ((X + Y + Z + 2 * P)/5 - w) / ((X + Y + Z + 2 * P)/5) := by
    rw [sub_div, div_self hmu0.ne']
  rw [e3, abs_div, abs_of_pos hmu0, div_right_comm, ← hD]
  have hD0 : 0 ≤ D := by rw [hD']; linarith
  gcongr

/-- non-trivial cases: the recursions at (x,y)=(0,1) and (y,p)=(1/2,1/3) -/
example : (0:ℝ) ≤ 0 ∧ (0:ℝ) < 1 ∧ (0:ℝ) < 1/2 ∧ (0:ℝ) < 1/3 := by norm_num

end Wiz
