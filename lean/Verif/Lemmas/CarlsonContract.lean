import Verif.Lemmas.CarlsonReal
namespace Wiz
open Spec Real

theorem dupIter_diff (x y z : ℝ) (k : ℕ) :
    (dupIter x y z k).1 - (dupIter x y z k).2.1 = (x - y) / 4^k ∧
    (dupIter x y z k).1 - (dupIter x y z k).2.2 = (x - z) / 4^k ∧
    (dupIter x y z k).2.1 - (dupIter x y z k).2.2 = (y - z) / 4^k := by
  induction k with
  | zero => simp [dupIter]
  | succ k ih =>
    obtain ⟨a, b, c⟩ := ih
    simp only [dupIter, pow_succ]
    refine ⟨?_, ?_, ?_⟩
    · rw [show (x - y) / (4^k * 4) = (x - y)/4^k / 4 by rw [div_div], ← a]; ring
    · rw [show (x - z) / (4^k * 4) = (x - z)/4^k / 4 by rw [div_div], ← b]; ring
    · rw [show (y - z) / (4^k * 4) = (y - z)/4^k / 4 by rw [div_div], ← c]; ring

theorem dupP_diff (x y z p : ℝ) (k : ℕ) :
    dupP x y z p k - (dupIter x y z k).1 = (p - x) / 4^k := by
  induction k with
  | zero => simp [dupIter, dupP]
  | succ k ih =>
    simp only [dupIter, dupP, pow_succ]
    rw [show (p - x) / (4^k * 4) = (p - x)/4^k / 4 by rw [div_div], ← ih]; ring

/-- any common lower bound persists -/
theorem dupIter_lower (x y z b : ℝ) (hb : 0 ≤ b) (hx : b ≤ x) (hy : b ≤ y) (hz : b ≤ z) (k : ℕ) :
    b ≤ (dupIter x y z k).1 ∧ b ≤ (dupIter x y z k).2.1 ∧ b ≤ (dupIter x y z k).2.2 := by
  induction k with
  | zero => exact ⟨hx, hy, hz⟩
  | succ k ih =>
    obtain ⟨h1, h2, h3⟩ := ih
    simp only [dupIter]
    generalize (dupIter x y z k).1 = X at *
    generalize (dupIter x y z k).2.1 = Y at *
    generalize (dupIter x y z k).2.2 = Z at *
    have : 3 * b ≤ lam X Y Z := by
      have f : ∀ u v : ℝ, b ≤ u → b ≤ v → b ≤ √(u*v) := by
        intro u v hu hv
        apply le_sqrt_of_sq_le
        nlinarith
      have := f X Y h1 h2
      have := f X Z h1 h3
      have := f Y Z h2 h3
      unfold lam; linarith
    refine ⟨by linarith, by linarith, by linarith⟩

theorem dupIter_succ_start (x y z : ℝ) (k : ℕ) :
    dupIter x y z (k+1) = dupIter ((x + lam x y z)/4) ((y + lam x y z)/4) ((z + lam x y z)/4) k := by
  induction k with
  | zero => rfl
  | succ k ih => rw [dupIter, ih]; rfl

/-- all arguments are at least `λ/4` from the first pass on -/
theorem dupIter_lower' (x y z : ℝ) (hx : 0 ≤ x) (hy : 0 ≤ y) (hz : 0 ≤ z) (k : ℕ) :
    lam x y z / 4 ≤ (dupIter x y z (k+1)).1 ∧ lam x y z / 4 ≤ (dupIter x y z (k+1)).2.1 ∧
    lam x y z / 4 ≤ (dupIter x y z (k+1)).2.2 := by
  rw [dupIter_succ_start]
  have := lam_nonneg x y z
  exact dupIter_lower _ _ _ _ (by positivity) (by linarith) (by linarith) (by linarith) k

theorem rcIter_diff (x y : ℝ) (k : ℕ) : (rcIter x y k).1 - (rcIter x y k).2 = (x - y)/4^k := by
  induction k with
  | zero => simp [rcIter]
  | succ k ih =>
    simp only [rcIter, pow_succ]
    rw [show (x - y) / (4^k * 4) = (x - y)/4^k / 4 by rw [div_div], ← ih]; ring

theorem rcIter_lower (x y b : ℝ) (hb : 0 ≤ b) (hx : b ≤ x) (hy : b ≤ y) (k : ℕ) :
    b ≤ (rcIter x y k).1 ∧ b ≤ (rcIter x y k).2 := by
  induction k with
  | zero => exact ⟨hx, hy⟩
  | succ k ih =>
    obtain ⟨h1, h2⟩ := ih
    simp only [rcIter]
    generalize (rcIter x y k).1 = X at *
    generalize (rcIter x y k).2 = Y at *
    have : 3 * b ≤ rcLam X Y := by
      have : b ≤ √(X*Y) := by
        apply le_sqrt_of_sq_le
        nlinarith
      unfold rcLam; linarith
    exact ⟨by linarith, by linarith⟩

theorem rcIter_succ_start (x y : ℝ) (k : ℕ) :
    rcIter x y (k+1) = rcIter ((x + rcLam x y)/4) ((y + rcLam x y)/4) k := by
  induction k with
  | zero => rfl
  | succ k ih => rw [rcIter, ih]; rfl
theorem rcIter_lower' (x y : ℝ) (hx : 0 ≤ x) (hy : 0 ≤ y) (k : ℕ) :
    rcLam x y / 4 ≤ (rcIter x y (k+1)).1 ∧ rcLam x y / 4 ≤ (rcIter x y (k+1)).2 := by
  rw [rcIter_succ_start]
  have := rcLam_nonneg (x := x) hy
  exact rcIter_lower _ _ _ (by positivity) (by linarith) (by linarith) k

theorem dev_bound {a b c d w e : ℝ} (he : 0 < e) (ha : e ≤ a) (hb : e ≤ b) (hc : e ≤ c)
    (h1 : |a - b| ≤ d) (h2 : |a - c| ≤ d) (h3 : |b - c| ≤ d) (hw : w = a ∨ w = b ∨ w = c) :
    |1 - w / ((a + b + c)/3)| ≤ d / e := by
  have hmu : e ≤ (a + b + c)/3 := by linarith
  have hmu0 : 0 < (a + b + c)/3 := by linarith
  have e1 : 1 - w / ((a + b + c)/3) = ((a + b + c)/3 - w) / ((a + b + c)/3) := by
    rw [sub_div, div_self hmu0.ne']
  rw [e1, abs_div, abs_of_pos hmu0]
  have hd : 0 ≤ d := le_trans (abs_nonneg _) h1
  have hn : |(a + b + c)/3 - w| ≤ d := by
    rw [abs_le] at *
    rcases hw with rfl | rfl | rfl <;> constructor <;> linarith
  calc |(a + b + c)/3 - w| / ((a + b + c)/3) ≤ d / ((a + b + c)/3) := by gcongr
    _ ≤ d / e := by gcongr
end Wiz
