import Verif.Lemmas.CarlsonAccuracy
import Verif.Lemmas.CarlsonContract

/-! # Convergence of the Carlson recursion -/
namespace Wiz
open Spec Real MeasureTheory Set Filter Topology

theorem dupIter_pos {x y z : ℝ} (hx : 0 ≤ x) (hy : 0 < y) (hz : 0 < z) (k : ℕ) :
    0 ≤ (dupIter x y z k).1 ∧ 0 < (dupIter x y z k).2.1 ∧ 0 < (dupIter x y z k).2.2 := by
  induction k with
  | zero => exact ⟨hx, hy, hz⟩
  | succ k ih =>
    obtain ⟨a, b, c⟩ := ih
    simp only [dupIter]
    have := lam_nonneg (dupIter x y z k).1 (dupIter x y z k).2.1 (dupIter x y z k).2.2
    exact ⟨by positivity, by positivity, by positivity⟩

theorem RF_dupIter {x y z : ℝ} (hx : 0 ≤ x) (hy : 0 < y) (hz : 0 < z) (k : ℕ) :
    RF (dupIter x y z k).1 (dupIter x y z k).2.1 (dupIter x y z k).2.2 = RF x y z := by
  induction k with
  | zero => rfl
  | succ k ih =>
    obtain ⟨a, b, c⟩ := dupIter_pos hx hy hz k
    rw [← ih, RF_dup a b c]; rfl

theorem rcIter_eq_dupIter (x y : ℝ) (hy : 0 < y) (hx : 0 ≤ x) (k : ℕ) :
    dupIter x y y k = ((rcIter x y k).1, (rcIter x y k).2, (rcIter x y k).2) := by
  induction k with
  | zero => rfl
  | succ k ih =>
    rw [dupIter, ih]
    have h := (rcIter_nonneg x y hx hy k).2
    have : lam (rcIter x y k).1 (rcIter x y k).2 (rcIter x y k).2 = rcLam (rcIter x y k).1 (rcIter x y k).2 := by
      unfold lam rcLam; rw [sqrt_mul_self h.le]; ring
    simp only [this, rcIter]

theorem RC_rcIter {x y : ℝ} (hx : 0 ≤ x) (hy : 0 < y) (k : ℕ) : RC (rcIter x y k).1 (rcIter x y k).2 = RC x y := by
  rw [RC_eq_RF hy, RC_eq_RF (rcIter_nonneg x y hx hy k).2, ← RF_dupIter hx hy hy k, rcIter_eq_dupIter x y hy hx k]

theorem inv_sqrt_mono {a b : ℝ} (ha : 0 < a) (h : a ≤ b) : 1/√b ≤ 1/√a :=
  one_div_le_one_div_of_le (sqrt_pos.mpr ha) (sqrt_le_sqrt h)

/-- quantitative convergence of `RC`, uniform in the arguments -/
theorem rc_rate {x y b M : ℝ} (hx : 0 ≤ x) (hb : 0 < b) (hy : b ≤ y) (hM : |x - y| ≤ M) (k : ℕ) (hk : M/4^(k+1)/(b/4) ≤ 1/8) :
    |rcVal (rcIter x y (k+1)).1 (rcIter x y (k+1)).2 - RC x y| ≤ 1/√(b/4) * (30000000*(M/4^(k+1)/(b/4))^7) := by
  have hy0 : 0 < y := hb.trans_le hy
  obtain ⟨l1, l2⟩ := rcIter_lower' x y hx hy0.le k
  have hl : b/4 ≤ rcLam x y / 4 := by
    have : 0 ≤ √(x*y) := sqrt_nonneg _
    unfold rcLam; linarith
  rw [← RC_rcIter hx hy0 (k+1)]
  have hd := rcIter_diff x y (k+1)
  have hM0 : 0 ≤ M := (abs_nonneg _).trans hM
  have hdd : |(rcIter x y (k+1)).1 - (rcIter x y (k+1)).2| ≤ M/4^(k+1) := by
    rw [hd, abs_div, abs_of_pos (by positivity : (0:ℝ) < 4^(k+1))]; gcongr
  generalize (rcIter x y (k+1)).1 = X at *
  generalize (rcIter x y (k+1)).2 = Y at *
  have hX : b/4 ≤ X := hl.trans l1
  have hY : b/4 ≤ Y := hl.trans l2
  have hb4 : 0 < b/4 := by positivity
  have h0 : |Y - Y| ≤ M/4^(k+1) := by rw [sub_self, abs_zero]; positivity
  have d1 := dev_bound hb4 hX hY hY hdd hdd h0 (w := X) (Or.inl rfl)
  have d2 := dev_bound hb4 hX hY hY hdd hdd h0 (w := Y) (Or.inr (Or.inl rfl))
  have := rcVal_close (by linarith) (by linarith) (by positivity) hk d1 d2
  refine this.trans ?_
  apply mul_le_mul_of_nonneg_right _ (by positivity)
  exact inv_sqrt_mono hb4 (by linarith)

/-- `RF(0,y,1)` after `k+2` passes -/
theorem rf_rate {x y z : ℝ} (hx : 0 ≤ x) (hy : 0 < y) (hz : 0 < z) :
    ∃ C N : ℝ, 0 ≤ C ∧ ∀ k : ℕ, N ≤ k → 
      |rfVal (dupIter x y z k).1 (dupIter x y z k).2.1 (dupIter x y z k).2.2 - RF x y z| ≤ C/4^(7*k) := by
  have hb : 0 < lam x y z / 4 := by
    have : 0 < √(y*z) := by positivity
    unfold lam; positivity
  set b := lam x y z / 4 with hbd
  set D := |x - y| + |x - z| + |y - z| with hD
  have hD0 : 0 ≤ D := by positivity
  obtain ⟨N, hN⟩ := pow_unbounded_of_one_lt (8*D/b) (by norm_num : (1:ℝ) < 4)
  refine ⟨1/√b * (30000000 * (D/b)^7), N + 1, by positivity, ?_⟩
  intro k hk
  have hk' : N + 1 ≤ k := by exact_mod_cast hk
  obtain ⟨j, rfl⟩ : ∃ j, k = j + 1 := ⟨k - 1, by omega⟩
  have hNj : N ≤ j + 1 := by omega
  have h4 : (4:ℝ)^N ≤ 4^(j+1) := pow_le_pow_right₀ (by norm_num) hNj
  have h4p : (0:ℝ) < 4^(j+1) := by positivity
  have he : D/4^(j+1)/b ≤ 1/8 := by
    rw [div_le_iff₀ hb, div_le_iff₀ h4p]
    have : 8*D/b < 4^(j+1) := lt_of_lt_of_le hN h4
    rw [div_lt_iff₀ hb] at this
    linarith
  rw [← RF_dupIter hx hy hz (j+1)]
  obtain ⟨p1, p2, p3⟩ := dupIter_lower' x y z hx hy.le hz.le j
  obtain ⟨e1, e2, e3⟩ := dupIter_diff x y z (j+1)
  have f1 : |(dupIter x y z (j+1)).1 - (dupIter x y z (j+1)).2.1| ≤ D/4^(j+1) := by
    rw [e1, abs_div, abs_of_pos h4p]
    have : |x - y| ≤ D := by rw [hD]; linarith [abs_nonneg (x-z), abs_nonneg (y-z)]
    gcongr
  have f2 : |(dupIter x y z (j+1)).1 - (dupIter x y z (j+1)).2.2| ≤ D/4^(j+1) := by
    rw [e2, abs_div, abs_of_pos h4p]
    have : |x - z| ≤ D := by rw [hD]; linarith [abs_nonneg (x-y), abs_nonneg (y-z)]
    gcongr
  have f3 : |(dupIter x y z (j+1)).2.1 - (dupIter x y z (j+1)).2.2| ≤ D/4^(j+1) := by
    rw [e3, abs_div, abs_of_pos h4p]
    have : |y - z| ≤ D := by rw [hD]; linarith [abs_nonneg (x-y), abs_nonneg (x-z)]
    gcongr
  rw [← hbd] at p1 p2 p3
  generalize (dupIter x y z (j+1)).1 = X at *
  generalize (dupIter x y z (j+1)).2.1 = Y at *
  generalize (dupIter x y z (j+1)).2.2 = Z at *
  have d1 := dev_bound hb p1 p2 p3 f1 f2 f3 (w := X) (Or.inl rfl)
  have d2 := dev_bound hb p1 p2 p3 f1 f2 f3 (w := Y) (Or.inr (Or.inl rfl))
  have d3 := dev_bound hb p1 p2 p3 f1 f2 f3 (w := Z) (Or.inr (Or.inr rfl))
  have := rfVal_close (by linarith) (by linarith) (by linarith) (by linarith) (by positivity) he d1 d2 d3
  refine this.trans ?_
  calc 1/√((X+Y+Z)/3) * (30000000*(D/4^(j+1)/b)^7) ≤ 1/√b * (30000000*(D/4^(j+1)/b)^7) := by
        apply mul_le_mul_of_nonneg_right _ (by positivity)
        exact inv_sqrt_mono hb (by linarith)
    _ = 1/√b * (30000000*(D/b)^7) / 4^(7*(j+1)) := by
        rw [mul_comm 7 (j+1), pow_mul, show D/4^(j+1)/b = D/b/4^(j+1) by rw [div_right_comm], div_pow]
        ring

theorem rj_integrable {x y z p : ℝ} (hx : 0 ≤ x) (hy : 0 < y) (hz : 0 < z) (hp : 0 < p) :
    IntegrableOn (fun t => 1 / (√(t+x) * √(t+y) * √(t+z) * (t+p))) (Ioi 0) := by
  have := weighted_integrable hx hy hz (fun t => 1/(t+p)) (by
    apply ContinuousOn.div continuousOn_const (by fun_prop)
    intro t ht
    have ht' : 0 < t := ht
    positivity) (1/p) (by
    intro t ht
    have ht' : 0 < t := ht
    rw [abs_of_pos (by positivity)]
    apply one_div_le_one_div_of_le hp
    linarith)
  refine this.congr_fun ?_ measurableSet_Ioi
  intro t _
  simp only
  rw [one_div_mul_one_div]

theorem RJ_mono {x y z p x' y' z' p' : ℝ} (hx : 0 < x) (hy : 0 < y) (hz : 0 < z) (hp : 0 < p)
    (h1 : x ≤ x') (h2 : y ≤ y') (h3 : z ≤ z') (h4 : p ≤ p') : RJ x' y' z' p' ≤ RJ x y z p := by
  unfold RJ
  apply mul_le_mul_of_nonneg_left _ (by norm_num)
  apply setIntegral_mono_on (rj_integrable (by linarith) (by linarith) (by linarith) (by linarith)) (rj_integrable hx.le hy hz hp) measurableSet_Ioi
  intro t ht
  have ht' : 0 < t := ht
  have := sqrt_pos.mpr (show 0 < t + x by positivity)
  have := sqrt_pos.mpr (show 0 < t + y by positivity)
  have := sqrt_pos.mpr (show 0 < t + z by positivity)
  apply one_div_le_one_div_of_le (by positivity)
  gcongr

theorem RF_mono {x y z x' y' z' : ℝ} (hx : 0 ≤ x) (hy : 0 < y) (hz : 0 < z)
    (h1 : x ≤ x') (h2 : y ≤ y') (h3 : z ≤ z') : RF x' y' z' ≤ RF x y z := by
  unfold RF
  apply mul_le_mul_of_nonneg_left _ (by norm_num)
  apply setIntegral_mono_on (rf_integrable (by linarith) (by linarith) (by linarith)) (rf_integrable hx hy hz) measurableSet_Ioi
  intro t ht
  have ht' : 0 < t := ht
  have := sqrt_pos.mpr (show 0 < t + x by positivity)
  have := sqrt_pos.mpr (show 0 < t + y by positivity)
  have := sqrt_pos.mpr (show 0 < t + z by positivity)
  apply one_div_le_one_div_of_le (by positivity)
  gcongr

theorem RJ_const {l : ℝ} (hl : 0 < l) : RJ l l l l = 1/(√l*l) := by
  rw [RJ_unit hl hl.le hl.le hl.le hl.le]
  simp only [div_self hl.ne', sub_self, zero_mul, sub_zero, mul_one, one_pow, sqrt_one, div_one]
  have : ∫ v in (0:ℝ)..1, 3*v^2 = 1 := by
    rw [intervalIntegral.integral_const_mul, integral_pow]; norm_num
  rw [this, mul_one]

theorem RF_const {l : ℝ} (hl : 0 < l) : RF l l l = 1/√l := by
  rw [RF_unit hl hl.le hl.le hl.le]
  simp only [div_self hl.ne', sub_self, zero_mul, sub_zero, mul_one, sqrt_one, div_one]
  simp

/-- `RJ` varies little when its arguments are nearly equal -/
theorem RJ_osc {x y z p x' y' z' p' b c d : ℝ} (hb : 0 < b) (hd : 0 ≤ d) (hbc : b ≤ c)
    (h : ∀ w ∈ [x, y, z, p, x', y', z', p'], b ≤ w ∧ |w - c| ≤ d) :
    |RJ x y z p - RJ x' y' z' p'| ≤ 4*d/(b^2*√b) := by
  simp only [List.mem_cons, List.not_mem_nil, or_false, forall_eq_or_imp, forall_eq, abs_le] at h
  obtain ⟨⟨a1, a2, a3⟩, ⟨b1, b2, b3⟩, ⟨c1, c2, c3⟩, ⟨d1, d2, d3⟩, ⟨e1, e2, e3⟩, ⟨f1, f2, f3⟩, ⟨g1, g2, g3⟩, ⟨i1, i2, i3⟩⟩ := h
  set l := max b (c - d) with hl
  set u := c + d with hu
  have hbl : b ≤ l := le_max_left _ _
  have hl0 : 0 < l := hb.trans_le hbl
  have hlu : l ≤ u := by rw [hl, hu]; apply max_le <;> linarith
  have hud : u - l ≤ 2*d := by
    have : c - d ≤ l := le_max_right _ _
    rw [hu]; linarith
  have hu0 : 0 < u := by linarith
  have up : ∀ {x y z p : ℝ}, b ≤ x → b ≤ y → b ≤ z → b ≤ p → c - d ≤ x → c - d ≤ y → c - d ≤ z → c - d ≤ p → RJ x y z p ≤ 1/(√l*l) := by
    intro x y z p h1 h2 h3 h4 g1 g2 g3 g4
    rw [← RJ_const hl0]
    exact RJ_mono hl0 hl0 hl0 hl0 (max_le h1 g1) (max_le h2 g2) (max_le h3 g3) (max_le h4 g4)
  have lo : ∀ {x y z p : ℝ}, b ≤ x → b ≤ y → b ≤ z → b ≤ p → x ≤ u → y ≤ u → z ≤ u → p ≤ u → 1/(√u*u) ≤ RJ x y z p := by
    intro x y z p h1 h2 h3 h4 g1 g2 g3 g4
    rw [← RJ_const hu0]
    exact RJ_mono (by linarith) (by linarith) (by linarith) (by linarith) g1 g2 g3 g4
  have u1 := up a1 b1 c1 d1 (by linarith) (by linarith) (by linarith) (by linarith)
  have u2 := up e1 f1 g1 i1 (by linarith) (by linarith) (by linarith) (by linarith)
  have l1 := lo a1 b1 c1 d1 (by linarith) (by linarith) (by linarith) (by linarith)
  have l2 := lo e1 f1 g1 i1 (by linarith) (by linarith) (by linarith) (by linarith)
  have hsl := sqrt_pos.mpr hl0
  have hsu := sqrt_pos.mpr hu0
  have hsb := sqrt_pos.mpr hb
  have key : 1/(√l*l) - 1/(√u*u) ≤ 4*d/(b^2*√b) := by
    have e1 : √u*√u = u := mul_self_sqrt hu0.le
    have e2 : √l*√l = l := mul_self_sqrt hl0.le
    have hsle : √l ≤ √u := sqrt_le_sqrt hlu
    have e3 : √u*u - √l*l ≤ 2*√u*(u - l) := by
      generalize √u = s at *
      generalize √l = r at *
      rw [← e1, ← e2]
      nlinarith [mul_nonneg (mul_nonneg hsl.le hsu.le) (sub_nonneg.mpr hsle), mul_nonneg (mul_nonneg hsu.le hsu.le) (sub_nonneg.mpr hsle), mul_nonneg (mul_nonneg hsl.le hsl.le) (sub_nonneg.mpr hsle)]
    have e4 : 1/(√l*l) - 1/(√u*u) = (√u*u - √l*l)/(√l*l*(√u*u)) := by field_simp
    rw [e4]
    calc (√u*u - √l*l)/(√l*l*(√u*u)) ≤ (2*√u*(2*d))/(√l*l*(√u*u)) := by
          gcongr
          exact e3.trans (by gcongr)
      _ = 4*d/(l*u*√l) := by field_simp; ring
      _ ≤ 4*d/(b^2*√b) := by
          rw [pow_two]
          have : √b ≤ √l := sqrt_le_sqrt hbl
          have : b ≤ u := by linarith
          gcongr
  rw [abs_le]; constructor <;> linarith
end Wiz
