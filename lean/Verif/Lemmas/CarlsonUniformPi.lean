import Verif.Lemmas.CarlsonUniformJ
import Verif.Props.CarlsonSchedule
import Verif.Props.EllipticIdentities
import Mathlib.Analysis.Real.Pi.Bounds

/-! Uniform error of the third-kind integral as computed by the Carlson loops, weighted as in the cylinder formula. -/
namespace Wiz
open Spec Real MeasureTheory Set Classical

/-- `Π(n,m) ≤ π/(2√(1-n)√(1-m))` -/
theorem ellPi_le {n m : ℝ} (hn : n < 1) (hm0 : 0 ≤ m) (hm : m < 1) : ellPi n m ≤ π/(2*√(1-n))*(1/√(1-m)) := by
  rw [← ellPi_modulus_zero n hn]
  unfold ellPi
  rw [← intervalIntegral.integral_mul_const]
  have cont : ∀ k : ℝ, k < 1 → Continuous fun t : ℝ => 1/((1 - n * sin t^2) * √(1 - k * sin t^2)) := fun k hk =>
    continuous_const.div (by fun_prop) fun t => by
      have h1 := delta_pos hn t
      have h2 := sqrt_pos.mpr (delta_pos hk t)
      positivity
  apply intervalIntegral.integral_mono_on (by positivity) ((cont m hm).intervalIntegrable _ _) (((cont 0 one_pos).mul continuous_const).intervalIntegrable _ _)
  intro t _
  have h1 := delta_pos hn t
  have h2 := delta_pos hm t
  have h3 : 1 - m ≤ 1 - m * sin t^2 := by
    have : sin t^2 ≤ 1 := by nlinarith [sin_sq_add_cos_sq t, sq_nonneg (cos t)]
    nlinarith
  have h4 : 0 < √(1-m) := sqrt_pos.mpr (by linarith)
  simp only [zero_mul, sub_zero, sqrt_one, mul_one]
  rw [← one_div_mul_one_div]
  exact mul_le_mul_of_nonneg_left (one_div_le_one_div_of_le h4 (sqrt_le_sqrt h3)) (by positivity)

theorem RJ_nonneg' {x y z p : ℝ} (hx : 0 < x) (hy : 0 < y) (hz : 0 < z) (hp : 0 < p) : 0 ≤ RJ x y z p := by
  unfold RJ
  apply mul_nonneg (by norm_num)
  apply setIntegral_nonneg measurableSet_Ioi
  intro t ht
  have ht' : 0 < t := ht
  have := sqrt_nonneg (t+x)
  positivity

theorem cu_low {w : ℝ} (hw : 0 < w) : ∀ k, w/4 ≤ (dupIter 0 (w^2) 1 (k+1)).1 := by
  have hw20 : 0 < w^2 := by positivity
  intro k
  have := (dupIter_lower' 0 (w^2) 1 le_rfl hw20.le zero_le_one k).1
  have hl : lam 0 (w^2) 1 = w := by
    unfold lam
    rw [zero_mul, zero_mul, sqrt_zero, mul_one, sqrt_sq hw.le]; ring
  rwa [hl] at this

theorem cu_shape (y p : ℝ) : ∀ k, (dupIter 0 y 1 k).2.1 = (dupIter 0 y 1 k).1 + ((4:ℝ)^k)⁻¹*y ∧
    (dupIter 0 y 1 k).2.2 = (dupIter 0 y 1 k).1 + ((4:ℝ)^k)⁻¹ ∧ dupP 0 y 1 p k = (dupIter 0 y 1 k).1 + ((4:ℝ)^k)⁻¹*p := by
  intro k
  obtain ⟨d1, d2, -⟩ := dupIter_diff 0 (y) 1 k
  have d3 := dupP_diff 0 (y) 1 p k
  rw [div_eq_mul_inv] at d1 d2 d3
  exact ⟨by linarith, by linarith, by linarith⟩

theorem cu_eps : ∀ k : ℕ, 0 < ((4:ℝ)^(k+1))⁻¹ ∧ ((4:ℝ)^(k+1))⁻¹ ≤ 1/4 := by
  intro k
  refine ⟨by positivity, ?_⟩
  rw [pow_succ, mul_inv, one_div]
  have : ((4:ℝ)^k)⁻¹ ≤ 1 := inv_le_one_of_one_le₀ (one_le_pow₀ (by norm_num))
  nlinarith

/-- the first-kind part -/
theorem cu_first {w : ℝ} (hw : 0 < w) (hw1 : w ≤ 1) (kf : ℕ) : w^2*|rfVal (dupIter 0 (w^2) 1 (kf+1)).1 (dupIter 0 (w^2) 1 (kf+1)).2.1 (dupIter 0 (w^2) 1 (kf+1)).2.2 - RF 0 (w^2) 1| ≤ 1/20 := by
  have hw20 : 0 < w^2 := by positivity
  have a1 := rfVal_upper hw hw1 (cu_low hw kf) (cu_eps kf).1 (cu_eps kf).2
  obtain ⟨s1, s2, -⟩ := cu_shape (w^2) 0 (kf+1)
  rw [← s1, ← s2] at a1
  obtain ⟨q1, q2, q3⟩ := dupIter_pos le_rfl hw20 one_pos (kf+1) (x := 0)
  have a2 := rfVal_ge_mean q1 q2.le q3.le (by positivity)
  have a3 := RF_ge_mean q1 q2 q3
  rw [RF_dupIter le_rfl hw20 one_pos] at a3
  have a4 := RF_near_mean hw hw1
  have a5 := dup_mean_anti le_rfl hw20.le zero_le_one (by linarith) kf (x := 0) (y := w^2) (z := 1)
  rw [dup_first hw.le] at a5
  simp only at a5
  have a6 : 1/√((1+3*w+w^2)/12) ≤ 1/√(((dupIter 0 (w^2) 1 (kf+1)).1 + (dupIter 0 (w^2) 1 (kf+1)).2.1 + (dupIter 0 (w^2) 1 (kf+1)).2.2)/3) := by
    apply one_div_le_one_div_of_le (sqrt_pos.mpr (by positivity))
    apply sqrt_le_sqrt
    linarith
  generalize rfVal (dupIter 0 (w^2) 1 (kf+1)).1 (dupIter 0 (w^2) 1 (kf+1)).2.1 (dupIter 0 (w^2) 1 (kf+1)).2.2 = v at *
  generalize 1/√(((dupIter 0 (w^2) 1 (kf+1)).1 + (dupIter 0 (w^2) 1 (kf+1)).2.1 + (dupIter 0 (w^2) 1 (kf+1)).2.2)/3) = q at *
  generalize RF 0 (w^2) 1 = F at *
  have a7 : w^2*(F - v) ≤ 1/20 := by
    have : F - v ≤ 1/(20*w^2) := by linarith
    calc w^2*(F - v) ≤ w^2*(1/(20*w^2)) := by gcongr
      _ = 1/20 := by field_simp
  have a8 : w^2*(v - F) ≤ 1/20 := by
    refine le_trans ?_ a1
    gcongr
  rw [show ∀ t : ℝ, w^2*|t| = |w^2*t| from fun t => by rw [abs_mul, abs_of_pos hw20], abs_le]
  constructor <;> nlinarith

/-- the tail of the third-kind part -/
theorem cu_tail {w p : ℝ} (hw : 0 < w) (hw1 : w ≤ 1) (hp0 : 0 < p) (hpw : p ≤ w^2) (kj : ℕ) :
    w^2*|((4:ℝ)^(kj+2))⁻¹*rjTail (dupIter 0 (w^2) 1 (kj+1)).1 (dupIter 0 (w^2) 1 (kj+1)).2.1 (dupIter 0 (w^2) 1 (kj+1)).2.2 (dupP 0 (w^2) 1 p (kj+1)) -
      ((4:ℝ)^(kj+2))⁻¹*RJ (dupIter 0 (w^2) 1 (kj+2)).1 (dupIter 0 (w^2) 1 (kj+2)).2.1 (dupIter 0 (w^2) 1 (kj+2)).2.2 (dupP 0 (w^2) 1 p (kj+2))| ≤ 59/100  ∧
    0 ≤ RJ (dupIter 0 (w^2) 1 (kj+2)).1 (dupIter 0 (w^2) 1 (kj+2)).2.1 (dupIter 0 (w^2) 1 (kj+2)).2.2 (dupP 0 (w^2) 1 p (kj+2)) := by
  have hw20 : 0 < w^2 := by positivity
  have hw21 : w^2 ≤ 1 := by nlinarith
  obtain ⟨s1, s2, s3⟩ := cu_shape (w^2) p (kj+1)
  obtain ⟨t1, t2⟩ := rjTail_upper hw hw1 hp0 hpw (cu_low hw kj) (cu_eps kj).1 (cu_eps kj).2
  rw [← s1, ← s2, ← s3] at t1 t2
  have h4e : ((4:ℝ)^(kj+1))⁻¹/4 = ((4:ℝ)^(kj+2))⁻¹ := by rw [pow_succ _ (kj+1), mul_inv]; ring
  have hJ0 : 0 ≤ RJ (dupIter 0 (w^2) 1 (kj+2)).1 (dupIter 0 (w^2) 1 (kj+2)).2.1 (dupIter 0 (w^2) 1 (kj+2)).2.2 (dupP 0 (w^2) 1 p (kj+2)) := by
    obtain ⟨q1, q2, q3⟩ := dupIter_pos le_rfl hw20 one_pos (kj+2) (x := 0)
    exact RJ_nonneg' (lt_of_lt_of_le (by positivity) (cu_low hw (kj+1))) q2 q3 (dupP_pos 0 _ 1 p hp0 _)
  have hJ1 : w^2*(((4:ℝ)^(kj+2))⁻¹*RJ (dupIter 0 (w^2) 1 (kj+2)).1 (dupIter 0 (w^2) 1 (kj+2)).2.1 (dupIter 0 (w^2) 1 (kj+2)).2.2 (dupP 0 (w^2) 1 p (kj+2))) ≤ 59/100 := by
    obtain ⟨o1, o2, o3⟩ := dup_order hp0.le hpw hw21 (kj+2)
    have hl := cu_low hw (kj+1)
    have hw4 : 0 < w/4 := by positivity
    have := RJ_mono hw4 hw4 hw4 hw4 hl (hl.trans (o1.trans o2)) (hl.trans (o1.trans (o2.trans o3))) (hl.trans o1)
    rw [RJ_const hw4] at this
    have he : ((4:ℝ)^(kj+2))⁻¹ ≤ 1/16 := by rw [← h4e]; linarith [(cu_eps kj).2]
    have he0 : 0 ≤ ((4:ℝ)^(kj+2))⁻¹ := by positivity
    have hsw : w/2 ≤ √(w/4) := by
      apply le_sqrt_of_sq_le
      nlinarith
    calc w^2*(((4:ℝ)^(kj+2))⁻¹*RJ (dupIter 0 (w^2) 1 (kj+2)).1 (dupIter 0 (w^2) 1 (kj+2)).2.1 (dupIter 0 (w^2) 1 (kj+2)).2.2 (dupP 0 (w^2) 1 p (kj+2)))
        ≤ w^2*(1/16*(1/(√(w/4)*(w/4)))) := by gcongr
      _ ≤ w^2*(1/16*(1/(w/2*(w/4)))) := by gcongr
      _ = 1/2 := by field_simp; norm_num
      _ ≤ 59/100 := by norm_num
  refine ⟨?_, hJ0⟩
  rw [h4e] at t1
  have he0 : 0 ≤ ((4:ℝ)^(kj+2))⁻¹ := by positivity
  have b1 := mul_nonneg he0 t2
  have b2 := mul_nonneg he0 hJ0
  generalize ((4:ℝ)^(kj+2))⁻¹*rjTail (dupIter 0 (w^2) 1 (kj+1)).1 (dupIter 0 (w^2) 1 (kj+1)).2.1 (dupIter 0 (w^2) 1 (kj+1)).2.2 (dupP 0 (w^2) 1 p (kj+1)) = S at *
  generalize ((4:ℝ)^(kj+2))⁻¹*RJ (dupIter 0 (w^2) 1 (kj+2)).1 (dupIter 0 (w^2) 1 (kj+2)).2.1 (dupIter 0 (w^2) 1 (kj+2)).2.2 (dupP 0 (w^2) 1 p (kj+2)) = J at *
  rw [show ∀ t : ℝ, w^2*|t| = |w^2*t| from fun t => by rw [abs_mul, abs_of_pos hw20], abs_le]
  constructor <;> nlinarith

/-- the weights -/
theorem cu_weight {w p n m : ℝ} (hw : 0 < w) (hw2 : w^2 = 1 - m) (hp : p = 1 - n) (hp0 : 0 < p) (hpw : p ≤ w^2) (hm0 : 0 ≤ m) (hmn : m ≤ n) (hn : n < 1) :
    √(p*((n-m)/n)) ≤ √p*w ∧ √p*w ≤ w^2 ∧ √(p*((n-m)/n))*n ≤ w^2/2 := by
  have hn0 : 0 ≤ n := by linarith
  have wq : √(p*((n-m)/n)) ≤ √p*w := by
    rw [sqrt_mul hp0.le]
    have : √((n-m)/n) ≤ w := by
      rw [sqrt_le_left hw.le, hw2]
      rcases eq_or_lt_of_le hn0 with h0 | h0
      · rw [← h0, div_zero]; linarith
      · rw [div_le_iff₀ h0]; nlinarith
    gcongr
  have wq2 : √p*w ≤ w^2 := by
    have : √p ≤ w := by rw [sqrt_le_left hw.le]; exact hpw
    nlinarith
  have wq3 : √(p*((n-m)/n))*n ≤ w^2/2 := by
    have e : √(p*((n-m)/n))*n = √(p*(n-m)*n) := by
      rcases eq_or_lt_of_le hn0 with h0 | h0
      · rw [← h0]; simp
      · rw [show p*(n-m)*n = p*((n-m)/n)*n^2 by field_simp, sqrt_mul (mul_nonneg hp0.le (div_nonneg (by linarith) hn0)), sqrt_sq hn0]
    rw [e, sqrt_le_left (by positivity)]
    have e2 : n - m = w^2 - p := by rw [hw2, hp]; ring
    rw [e2]
    have : p*(w^2-p) ≤ (w^2/2)^2 := by nlinarith [sq_nonneg (w^2/2 - p)]
    have h3 : 0 ≤ p*(w^2-p) := mul_nonneg hp0.le (by linarith)
    nlinarith
  exact ⟨wq, wq2, wq3⟩

/-- the weighted error of the third-kind value when every loop makes at least two passes -/
theorem pi_weighted {n m : ℝ} (hm0 : 0 ≤ m) (hmn : m ≤ n) (hn : n < 1) (kF kJ : ℕ) (kC : ℕ → ℕ) (hF : 2 ≤ kF) (hJ : 2 ≤ kJ)
    (hC : ∀ j < kJ, 2 ≤ kC j) :
    √((1-n)*((n-m)/n)) * |rfVal (dupIter 0 (1-m) 1 (kF-1)).1 (dupIter 0 (1-m) 1 (kF-1)).2.1 (dupIter 0 (1-m) 1 (kF-1)).2.2 +
      1/3 * n * (rjAcc kC (1-m) (1-n) kJ + ((4:ℝ)^kJ)⁻¹ *
         rjTail (dupIter 0 (1-m) 1 (kJ-1)).1 (dupIter 0 (1-m) 1 (kJ-1)).2.1 (dupIter 0 (1-m) 1 (kJ-1)).2.2 (dupP 0 (1-m) 1 (1-n) (kJ-1))) -
      ellPi n m| ≤ 188/1000 := by
  have hm : m < 1 := by linarith
  have hPi := ellPi_le hn hm0 hm
  have hPe := ellPi_eq n m hn hm
  obtain ⟨w, hwd⟩ : ∃ w, w = √(1-m) := ⟨_, rfl⟩
  have hw : 0 < w := by rw [hwd]; exact sqrt_pos.mpr (by linarith)
  have hw2 : w^2 = 1 - m := by rw [hwd, sq_sqrt (by linarith)]
  have hw1 : w ≤ 1 := by
    have : w^2 ≤ 1^2 := by rw [hw2]; linarith
    exact (pow_le_pow_iff_left₀ hw.le zero_le_one two_ne_zero).mp this
  rw [← hwd] at hPi
  obtain ⟨p, hp⟩ : ∃ p, p = 1 - n := ⟨_, rfl⟩
  have hp0 : 0 < p := by rw [hp]; linarith
  have hpw : p ≤ w^2 := by rw [hw2, hp]; linarith
  rw [← hw2, ← hp] at hPe ⊢
  rw [← hp] at hPi
  have hw21 : w^2 ≤ 1 := by rw [hw2]; linarith
  have hw20 : 0 < w^2 := by positivity
  -- first kind
  obtain ⟨kf, rfl⟩ : ∃ kf, kF = kf + 2 := ⟨kF - 2, by omega⟩
  obtain ⟨kj, rfl⟩ : ∃ kj, kJ = kj + 2 := ⟨kJ - 2, by omega⟩
  have hFe := cu_first hw hw1 kf
  have hTel := rj_telescope hw20 hp0 (kj+2)
  have hAcc := rjAcc_rel hp0 hpw hw21 kC (kj+2) hC (kj+2) le_rfl
  obtain ⟨hTailE, hJ0⟩ := cu_tail hw hw1 hp0 hpw kj
  -- assemble
  have hn0 : 0 ≤ n := by linarith
  have hRF0 : 0 ≤ RF 0 (w^2) 1 := by
    have := RF_ge_mean le_rfl hw20 one_pos (x := 0)
    refine le_trans ?_ this
    positivity
  have hmean : rjExact (w^2) p (kj+2) ≤ RJ 0 (w^2) 1 p := by
    have he0 : 0 ≤ ((4:ℝ)^(kj+2))⁻¹ := by positivity
    have := mul_nonneg he0 hJ0
    linarith
  obtain ⟨wq, wq2, wq3⟩ := cu_weight hw hw2 hp hp0 hpw hm0 hmn hn
  have hq0 : 0 ≤ √(p*((n-m)/n)) := sqrt_nonneg _
  have hsp : 0 < √p := sqrt_pos.mpr hp0
  have accE : √(p*((n-m)/n))*(1/3*n*|rjAcc kC (w^2) p (kj+2) - rjExact (w^2) p (kj+2)|) ≤ π/80 := by
    have h1 : 1/3*n*|rjAcc kC (w^2) p (kj+2) - rjExact (w^2) p (kj+2)| ≤ (π/(2*√p)*(1/w))/40 := by
      have : 1/3*n*RJ 0 (w^2) 1 p ≤ π/(2*√p)*(1/w) := by linarith
      calc 1/3*n*|rjAcc kC (w^2) p (kj+2) - rjExact (w^2) p (kj+2)| ≤ 1/3*n*(RJ 0 (w^2) 1 p/40) := by
            gcongr
            linarith
        _ = (1/3*n*RJ 0 (w^2) 1 p)/40 := by ring
        _ ≤ _ := by gcongr
    calc √(p*((n-m)/n))*(1/3*n*|rjAcc kC (w^2) p (kj+2) - rjExact (w^2) p (kj+2)|) ≤ (√p*w)*((π/(2*√p)*(1/w))/40) := by
          apply mul_le_mul wq h1 (by positivity) (by positivity)
      _ = π/80 := by field_simp; norm_num
  have tailE : √(p*((n-m)/n))*(1/3*n*|((4:ℝ)^(kj+2))⁻¹*rjTail (dupIter 0 (w^2) 1 (kj+1)).1 (dupIter 0 (w^2) 1 (kj+1)).2.1 (dupIter 0 (w^2) 1 (kj+1)).2.2 (dupP 0 (w^2) 1 p (kj+1)) -
      ((4:ℝ)^(kj+2))⁻¹*RJ (dupIter 0 (w^2) 1 (kj+2)).1 (dupIter 0 (w^2) 1 (kj+2)).2.1 (dupIter 0 (w^2) 1 (kj+2)).2.2 (dupP 0 (w^2) 1 p (kj+2))|) ≤ 59/600 := by
    have hD := abs_nonneg (((4:ℝ)^(kj+2))⁻¹*rjTail (dupIter 0 (w^2) 1 (kj+1)).1 (dupIter 0 (w^2) 1 (kj+1)).2.1 (dupIter 0 (w^2) 1 (kj+1)).2.2 (dupP 0 (w^2) 1 p (kj+1)) -
      ((4:ℝ)^(kj+2))⁻¹*RJ (dupIter 0 (w^2) 1 (kj+2)).1 (dupIter 0 (w^2) 1 (kj+2)).2.1 (dupIter 0 (w^2) 1 (kj+2)).2.2 (dupP 0 (w^2) 1 p (kj+2)))
    generalize |((4:ℝ)^(kj+2))⁻¹*rjTail (dupIter 0 (w^2) 1 (kj+1)).1 (dupIter 0 (w^2) 1 (kj+1)).2.1 (dupIter 0 (w^2) 1 (kj+1)).2.2 (dupP 0 (w^2) 1 p (kj+1)) -
      ((4:ℝ)^(kj+2))⁻¹*RJ (dupIter 0 (w^2) 1 (kj+2)).1 (dupIter 0 (w^2) 1 (kj+2)).2.1 (dupIter 0 (w^2) 1 (kj+2)).2.2 (dupP 0 (w^2) 1 p (kj+2))| = D at *
    calc √(p*((n-m)/n))*(1/3*n*D) = 1/3*(√(p*((n-m)/n))*n)*D := by ring
      _ ≤ 1/3*(w^2/2)*D := by gcongr
      _ = 1/6*(w^2*D) := by ring
      _ ≤ 1/6*(59/100) := by gcongr
      _ = _ := by norm_num
  have fE : √(p*((n-m)/n))*|rfVal (dupIter 0 (w^2) 1 (kf+1)).1 (dupIter 0 (w^2) 1 (kf+1)).2.1 (dupIter 0 (w^2) 1 (kf+1)).2.2 - RF 0 (w^2) 1| ≤ 1/20 := by
    refine le_trans ?_ hFe
    gcongr
    exact wq.trans wq2
  rw [hPe, hTel]
  simp only [show kf + 2 - 1 = kf + 1 by omega, show kj + 2 - 1 = kj + 1 by omega]
  generalize ((4:ℝ)^(kj+2))⁻¹*rjTail (dupIter 0 (w^2) 1 (kj+1)).1 (dupIter 0 (w^2) 1 (kj+1)).2.1 (dupIter 0 (w^2) 1 (kj+1)).2.2 (dupP 0 (w^2) 1 p (kj+1)) = S at *
  generalize ((4:ℝ)^(kj+2))⁻¹*RJ (dupIter 0 (w^2) 1 (kj+2)).1 (dupIter 0 (w^2) 1 (kj+2)).2.1 (dupIter 0 (w^2) 1 (kj+2)).2.2 (dupP 0 (w^2) 1 p (kj+2)) = J at *
  generalize rfVal (dupIter 0 (w^2) 1 (kf+1)).1 (dupIter 0 (w^2) 1 (kf+1)).2.1 (dupIter 0 (w^2) 1 (kf+1)).2.2 = v at *
  generalize rjAcc kC (w^2) p (kj+2) = ac at *
  generalize rjExact (w^2) p (kj+2) = ex at *
  generalize RF 0 (w^2) 1 = F at *
  generalize √(p*((n-m)/n)) = q at *
  have hpi := pi_lt_d2
  have tri : |v + 1/3*n*(ac + S) - (F + 1/3*n*(ex + J))| ≤ |v - F| + 1/3*n*|ac - ex| + 1/3*n*|S - J| := by
    have e : v + 1/3*n*(ac + S) - (F + 1/3*n*(ex + J)) = (v - F) + 1/3*n*(ac - ex) + 1/3*n*(S - J) := by ring
    rw [e]
    refine (abs_add_three _ _ _).trans ?_
    rw [abs_mul, abs_mul (1/3*n), abs_of_nonneg (by positivity : 0 ≤ 1/3*n)]
  calc q*|v + 1/3*n*(ac + S) - (F + 1/3*n*(ex + J))| ≤ q*(|v - F| + 1/3*n*|ac - ex| + 1/3*n*|S - J|) := by gcongr
    _ = q*|v - F| + q*(1/3*n*|ac - ex|) + q*(1/3*n*|S - J|) := by ring
    _ ≤ 1/20 + π/80 + 59/600 := by linarith
    _ ≤ 188/1000 := by norm_num at hpi ⊢; linarith
end Wiz
