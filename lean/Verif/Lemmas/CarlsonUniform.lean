import Verif.Props.CarlsonStop
import Verif.Lemmas.CarlsonUniformPoly

/-! Error of the first-kind and degenerate Carlson sums after two passes, whatever made the loops stop. -/
namespace Wiz
open Spec Real MeasureTheory Set

theorem amgm3 {a b c : ℝ} (ha : 0 ≤ a) (hb : 0 ≤ b) (hc : 0 ≤ c) : 27*(a*b*c) ≤ (a+b+c)^3 := by
  have h1 := mul_nonneg ha (sq_nonneg (b-c))
  have h2 := mul_nonneg hb (sq_nonneg (a-c))
  have h3 := mul_nonneg hc (sq_nonneg (a-b))
  have h4 := mul_nonneg (add_nonneg (add_nonneg ha hb) hc) (add_nonneg (add_nonneg (sq_nonneg (a-b)) (sq_nonneg (b-c))) (sq_nonneg (a-c)))
  nlinarith

/-- `RF` is at least the inverse square root of the arithmetic mean -/
theorem RF_ge_mean {x y z : ℝ} (hx : 0 ≤ x) (hy : 0 < y) (hz : 0 < z) : 1/√((x+y+z)/3) ≤ RF x y z := by
  have hA : 0 < (x+y+z)/3 := by positivity
  rw [← RF_const hA]
  unfold RF
  apply mul_le_mul_of_nonneg_left _ (by norm_num)
  apply setIntegral_mono_on (rf_integrable hA.le hA hA) (rf_integrable hx hy hz) measurableSet_Ioi
  intro t ht
  have ht' : 0 < t := ht
  have := sqrt_pos.mpr (show 0 < t + x by positivity)
  have := sqrt_pos.mpr (show 0 < t + y by positivity)
  have := sqrt_pos.mpr (show 0 < t + z by positivity)
  apply one_div_le_one_div_of_le (by positivity)
  rw [← sqrt_mul (by positivity), ← sqrt_mul (by positivity), ← sqrt_mul (by positivity), ← sqrt_mul (by positivity)]
  apply sqrt_le_sqrt
  have := amgm3 (show 0 ≤ t + x by positivity) (show 0 ≤ t + y by positivity) (show 0 ≤ t + z by positivity)
  nlinarith

/-- `RF` is at most the inverse square root of the geometric mean -/
theorem RF_le_geom' {x y z g : ℝ} (hx : 0 < x) (hy : 0 < y) (hz : 0 < z) (hg : 0 < g) (h : g^3 ≤ x*y*z) : RF x y z ≤ 1/√g := by
  refine RF_le_geom hx hy hz hg ?_ ?_ h
  · by_contra hc
    push Not at hc
    have h1 : (x+y+z)^3 < (3*g)^3 := pow_lt_pow_left₀ hc (by positivity) (by norm_num)
    have := amgm3 hx.le hy.le hz.le
    nlinarith
  · by_contra hc
    push Not at hc
    have h1 : (x*y+y*z+z*x)^3 < (3*g^2)^3 := pow_lt_pow_left₀ hc (by positivity) (by norm_num)
    have h2 := amgm3 (mul_pos hx hy).le (mul_pos hy hz).le (mul_pos hz hx).le
    have h3 : (g^3)^2 ≤ (x*y*z)^2 := pow_le_pow_left₀ (by positivity) h 2
    nlinarith

/-- the series factor of the first-kind sum is at least one -/
theorem rfS_ge_one {x y z : ℝ} (hx : 0 ≤ x) (hy : 0 ≤ y) (hz : 0 ≤ z) (h : 0 < x + y + z) : 1 ≤ rfS x y z := by
  unfold rfS
  simp only
  have hA : 0 < (x+y+z)/3 := by positivity
  have hsum : (1 - x/((x+y+z)/3)) + (1 - y/((x+y+z)/3)) + (1 - z/((x+y+z)/3)) = 0 := by field_simp; ring
  have p1 : 0 ≤ x/((x+y+z)/3) := by positivity
  have p2 : 0 ≤ y/((x+y+z)/3) := by positivity
  have p3 : 0 ≤ z/((x+y+z)/3) := by positivity
  generalize x/((x+y+z)/3) = a at *
  generalize y/((x+y+z)/3) = b at *
  generalize z/((x+y+z)/3) = c at *
  have ham := amgm3 p1 p2 p3
  have h3 : a + b + c = 3 := by linarith
  rw [h3] at ham
  have hs1 : 0 ≤ ((1-a)^2 + (1-b)^2 + (1-c)^2)/4 := by positivity
  have hs12 : 0 ≤ ((1-a)^2 + (1-b)^2 + (1-c)^2)/4 + ((1-a)^2*(1-a) + (1-b)^2*(1-b) + (1-c)^2*(1-c))/6 := by
    have hc : c = 3 - a - b := by linarith
    subst hc
    nlinarith
  generalize ((1-a)^2 + (1-b)^2 + (1-c)^2)/4 = s at *
  generalize ((1-a)^2*(1-a) + (1-b)^2*(1-b) + (1-c)^2*(1-c))/6 = q at *
  have h1 : 0 ≤ s/5 + q/7 := by linarith
  have h2 : 0 ≤ s^2/6 + 3/11*s*q + 3/26*q^2 := by nlinarith [sq_nonneg (s + 9/11*q), sq_nonneg q]
  have h4 : 0 ≤ 5/26*(s^2*s) := by positivity
  linarith

/-- the first-kind sum is at least the inverse square root of the mean -/
theorem rfVal_ge_mean {x y z : ℝ} (hx : 0 ≤ x) (hy : 0 ≤ y) (hz : 0 ≤ z) (h : 0 < x + y + z) : 1/√((x+y+z)/3) ≤ rfVal x y z := by
  rw [rfVal_eq h]
  have := rfS_ge_one hx hy hz h
  gcongr

/-- the mean of the arguments does not increase -/
theorem dup_mean_anti {x y z : ℝ} (hx : 0 ≤ x) (hy : 0 ≤ y) (hz : 0 ≤ z) (hs : 0 < x + y + z) (k : ℕ) :
    (dupIter x y z (k+1)).1 + (dupIter x y z (k+1)).2.1 + (dupIter x y z (k+1)).2.2 ≤
    (dupIter x y z 1).1 + (dupIter x y z 1).2.1 + (dupIter x y z 1).2.2 := by
  induction k with
  | zero => exact le_rfl
  | succ k ih =>
    refine le_trans ?_ ih
    obtain ⟨a, b, c, -⟩ := dupIter_nonneg x y z hx hy hz hs (k+1)
    rw [dupIter]
    simp only
    generalize (dupIter x y z (k+1)).1 = X at *
    generalize (dupIter x y z (k+1)).2.1 = Y at *
    generalize (dupIter x y z (k+1)).2.2 = Z at *
    have am : ∀ p q : ℝ, 0 ≤ p → 0 ≤ q → √(p*q) ≤ (p+q)/2 := by
      intro p q hp hq
      rw [sqrt_le_left (by positivity)]
      nlinarith [sq_nonneg (p-q)]
    have h1 := am X Y a b
    have h2 := am X Z a c
    have h3 := am Y Z b c
    unfold lam
    linarith

/-- the arguments after one duplication from `(0,w²,1)` -/
theorem dup_first {w : ℝ} (hw : 0 ≤ w) : dupIter 0 (w^2) 1 1 = (w/4, (w^2 + w)/4, (1 + w)/4) := by
  have : lam 0 (w^2) 1 = w := by
    unfold lam
    rw [zero_mul, zero_mul, sqrt_zero, mul_one, sqrt_sq hw]; ring
  simp only [dupIter, this, zero_add]

/-- the complete integral is at most a little above the inverse square root of the first mean -/
theorem RF_near_mean {w : ℝ} (hw : 0 < w) (hw1 : w ≤ 1) : RF 0 (w^2) 1 ≤ 1/√((1+3*w+w^2)/12) + 1/(20*w^2) := by
  have e := RF_dupIter (x := 0) (y := w^2) (z := 1) le_rfl (by positivity) one_pos 1
  rw [dup_first hw.le] at e
  simp only at e
  rw [← e]
  have hN : 0 < 1 + 3*w + w^2 := by positivity
  have hA : 0 < √((1+3*w+w^2)/12) := sqrt_pos.mpr (by positivity)
  have main : 8 ≤ w*(1+w)*(1/√((1+3*w+w^2)/12) + 1/(20*w^2))^3 := by
    rcases le_total w (3/4) with h | h
    · have hk : 12/((1+3*w+w^2)+3) ≤ 1/√((1+3*w+w^2)/12) := by
        rw [div_le_div_iff₀ (by positivity) hA, one_mul]
        have : √((1+3*w+w^2)/12) ≤ ((1+3*w+w^2)+3)/12 := by
          rw [sqrt_le_left (by positivity)]
          nlinarith [sq_nonneg (1+3*w+w^2-3)]
        linarith
      have hg := cu_g_small hw.le h
      have hD : 0 < (1+3*w+w^2)+3 := by positivity
      have e1 : 12/((1+3*w+w^2)+3) + 1/(20*w^2) = (1/20*((1+3*w+w^2)+3) + 12*w^2)/(w^2*((1+3*w+w^2)+3)) := by
        generalize (1+3*w+w^2)+3 = D at *
        field_simp
        ring
      have : 8 ≤ w*(1+w)*(12/((1+3*w+w^2)+3) + 1/(20*w^2))^3 := by
        rw [e1, div_pow, ← mul_div_assoc, le_div_iff₀ (by positivity)]
        have := mul_le_mul_of_nonneg_left hg hw.le
        generalize (1+3*w+w^2)+3 = D at *
        nlinarith
      refine this.trans ?_
      gcongr
    · have hk : 48/(3*(1+3*w+w^2)+16) ≤ 1/√((1+3*w+w^2)/12) := by
        rw [div_le_div_iff₀ (by positivity) hA, one_mul]
        have : √((1+3*w+w^2)/12) ≤ (3*(1+3*w+w^2)+16)/48 := by
          rw [sqrt_le_left (by positivity)]
          nlinarith [sq_nonneg (3*(1+3*w+w^2)-16)]
        linarith
      have hg := cu_g_large h hw1
      have hD : 0 < 3*(1+3*w+w^2)+16 := by positivity
      have e1 : 48/(3*(1+3*w+w^2)+16) + 1/(20*w^2) = (1/20*(3*(1+3*w+w^2)+16) + 48*w^2)/(w^2*(3*(1+3*w+w^2)+16)) := by
        generalize 3*(1+3*w+w^2)+16 = D at *
        field_simp
        ring
      have : 8 ≤ w*(1+w)*(48/(3*(1+3*w+w^2)+16) + 1/(20*w^2))^3 := by
        rw [e1, div_pow, ← mul_div_assoc, le_div_iff₀ (by positivity)]
        have := mul_le_mul_of_nonneg_left hg hw.le
        generalize 3*(1+3*w+w^2)+16 = D at *
        nlinarith
      refine this.trans ?_
      gcongr
  have hK : 0 < 1/√((1+3*w+w^2)/12) + 1/(20*w^2) := by positivity
  generalize 1/√((1+3*w+w^2)/12) + 1/(20*w^2) = K at *
  have hr : √(1/K^2) = 1/K := by
    rw [show 1/K^2 = (1/K)^2 by rw [div_pow, one_pow], sqrt_sq (by positivity)]
  have := RF_le_geom' (x := w/4) (y := (w^2+w)/4) (z := (1+w)/4) (g := 1/K^2) (by positivity) (by positivity) (by positivity) (by positivity) (by
    rw [div_pow, one_pow, div_le_iff₀ (by positivity)]
    have h2 : (8:ℝ)^2 ≤ (w*(1+w)*K^3)^2 := pow_le_pow_left₀ (by norm_num) main 2
    nlinarith)
  rw [hr, one_div_one_div] at this
  exact this

theorem rfS_upper {y x e A h : ℝ} (hA : A = (x + (x + e*y) + (x+e))/3) (hA0 : 0 < A) (hh : h = e/A) (hh0 : 0 < h)
    (hy0 : 0 ≤ y) (hw2 : y ≤ 1) :
    rfS x (x + e*y) (x + e) ≤ 1 + (h^2/30 + h^3/189 + h^4/216 + 1/594*h^5 + (5/5616 + 3*4/(104*729))*h^6) := by
  have hAx : A = x + e*(1+y)/3 := by rw [hA]; ring
  unfold rfS
  simp only
  rw [← hA]
  have e1 : 1 - x/A = (1 + y)/3*h := by rw [hh]; field_simp; rw [hAx]; ring
  have e2 : 1 - (x + e*y)/A = (1 - 2*y)/3*h := by rw [hh]; field_simp; rw [hAx]; ring
  have e3 : 1 - (x + e)/A = -((2 - y)/3*h) := by rw [hh]; field_simp; rw [hAx]; ring
  rw [e1, e2, e3]
  have s1 : ((((1 + y)/3*h))^2 + ((1 - 2*y)/3*h)^2 + (-((2 - y)/3*h))^2)/4 ≤ h^2/6 := by
    have : ((((1 + y)/3*h))^2 + ((1 - 2*y)/3*h)^2 + (-((2 - y)/3*h))^2)/4 = h^2/6*(1 - y*(1-y)) := by ring
    rw [this]
    have : 0 ≤ y*(1-y) := mul_nonneg hy0 (by linarith)
    have h2 : 0 ≤ h^2/6 := by positivity
    nlinarith
  have s10 : 0 ≤ ((((1 + y)/3*h))^2 + ((1 - 2*y)/3*h)^2 + (-((2 - y)/3*h))^2)/4 := by positivity
  have s2e : ((((1 + y)/3*h))^2*((1 + y)/3*h) + ((1 - 2*y)/3*h)^2*((1 - 2*y)/3*h) + (-((2 - y)/3*h))^2*(-((2 - y)/3*h)))/6 =
      h^3/27*(-(1-2*y)*(2-y)*(1+y)/2) := by ring
  have c1 : -(1-2*y)*(2-y)*(1+y)/2 ≤ 1 := by nlinarith [mul_nonneg hy0 hy0, mul_nonneg hy0 (show 0 ≤ 1 - y by linarith)]
  have c2 : -1 ≤ -(1-2*y)*(2-y)*(1+y)/2 := by nlinarith [mul_nonneg hy0 hy0, mul_nonneg hy0 (show 0 ≤ 1 - y by linarith)]
  rw [s2e]
  generalize -(1-2*y)*(2-y)*(1+y)/2 = c at *
  generalize ((((1 + y)/3*h))^2 + ((1 - 2*y)/3*h)^2 + (-((2 - y)/3*h))^2)/4 = s at *
  have h3 : 0 < h^3/27 := by positivity
  have q1 : h^3/27*c ≤ h^3/27 := by nlinarith
  have q2 : (h^3/27*c)^2 ≤ (h^3/27)^2 := by
    rw [mul_pow]
    have : c^2 ≤ 1 := by nlinarith
    nlinarith [sq_nonneg (h^3/27)]
  have t1 : s^2 ≤ (h^2/6)^2 := pow_le_pow_left₀ s10 s1 2
  have t2 : s^2*s ≤ (h^2/6)^2*(h^2/6) := mul_le_mul t1 s1 s10 (by positivity)
  have t3 : s*(h^3/27*c) ≤ h^2/6*(h^3/27) := by
    calc s*(h^3/27*c) ≤ s*(h^3/27) := mul_le_mul_of_nonneg_left q1 s10
      _ ≤ _ := mul_le_mul_of_nonneg_right s1 h3.le
  have e4 : 3/11*s*(h^3/27*c) = 3/11*(s*(h^3/27*c)) := by ring
  rw [e4]
  have t4 : (h^2/6)^2 = h^4/36 := by ring
  have t5 : (h^2/6)^2*(h^2/6) = h^6/216 := by ring
  have t6 : (h^3/27)^2 = h^6/729 := by ring
  have t7 : h^2/6*(h^3/27) = h^5/162 := by ring
  rw [t4] at t1
  rw [t5] at t2
  rw [t6] at q2
  rw [t7] at t3
  generalize h^3/27*c = q at *
  linarith

/-- the first-kind sum is at most a little above the inverse square root of the mean -/
theorem rfVal_upper {w x e : ℝ} (hw : 0 < w) (hw1 : w ≤ 1) (hx : w/4 ≤ x) (he : 0 < e) (he1 : e ≤ 1/4) :
    w^2*(rfVal x (x + e*w^2) (x + e) - 1/√((x + (x + e*w^2) + (x+e))/3)) ≤ 1/20 := by
  have hx0 : 0 < x := by linarith
  rw [rfVal_eq (by positivity)]
  obtain ⟨A, hA⟩ : ∃ A, A = (x + (x + e*w^2) + (x+e))/3 := ⟨_, rfl⟩
  have hA0 : 0 < A := by rw [hA]; positivity
  have hAx : A = x + e*(1+w^2)/3 := by rw [hA]; ring
  have hAw : w/4 + e/3 ≤ A := by rw [hAx]; nlinarith [mul_pos he (pow_pos hw 2)]
  obtain ⟨h, hh⟩ : ∃ h, h = e/A := ⟨_, rfl⟩
  have hhA : h*A = e := by rw [hh]; field_simp
  have hh0 : 0 < h := by rw [hh]; positivity
  have hw2 : w^2 ≤ 1 := by nlinarith
  have hS := rfS_upper hA hA0 hh hh0 (by positivity : 0 ≤ w^2) hw2
  have hf0 : 0 ≤ h^2/30 + h^3/189 + h^4/216 + 1/594*h^5 + (5/5616 + 3*4/(104*729))*h^6 := by positivity
  rw [← hA, ← sub_div, ← mul_div_assoc, div_le_iff₀ (sqrt_pos.mpr hA0)]
  have hS' : rfS x (x + e*w^2) (x + e) - 1 ≤ h^2/30 + h^3/189 + h^4/216 + 1/594*h^5 + (5/5616 + 3*4/(104*729))*h^6 := by linarith
  refine (mul_le_mul_of_nonneg_left hS' (by positivity)).trans ?_
  have hsA0 : 0 < √A := sqrt_pos.mpr hA0
  rcases le_total h (3/4) with hc | hc
  · have h1 := cu_f_small hh0.le hc
    have h2 : w/2 ≤ √A := by
      apply le_sqrt_of_sq_le
      nlinarith
    have h3 : w^2 ≤ w := by nlinarith
    calc w^2*(h^2/30 + h^3/189 + h^4/216 + 1/594*h^5 + (5/5616 + 3*4/(104*729))*h^6) ≤ w*(1/40) :=
          mul_le_mul h3 h1 hf0 hw.le
      _ ≤ 1/20*√A := by linarith
  · have hg0 : w ≤ 4*A*(1 - h/3) := by
      have : 4*A*(1 - h/3) = 4*(A - e/3) := by rw [← hhA]; ring
      rw [this]; linarith
    have hg : 0 < 1 - h/3 := by
      by_contra hcon
      push Not at hcon
      nlinarith
    have h3 : h ≤ 3 := by linarith
    have h1 := cu_f_large hc h3
    have hwh : w*h ≤ 1 - h/3 := by
      have : 4*A*h ≤ 1 := by nlinarith
      calc w*h ≤ 4*A*(1-h/3)*h := by gcongr
        _ = (4*A*h)*(1 - h/3) := by ring
        _ ≤ 1*(1-h/3) := by gcongr
        _ = _ := one_mul _
    have hd : 0 < 3/2*h - 1/2 := by linarith
    have key : w^2*(3/2*h - 1/2) ≤ 2*(1-h/3)^2*√A := by
      refine (pow_le_pow_iff_left₀ (mul_nonneg (by positivity) hd.le) (by positivity) two_ne_zero).mp ?_
      rw [mul_pow (2*(1-h/3)^2), sq_sqrt hA0.le]
      have a1 : (3/2*h - 1/2)^2 ≤ h^3 := by nlinarith [mul_nonneg (sq_nonneg (h-1)) (show 0 ≤ h - 1/4 by linarith)]
      calc (w^2*(3/2*h - 1/2))^2 = w^4*(3/2*h-1/2)^2 := by ring
        _ ≤ w^4*h^3 := by gcongr
        _ = w*(w*h)^3 := by ring
        _ ≤ (4*A*(1-h/3))*(1-h/3)^3 := by gcongr
        _ = _ := by ring
    generalize h^2/30 + h^3/189 + h^4/216 + 1/594*h^5 + (5/5616 + 3*4/(104*729))*h^6 = f at *
    have : w^2*f*(3/2*h - 1/2) ≤ 1/20*√A*(3/2*h - 1/2) := by
      calc w^2*f*(3/2*h - 1/2) = w^2*(3/2*h - 1/2)*f := by ring
        _ ≤ 2*(1-h/3)^2*√A*f := by gcongr
        _ = (2*(1-h/3)^2*f)*√A := by ring
        _ ≤ (1/20*(3/2*h-1/2))*√A := by gcongr
        _ = _ := by ring
    exact le_of_mul_le_mul_right this hd
end Wiz
