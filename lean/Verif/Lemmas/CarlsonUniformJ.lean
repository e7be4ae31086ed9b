import Verif.Lemmas.CarlsonUniform

/-! Error of the degenerate and third-kind Carlson sums after two passes. -/
namespace Wiz
open Spec Real MeasureTheory Set

/-! ### `RC` -/

/-- the degenerate sum has relative error at most `1/40` once its arguments are within a factor two -/
theorem rc_close {x y : ℝ} (hx : 0 < x) (hxy : x ≤ y) (hy2 : y ≤ 2*x) : |rcVal x y - RC x y| ≤ RC x y/40 ∧ 1/√((x+2*y)/3) ≤ rcVal x y := by
  have hy : 0 < y := by linarith
  have hA : 0 < (x+2*y)/3 := by positivity
  have lo : 1/√((x+2*y)/3) ≤ RC x y := by
    rw [RC_eq_RF hy]
    have := RF_ge_mean hx.le hy hy
    rwa [show x + y + y = x + 2*y by ring] at this
  have up : RC x y ≤ 41/40*(1/√((x+2*y)/3)) := by
    rw [RC_eq_RF hy]
    have := RF_le_geom' (x := x) (y := y) (z := y) (g := (40/41)^2*((x+2*y)/3)) hx hy hy (by positivity) (by
      obtain ⟨d, rfl⟩ : ∃ d, y = x + d := ⟨y - x, by ring⟩
      have hd : 0 ≤ d := by linarith
      have hd2 : 0 ≤ x - d := by linarith
      have h1 := mul_nonneg hd (sq_nonneg d)
      have h2 := mul_nonneg hd2 (mul_nonneg hd hd)
      have h3 := mul_nonneg hd2 (mul_nonneg hd2 hd)
      have h4 := mul_nonneg hd2 (mul_nonneg hd2 hd2)
      nlinarith)
    rw [sqrt_mul (by positivity), sqrt_sq (by norm_num)] at this
    refine this.trans (le_of_eq ?_)
    have := sqrt_pos.mpr hA
    field_simp
  have hs : 0 ≤ (y-x)/(3*((x+2*y)/3)) ∧ (y-x)/(3*((x+2*y)/3)) ≤ 1/5 := by
    refine ⟨div_nonneg (by linarith) (by positivity), ?_⟩
    rw [div_le_iff₀ (by positivity)]
    linarith
  have hv : rcVal x y = 1/√((x+2*y)/3) * (1 + (3/10*((y-x)/(3*((x+2*y)/3)))^2 + ((y-x)/(3*((x+2*y)/3)))^3/7 + 3/8*((y-x)/(3*((x+2*y)/3)))^4 +
      9/22*((y-x)/(3*((x+2*y)/3)))^5 + 159/208*((y-x)/(3*((x+2*y)/3)))^6)) := by
    unfold rcVal
    simp only
    rw [rpow_neg_half hA]
    ring
  rw [hv]
  generalize (y-x)/(3*((x+2*y)/3)) = s at *
  obtain ⟨s0, s1⟩ := hs
  have b : ∀ n : ℕ, s^n ≤ (1/5)^n := fun n => pow_le_pow_left₀ s0 s1 n
  have b2 := b 2; have b3 := b 3; have b4 := b 4; have b5 := b 5; have b6 := b 6
  have t0 : 0 ≤ 3/10*s^2 + s^3/7 + 3/8*s^4 + 9/22*s^5 + 159/208*s^6 := by positivity
  have t1 : 3/10*s^2 + s^3/7 + 3/8*s^4 + 9/22*s^5 + 159/208*s^6 ≤ 1/40 := by norm_num at b2 b3 b4 b5 b6; linarith
  generalize 3/10*s^2 + s^3/7 + 3/8*s^4 + 9/22*s^5 + 159/208*s^6 = t at *
  have hq : 0 < 1/√((x+2*y)/3) := by have := sqrt_pos.mpr hA; positivity
  generalize 1/√((x+2*y)/3) = q at *
  refine ⟨?_, by nlinarith⟩
  rw [abs_le]
  constructor <;> nlinarith

/-- from the first pass on the arguments of `RC` are ordered and within a factor two -/
theorem rcIter_ratio {x y : ℝ} (hx : 0 ≤ x) (hy : 0 < y) (hxy : x ≤ y) (k : ℕ) :
    0 < (rcIter x y (k+1)).1 ∧ (rcIter x y (k+1)).1 ≤ (rcIter x y (k+1)).2 ∧ (rcIter x y (k+1)).2 ≤ 2*(rcIter x y (k+1)).1 := by
  obtain ⟨a, b⟩ := rcIter_nonneg x y hx hy k
  have hd := rcIter_diff x y k
  have ho : (rcIter x y k).1 ≤ (rcIter x y k).2 := by
    have : (x-y)/4^k ≤ 0 := div_nonpos_of_nonpos_of_nonneg (by linarith) (by positivity)
    linarith
  have hl : (rcIter x y k).2 ≤ rcLam (rcIter x y k).1 (rcIter x y k).2 := by
    unfold rcLam
    have := sqrt_nonneg ((rcIter x y k).1*(rcIter x y k).2)
    linarith
  simp only [rcIter]
  refine ⟨by linarith, by linarith, by linarith⟩

/-- the order of the four arguments is kept -/
theorem dup_order {y p : ℝ} (hp : 0 ≤ p) (hpy : p ≤ y) (hy : y ≤ 1) (k : ℕ) :
    (dupIter 0 y 1 k).1 ≤ dupP 0 y 1 p k ∧ dupP 0 y 1 p k ≤ (dupIter 0 y 1 k).2.1 ∧ (dupIter 0 y 1 k).2.1 ≤ (dupIter 0 y 1 k).2.2 := by
  obtain ⟨d1, d2, d3⟩ := dupIter_diff 0 y 1 k
  have d4 := dupP_diff 0 y 1 p k
  have h4 : (0:ℝ) < 4^k := by positivity
  have e1 : 0 ≤ (p - 0)/4^k := div_nonneg (by linarith) h4.le
  have e2 : (0 - y)/4^k + (p - 0)/4^k ≤ 0 := by rw [← add_div]; exact div_nonpos_of_nonpos_of_nonneg (by linarith) h4.le
  have e3 : (y - 1)/4^k ≤ 0 := div_nonpos_of_nonpos_of_nonneg (by linarith) h4.le
  refine ⟨by linarith, by linarith, by linarith⟩

theorem alfa_le_bet {y p : ℝ} (hp : 0 ≤ p) (hpy : p ≤ y) (hy : y ≤ 1) (k : ℕ) :
    rjAlfaR (dupIter 0 y 1 k).1 (dupIter 0 y 1 k).2.1 (dupIter 0 y 1 k).2.2 (dupP 0 y 1 p k) ≤
    rjBetR (dupIter 0 y 1 k).1 (dupIter 0 y 1 k).2.1 (dupIter 0 y 1 k).2.2 (dupP 0 y 1 p k) := by
  obtain ⟨o1, o2, o3⟩ := dup_order hp hpy hy k
  obtain ⟨a, b, c, -⟩ := dupIter_nonneg 0 y 1 le_rfl (by linarith) zero_le_one (by linarith) k
  have := bet_sub_alfa (p := dupP 0 y 1 p k) a b c
  have h1 : 0 ≤ (dupP 0 y 1 p k - (dupIter 0 y 1 k).1)*((dupIter 0 y 1 k).2.1 - dupP 0 y 1 p k)*((dupIter 0 y 1 k).2.2 - dupP 0 y 1 p k) :=
    mul_nonneg (mul_nonneg (by linarith) (by linarith)) (by linarith)
  nlinarith

/-- the accumulated degenerate terms have relative error at most `1/40` -/
theorem rjAcc_rel {y p : ℝ} (hp : 0 < p) (hpy : p ≤ y) (hy : y ≤ 1) (kC : ℕ → ℕ) (K : ℕ) (hC : ∀ j < K, 2 ≤ kC j) (k : ℕ) (hk : k ≤ K) :
    |rjAcc kC y p k - rjExact y p k| ≤ rjExact y p k/40 := by
  induction k with
  | zero => simp [rjAcc, rjExact]
  | succ k ih =>
    have ih := ih (by omega)
    simp only [rjAcc, rjExact]
    have hq := dupP_pos 0 y 1 p hp k
    have hab := alfa_le_bet hp.le hpy hy k
    have hb := rjBetR_pos (x := (dupIter 0 y 1 k).1) (y := (dupIter 0 y 1 k).2.1) (z := (dupIter 0 y 1 k).2.2) hq
    have ha := rjAlfaR_nonneg (dupIter 0 y 1 k).1 (dupIter 0 y 1 k).2.1 (dupIter 0 y 1 k).2.2 (dupP 0 y 1 p k)
    generalize rjAlfaR (dupIter 0 y 1 k).1 (dupIter 0 y 1 k).2.1 (dupIter 0 y 1 k).2.2 (dupP 0 y 1 p k) = α at *
    generalize rjBetR (dupIter 0 y 1 k).1 (dupIter 0 y 1 k).2.1 (dupIter 0 y 1 k).2.2 (dupP 0 y 1 p k) = β at *
    obtain ⟨i, hi⟩ : ∃ i, kC k - 1 = i + 1 := ⟨kC k - 2, by have := hC k (by omega); omega⟩
    rw [hi]
    obtain ⟨r1, r2, r3⟩ := rcIter_ratio ha hb hab i
    have := (rc_close r1 r2 r3).1
    rw [RC_rcIter ha hb (i+1)] at this
    generalize rcVal (rcIter α β (i+1)).1 (rcIter α β (i+1)).2 = v at *
    have hw : 0 < ((4:ℝ)^k)⁻¹ := by positivity
    generalize ((4:ℝ)^k)⁻¹ = c at *
    rw [abs_le] at *
    constructor <;> nlinarith

/-! ### the tail of `RJ` -/

/-- the series factor of the third-kind sum -/
noncomputable def rjS (X Y Z P : ℝ) : ℝ :=
  let s1 := (X^2 + Y^2 + Z^2 + 2*P^2) / 4
  let s2 := (X^3 + Y^3 + Z^3 + 2*P^3) / 6
  let s3 := (X^4 + Y^4 + Z^4 + 2*P^4) / 8
  let s4 := (X^5 + Y^5 + Z^5 + 2*P^5) / 10
  1 + 3/7*s1 + s2/3 + 3/22*(s1*s1) + 3/11*s3 + 3/13*(s1*s2 + s4) + (-1/10*(s1*s1*s1) + 3/10*s2^2 + 3/5*s1*s3)

theorem rjTail_eq {x y z p : ℝ} (h : 0 < x + y + z + 2*p) : rjTail x y z p =
    1/(√((x+y+z+2*p)/5)*((x+y+z+2*p)/5)) * rjS (1 - x/((x+y+z+2*p)/5)) (1 - y/((x+y+z+2*p)/5)) (1 - z/((x+y+z+2*p)/5)) (1 - p/((x+y+z+2*p)/5)) := by
  unfold rjTail rjS
  simp only
  rw [rpow_neg_three_half (by positivity)]
  ring

theorem rjS_nonneg (X Y Z P : ℝ) : 0 ≤ rjS X Y Z P := by
  unfold rjS
  simp only
  have hs1 : 0 ≤ (X^2 + Y^2 + Z^2 + 2*P^2) / 4 := by positivity
  have h3 : 2/5*((X^2 + Y^2 + Z^2 + 2*P^2) / 4)^2 ≤ (X^4 + Y^4 + Z^4 + 2*P^4) / 8 := by
    nlinarith [sq_nonneg (X^2-Y^2), sq_nonneg (X^2-Z^2), sq_nonneg (Y^2-Z^2), sq_nonneg (X^2-P^2), sq_nonneg (Y^2-P^2), sq_nonneg (Z^2-P^2)]
  have term : ∀ t s : ℝ, t^2/4 ≤ s → 0 ≤ t^4*(3/88 + 3/130*t + 35/800*s) := by
    intro t s hts
    apply mul_nonneg (by positivity)
    nlinarith [sq_nonneg (t + 1)]
  have hsum : 0 ≤ 3/11*((X^4 + Y^4 + Z^4 + 2*P^4) / 8) + 3/13*((X^5 + Y^5 + Z^5 + 2*P^5) / 10) +
      35/100*((X^2 + Y^2 + Z^2 + 2*P^2) / 4)*((X^4 + Y^4 + Z^4 + 2*P^4) / 8) := by
    have a1 := term X ((X^2 + Y^2 + Z^2 + 2*P^2) / 4) (by nlinarith [sq_nonneg Y, sq_nonneg Z, sq_nonneg P])
    have a2 := term Y ((X^2 + Y^2 + Z^2 + 2*P^2) / 4) (by nlinarith [sq_nonneg X, sq_nonneg Z, sq_nonneg P])
    have a3 := term Z ((X^2 + Y^2 + Z^2 + 2*P^2) / 4) (by nlinarith [sq_nonneg X, sq_nonneg Y, sq_nonneg P])
    have a4 := term P ((X^2 + Y^2 + Z^2 + 2*P^2) / 4) (by nlinarith [sq_nonneg X, sq_nonneg Y, sq_nonneg Z, sq_nonneg P])
    generalize (X^2 + Y^2 + Z^2 + 2*P^2) / 4 = s at *
    nlinarith
  generalize (X^2 + Y^2 + Z^2 + 2*P^2) / 4 = s at *
  generalize (X^3 + Y^3 + Z^3 + 2*P^3) / 6 = q at *
  generalize (X^4 + Y^4 + Z^4 + 2*P^4) / 8 = r at *
  generalize (X^5 + Y^5 + Z^5 + 2*P^5) / 10 = t at *
  have k1 : 0 ≤ 1 + q/3 + 1/10*q^2 := by nlinarith [sq_nonneg (q + 5/3)]
  have k2 : 0 ≤ 3/22*(s*s) + 3/13*(s*q) + 1/5*q^2 := by nlinarith [sq_nonneg (q + 15/26*s), sq_nonneg s]
  have k3 : 1/10*(s*s*s) ≤ 1/4*s*r := by
    have := mul_le_mul_of_nonneg_left h3 hs1
    nlinarith
  nlinarith

theorem rjS_upper {y p h c1 c2 c4 : ℝ} (hh : 0 ≤ h) (hp : 0 ≤ p) (hpy : p ≤ y) (hy : y ≤ 1) (hc1 : 0 ≤ c1) (hc2 : 0 ≤ c2)
    (h1 : ((((1 + y + 2*p)/5))^2 + ((1 - 4*y + 2*p)/5)^2 + (-((4 - y - 2*p)/5))^2 + 2*((1 + y - 3*p)/5)^2)/4 ≤ c1)
    (h2 : ((((1 + y + 2*p)/5))^3 + ((1 - 4*y + 2*p)/5)^3 + (-((4 - y - 2*p)/5))^3 + 2*((1 + y - 3*p)/5)^3)/6 ≤ c2)
    (h4 : ((((1 + y + 2*p)/5))^5 + ((1 - 4*y + 2*p)/5)^5 + (-((4 - y - 2*p)/5))^5 + 2*((1 + y - 3*p)/5)^5)/10 ≤ c4) :
    rjS ((1 + y + 2*p)/5*h) ((1 - 4*y + 2*p)/5*h) (-((4 - y - 2*p)/5)*h) ((1 + y - 3*p)/5*h) ≤
      1 + 3/7*c1*h^2 + c2/3*h^3 + (3/22*c1^2 + 3/11*(13/250))*h^4 + 3/13*(c1*c2 + c4)*h^5 + (3/10*(4/625) + 3/5*c1*(13/250))*h^6 := by
  have b2 := cj_t2 hp hpy hy
  have b2' := cj_t2' hp hpy hy
  have b3 := cj_t3 hp hpy hy
  have p1 : 0 ≤ ((((1 + y + 2*p)/5))^2 + ((1 - 4*y + 2*p)/5)^2 + (-((4 - y - 2*p)/5))^2 + 2*((1 + y - 3*p)/5)^2)/4 := by positivity
  have p3 : 0 ≤ ((((1 + y + 2*p)/5))^4 + ((1 - 4*y + 2*p)/5)^4 + (-((4 - y - 2*p)/5))^4 + 2*((1 + y - 3*p)/5)^4)/8 := by positivity
  unfold rjS
  simp only [mul_pow]
  have e1 : (((1 + y + 2*p)/5)^2*h^2 + ((1 - 4*y + 2*p)/5)^2*h^2 + (-((4 - y - 2*p)/5))^2*h^2 + 2*(((1 + y - 3*p)/5)^2*h^2))/4 =
    ((((1 + y + 2*p)/5))^2 + ((1 - 4*y + 2*p)/5)^2 + (-((4 - y - 2*p)/5))^2 + 2*((1 + y - 3*p)/5)^2)/4*h^2 := by ring
  have e2 : (((1 + y + 2*p)/5)^3*h^3 + ((1 - 4*y + 2*p)/5)^3*h^3 + (-((4 - y - 2*p)/5))^3*h^3 + 2*(((1 + y - 3*p)/5)^3*h^3))/6 =
    ((((1 + y + 2*p)/5))^3 + ((1 - 4*y + 2*p)/5)^3 + (-((4 - y - 2*p)/5))^3 + 2*((1 + y - 3*p)/5)^3)/6*h^3 := by ring
  have e3 : (((1 + y + 2*p)/5)^4*h^4 + ((1 - 4*y + 2*p)/5)^4*h^4 + (-((4 - y - 2*p)/5))^4*h^4 + 2*(((1 + y - 3*p)/5)^4*h^4))/8 =
    ((((1 + y + 2*p)/5))^4 + ((1 - 4*y + 2*p)/5)^4 + (-((4 - y - 2*p)/5))^4 + 2*((1 + y - 3*p)/5)^4)/8*h^4 := by ring
  have e4 : (((1 + y + 2*p)/5)^5*h^5 + ((1 - 4*y + 2*p)/5)^5*h^5 + (-((4 - y - 2*p)/5))^5*h^5 + 2*(((1 + y - 3*p)/5)^5*h^5))/10 =
    ((((1 + y + 2*p)/5))^5 + ((1 - 4*y + 2*p)/5)^5 + (-((4 - y - 2*p)/5))^5 + 2*((1 + y - 3*p)/5)^5)/10*h^5 := by ring
  rw [e1, e2, e3, e4]
  clear e1 e2 e3 e4
  generalize ((((1 + y + 2*p)/5))^2 + ((1 - 4*y + 2*p)/5)^2 + (-((4 - y - 2*p)/5))^2 + 2*((1 + y - 3*p)/5)^2)/4 = t1 at *
  generalize ((((1 + y + 2*p)/5))^3 + ((1 - 4*y + 2*p)/5)^3 + (-((4 - y - 2*p)/5))^3 + 2*((1 + y - 3*p)/5)^3)/6 = t2 at *
  generalize ((((1 + y + 2*p)/5))^4 + ((1 - 4*y + 2*p)/5)^4 + (-((4 - y - 2*p)/5))^4 + 2*((1 + y - 3*p)/5)^4)/8 = t3 at *
  generalize ((((1 + y + 2*p)/5))^5 + ((1 - 4*y + 2*p)/5)^5 + (-((4 - y - 2*p)/5))^5 + 2*((1 + y - 3*p)/5)^5)/10 = t4 at *
  have q1 : t1*t1 ≤ c1^2 := by nlinarith
  have q2 : t1*t2 ≤ c1*c2 := (mul_le_mul_of_nonneg_left h2 p1).trans (mul_le_mul_of_nonneg_right h1 hc2)
  have q3 : t1*t3 ≤ c1*(13/250) := mul_le_mul h1 b3 p3 hc1
  have q4 : t2^2 ≤ 4/625 := by nlinarith
  have q5 : 0 ≤ t1*t1*t1 := by positivity
  have g2 : 0 ≤ h^2 := by positivity
  have g3 : 0 ≤ h^3 := by positivity
  have g4 : 0 ≤ h^4 := by positivity
  have g5 : 0 ≤ h^5 := by positivity
  have g6 : 0 ≤ h^6 := by positivity
  have m1 := mul_le_mul_of_nonneg_right h1 g2
  have m2 := mul_le_mul_of_nonneg_right h2 g3
  have m3 := mul_le_mul_of_nonneg_right q1 g4
  have m4 := mul_le_mul_of_nonneg_right b3 g4
  have m5 := mul_le_mul_of_nonneg_right q2 g5
  have m6 := mul_le_mul_of_nonneg_right h4 g5
  have m7 := mul_le_mul_of_nonneg_right q4 g6
  have m8 := mul_le_mul_of_nonneg_right q3 g6
  have m9 := mul_nonneg q5 g6
  have r1 : t1*h^2*(t1*h^2) = t1*t1*h^4 := by ring
  have r2 : t1*h^2*(t2*h^3) = t1*t2*h^5 := by ring
  have r3 : t1*h^2*(t1*h^2)*(t1*h^2) = t1*t1*t1*h^6 := by ring
  have r4 : (t2*h^3)^2 = t2^2*h^6 := by ring
  have r5 : 3/5*(t1*h^2)*(t3*h^4) = 3/5*(t1*t3*h^6) := by ring
  rw [r3, r1, r2, r4, r5]
  linarith

theorem rjS_upper_skew {y p h : ℝ} (hh0 : 0 < h) (hp : 0 < p) (hpw : p ≤ y) (hy3 : y ≤ 9/100) :
    rjS ((1 + y + 2*p)/5*h) ((1 - 4*y + 2*p)/5*h) (-((4 - y - 2*p)/5)*h) ((1 + y - 3*p)/5*h) ≤
      1 + 3/7*(1/5)*h^2 + 0/3*h^3 + (3/22*(1/5)^2 + 3/11*(13/250))*h^4 + 3/13*((1/5)*0 + 0)*h^5 + (3/10*(4/625) + 3/5*(1/5)*(13/250))*h^6 := by
  have hw2 : y ≤ 1 := by linarith
  have hy0 : 0 ≤ y := by linarith
  have a1 : (1 + y + 2*p)/5 ≤ 26/100 := by linarith
  have a10 : 0 ≤ (1 + y + 2*p)/5 := by linarith
  have a2 : (1 - 4*y + 2*p)/5 ≤ 26/100 := by linarith
  have a20 : 0 ≤ (1 - 4*y + 2*p)/5 := by linarith
  have a3 : 74/100 ≤ (4 - y - 2*p)/5 := by linarith
  have a4 : (1 + y - 3*p)/5 ≤ 26/100 := by linarith
  have a40 : 0 ≤ (1 + y - 3*p)/5 := by linarith
  apply rjS_upper hh0.le hp.le hpw hw2 (by norm_num) (by norm_num)
  · nlinarith [mul_nonneg hp.le hy0, mul_nonneg hp.le hp.le, mul_nonneg hy0 hy0]
  · have b1 := pow_le_pow_left₀ a10 a1 3
    have b2 := pow_le_pow_left₀ a20 a2 3
    have b3 := pow_le_pow_left₀ (by norm_num) a3 3
    have b4 := pow_le_pow_left₀ a40 a4 3
    rw [show (-((4 - y - 2*p)/5))^3 = -((4 - y - 2*p)/5)^3 by ring]
    norm_num at b1 b2 b3 b4 ⊢
    linarith
  · have b1 := pow_le_pow_left₀ a10 a1 5
    have b2 := pow_le_pow_left₀ a20 a2 5
    have b3 := pow_le_pow_left₀ (by norm_num) a3 5
    have b4 := pow_le_pow_left₀ a40 a4 5
    rw [show (-((4 - y - 2*p)/5))^5 = -((4 - y - 2*p)/5)^5 by ring]
    norm_num at b1 b2 b3 b4 ⊢
    linarith

theorem rj_numeric {w h M σ : ℝ} (hw : 0 < w) (hw1 : w ≤ 1) (hM0 : 0 < M) (hh0 : 0 < h) (hg : 0 < 1 - h/5) (hsn : 0 ≤ σ)
    (hg0 : w ≤ 4*M*(1 - h/5)) (hwh : w*h ≤ 1 - h/5)
    (hup : σ ≤ 1 + 3/7*(3/10)*h^2 + (2/25)/3*h^3 + (3/22*(3/10)^2 + 3/11*(13/250))*h^4 + 3/13*(3/10*(2/25) + 33/1000)*h^5 + (3/10*(4/625) + 3/5*(3/10)*(13/250))*h^6)
    (hlarge : 2 ≤ h → σ ≤ 1 + 3/7*(1/5)*h^2 + 0/3*h^3 + (3/22*(1/5)^2 + 3/11*(13/250))*h^4 + 3/13*((1/5)*0 + 0)*h^5 + (3/10*(4/625) + 3/5*(1/5)*(13/250))*h^6) :
    w^2*h*σ ≤ 236/100*√M := by
  refine (pow_le_pow_iff_left₀ (by positivity) (by positivity) two_ne_zero).mp ?_
  rw [mul_pow (236/100) √M, sq_sqrt hM0.le]
  have hw3 : w^3 ≤ 1 := pow_le_one₀ hw.le hw1
  rcases le_total h 1 with hc | hc
  · have hs1 : σ ≤ 121/100 := by
      have b : ∀ n : ℕ, h^n ≤ 1 := fun n => pow_le_one₀ hh0.le hc
      have b2 := b 2; have b3 := b 3; have b4 := b 4; have b5 := b 5; have b6 := b 6
      linarith
    have hs2 : σ^2 ≤ (121/100)^2 := pow_le_pow_left₀ hsn hs1 2
    have hq : h^2*(1 - h/5) ≤ 4/5 := by nlinarith [mul_nonneg hh0.le (show 0 ≤ 1 - h by linarith)]
    calc (w^2*h*σ)^2 = w^3*w*h^2*σ^2 := by ring
      _ ≤ 1*(4*M*(1 - h/5))*h^2*(121/100)^2 := by gcongr
      _ = (h^2*(1-h/5))*(4*M*(121/100)^2) := by ring
      _ ≤ 4/5*(4*M*(121/100)^2) := by gcongr
      _ ≤ (236/100)^2*M := by nlinarith
  · have hs : (1 - h/5)^2*σ ≤ 118/400*(h+3) := by
      rcases le_total h 2 with h2 | h2
      · refine le_trans (mul_le_mul_of_nonneg_left hup (by positivity)) (le_trans (le_of_eq ?_) (cu_s_mid hc h2))
        ring
      · refine le_trans (mul_le_mul_of_nonneg_left (hlarge h2) (by positivity)) (le_trans (le_of_eq ?_) (cu_s_large h2 (by linarith)))
        ring
    have hh2 : ((h+3)/4)^2 ≤ h := by nlinarith
    have hs2 : ((1 - h/5)^2*σ)^2 ≤ (118/100)^2*h := by
      calc ((1 - h/5)^2*σ)^2 ≤ (118/400*(h+3))^2 := pow_le_pow_left₀ (by positivity) hs 2
        _ = (118/100)^2*((h+3)/4)^2 := by ring
        _ ≤ _ := by gcongr
    have : (w^2*h*σ)^2*h ≤ (236/100)^2*M*h := by
      calc (w^2*h*σ)^2*h = w*(w*h)^3*σ^2 := by ring
        _ ≤ (4*M*(1-h/5))*(1-h/5)^3*σ^2 := by gcongr
        _ = 4*M*((1-h/5)^2*σ)^2 := by ring
        _ ≤ 4*M*((118/100)^2*h) := by gcongr
        _ = _ := by ring
    exact le_of_mul_le_mul_right this hh0

/-- the tail of the third-kind sum -/
theorem rjTail_upper {w p x e : ℝ} (hw : 0 < w) (hw1 : w ≤ 1) (hp : 0 < p) (hpw : p ≤ w^2) (hx : w/4 ≤ x) (he : 0 < e) (he1 : e ≤ 1/4) :
    w^2*(e/4*rjTail x (x + e*w^2) (x + e) (x + e*p)) ≤ 59/100 ∧ 0 ≤ rjTail x (x + e*w^2) (x + e) (x + e*p) := by
  have hx0 : 0 < x := by linarith
  have hw2 : w^2 ≤ 1 := by nlinarith
  rw [rjTail_eq (by positivity)]
  obtain ⟨M, hM⟩ : ∃ M, M = (x + (x + e*w^2) + (x + e) + 2*(x + e*p))/5 := ⟨_, rfl⟩
  rw [← hM]
  have hMx : M = x + e*(1 + w^2 + 2*p)/5 := by rw [hM]; ring
  have hM0 : 0 < M := by rw [hMx]; positivity
  have hMw : w/4 + e/5 ≤ M := by rw [hMx]; nlinarith [mul_pos he (pow_pos hw 2), mul_pos he hp]
  obtain ⟨h, hh⟩ : ∃ h, h = e/M := ⟨_, rfl⟩
  have hhM : h*M = e := by rw [hh]; field_simp
  have hh0 : 0 < h := by rw [hh]; positivity
  have e1 : 1 - x/M = (1 + w^2 + 2*p)/5*h := by rw [hh]; field_simp; rw [hMx]; ring
  have e2 : 1 - (x + e*w^2)/M = (1 - 4*w^2 + 2*p)/5*h := by rw [hh]; field_simp; rw [hMx]; ring
  have e3 : 1 - (x + e)/M = -((4 - w^2 - 2*p)/5)*h := by rw [hh]; field_simp; rw [hMx]; ring
  have e4 : 1 - (x + e*p)/M = (1 + w^2 - 3*p)/5*h := by rw [hh]; field_simp; rw [hMx]; ring
  rw [e1, e2, e3, e4]
  clear e1 e2 e3 e4
  have hsn := rjS_nonneg ((1 + w^2 + 2*p)/5*h) ((1 - 4*w^2 + 2*p)/5*h) (-((4 - w^2 - 2*p)/5)*h) ((1 + w^2 - 3*p)/5*h)
  have hup := rjS_upper (y := w^2) (p := p) (h := h) hh0.le hp.le hpw hw2 (c1 := 3/10) (c2 := 2/25) (c4 := 33/1000) (by norm_num) (by norm_num)
    (cj_t1 hp.le hpw hw2) (cj_t2 hp.le hpw hw2) (cj_t4 hp.le hpw hw2)
  have hsM := sqrt_pos.mpr hM0
  refine ⟨?_, by positivity⟩
  have hg0 : w ≤ 4*M*(1 - h/5) := by
    have : 4*M*(1 - h/5) = 4*(M - e/5) := by rw [← hhM]; ring
    rw [this]; linarith
  have hg : 0 < 1 - h/5 := by
    by_contra hcon
    push Not at hcon
    nlinarith
  have hwh : w*h ≤ 1 - h/5 := by
    have : 4*M*h ≤ 1 := by nlinarith
    calc w*h ≤ 4*M*(1-h/5)*h := by gcongr
      _ = (4*M*h)*(1 - h/5) := by ring
      _ ≤ 1*(1-h/5) := by gcongr
      _ = _ := one_mul _
  have hlarge := fun h2 : 2 ≤ h => rjS_upper_skew hh0 hp hpw (show w^2 ≤ 9/100 by
    have hw3 : w ≤ 3/10 := by nlinarith
    nlinarith)
  generalize rjS ((1 + w^2 + 2*p)/5*h) ((1 - 4*w^2 + 2*p)/5*h) (-((4 - w^2 - 2*p)/5)*h) ((1 + w^2 - 3*p)/5*h) = σ at *
  have goal' : w^2*h*σ ≤ 236/100*√M → w^2*(e/4*(1/(√M*M)*σ)) ≤ 59/100 := by
    intro hgoal
    have : w^2*(e/4*(1/(√M*M)*σ)) = w^2*h*σ/(4*√M) := by rw [← hhM]; field_simp
    rw [this, div_le_iff₀ (by positivity)]
    linarith
  apply goal'
  exact rj_numeric hw hw1 hM0 hh0 hg hsn hg0 hwh hup hlarge
end Wiz
