import Verif.Lemmas.CarlsonSeries

/-! # Accuracy of the truncated series -/
namespace Wiz
open Spec Real MeasureTheory Set Filter Topology

theorem inv_sqrt_series {u : ℝ} (hu : |u| ≤ 1/2) :
    |1/√(1+u) - (1 - u/2 + 3*u^2/8 - 5*u^3/16)| ≤ 2*u^4 := by
  obtain ⟨h1, h2⟩ := abs_le.mp hu
  have hg0 : 0 < 1 + u := by linarith
  set g := √(1+u) with hg
  have hgg : g^2 = 1 + u := sq_sqrt hg0.le
  have hg1 : 1/2 ≤ g := by
    apply le_sqrt_of_sq_le; norm_num; linarith
  set T := 1 - u/2 + 3*u^2/8 - 5*u^3/16 with hT
  have hTp : 0 ≤ T := by rw [hT]; nlinarith [sq_nonneg u, mul_nonneg (sq_nonneg u) (by linarith : (0:ℝ) ≤ 1/2 - u)]
  have key : (g*T)^2 - 1 = u^4 * (-35/64 + 14/64*u - 35/256*u^2 + 25/256*u^3) := by
    rw [mul_pow, hgg, hT]; ring
  have hq : |(-35/64 + 14/64*u - 35/256*u^2 + 25/256*u^3 : ℝ)| ≤ 1 := by
    have a : u^2 ≤ 1/4 := by nlinarith
    have b : 0 ≤ u^2 := sq_nonneg u
    have c : |u^3| ≤ 1/8 := by
      rw [abs_pow]; calc |u|^3 ≤ (1/2)^3 := by gcongr
        _ = 1/8 := by norm_num
    obtain ⟨c1, c2⟩ := abs_le.mp c
    rw [abs_le]; constructor <;> linarith
  have hgT : 0 ≤ g*T := by positivity
  have e : 1/g - T = -(((g*T)^2 - 1)/(g*(1 + g*T))) := by field_simp; ring
  rw [e, key, abs_neg, abs_div, abs_mul, abs_of_nonneg (by positivity : 0 ≤ u^4), abs_of_pos (by positivity : 0 < g*(1+g*T))]
  rw [div_le_iff₀ (by positivity)]
  have h4 : 0 ≤ u^4 := by positivity
  calc u^4 * |(-35/64 + 14/64*u - 35/256*u^2 + 25/256*u^3 : ℝ)| ≤ u^4 * 1 := by gcongr
    _ ≤ 2*u^4 * (1/2*(1 + 0)) := by linarith
    _ ≤ 2*u^4 * (g*(1+g*T)) := by gcongr

/-- the sixth-order series of `(1+a₂s²+a₃s³+a₄s⁴+a₅s⁵)^{-1/2}` -/
noncomputable def ser (a2 a3 a4 a5 s : ℝ) : ℝ :=
  1 - a2/2*s^2 - a3/2*s^3 + (3/8*a2^2 - a4/2)*s^4 + (3/4*(a2*a3) - a5/2)*s^5 + (3/8*(a3^2 + 2*(a2*a4)) - 5/16*a2^3)*s^6

theorem ser_bound {a2 a3 a4 a5 s e : ℝ} (he : 0 ≤ e) (he1 : e ≤ 1/8) (hs0 : 0 ≤ s) (hs1 : s ≤ 1)
    (h2 : |a2| ≤ 10*e^2) (h3 : |a3| ≤ 10*e^3) (h4 : |a4| ≤ 10*e^4) (h5 : |a5| ≤ 10*e^5) :
    |1/√(1 + (a2*s^2 + a3*s^3 + a4*s^4 + a5*s^5)) - ser a2 a3 a4 a5 s| ≤ 10000000*e^7 := by
  have rep : ∀ (a : ℝ) (k : ℕ), |a| ≤ 10*e^k → ∃ b : ℝ, a = b*e^k ∧ |b| ≤ 10 := by
    intro a k h
    rcases (pow_nonneg he k).eq_or_lt with h0 | h0
    · rw [← h0, mul_zero] at h
      exact ⟨0, by simpa using h, by norm_num⟩
    · refine ⟨a/e^k, by field_simp, ?_⟩
      rw [abs_div, abs_of_pos h0, div_le_iff₀ h0]; exact h
  obtain ⟨b2, rfl, g2⟩ := rep a2 2 h2
  obtain ⟨b3, rfl, g3⟩ := rep a3 3 h3
  obtain ⟨b4, rfl, g4⟩ := rep a4 4 h4
  obtain ⟨b5, rfl, g5⟩ := rep a5 5 h5
  have sc : ∀ (b : ℝ) (k : ℕ), |b| ≤ 10 → |b*s^k| ≤ 10 := by
    intro b k h
    rw [abs_mul, abs_of_nonneg (by positivity : 0 ≤ s^k)]
    have := pow_le_one₀ hs0 hs1 (n := k)
    calc |b| * s^k ≤ 10 * 1 := by gcongr
      _ = 10 := by norm_num
  have v0 := sc b2 2 g2
  have v1 := sc b3 3 g3
  have v2 := sc b4 4 g4
  have v3 := sc b5 5 g5
  set V0 := b2*s^2 with hV0
  set V1 := b3*s^3 with hV1
  set V2 := b4*s^4 with hV2
  set V3 := b5*s^5 with hV3
  set Y := V1 + e*V2 + e^2*V3 with hY
  have hYb : |Y| ≤ 20 := by
    have a1 : |e*V2| ≤ 1/8*10 := by rw [abs_mul, abs_of_nonneg he]; gcongr
    have a2 : |e^2*V3| ≤ (1/8)^2*10 := by rw [abs_mul, abs_of_nonneg (by positivity)]; gcongr
    rw [hY]
    refine (abs_add_three _ _ _).trans ?_
    linarith
  set V := V0 + e*Y with hV
  have hVb : |V| ≤ 20 := by
    have a1 : |e*Y| ≤ 1/8*20 := by rw [abs_mul, abs_of_nonneg he]; gcongr
    rw [hV]; refine (abs_add_le _ _).trans ?_; linarith
  have hU : b2*e^2*s^2 + b3*e^3*s^3 + b4*e^4*s^4 + b5*e^5*s^5 = e^2*V := by
    rw [hV, hY, hV0, hV1, hV2, hV3]; ring
  have hUb : |e^2*V| ≤ 1/2 := by
    rw [abs_mul, abs_of_nonneg (by positivity)]
    calc e^2 * |V| ≤ (1/8)^2*20 := by gcongr
      _ ≤ 1/2 := by norm_num
  rw [hU]
  have hT := inv_sqrt_series hUb
  set W := 2*(V1*V2) + 2*(V0*V3) + e*(V2^2 + 2*(V1*V3)) + e^2*(2*(V2*V3)) + e^3*V3^2 with hW
  set W' := 3*(V0^2*Y) + 3*(e*(V0*Y^2)) + e^2*Y^3 with hW'
  have hser : (1 - e^2*V/2 + 3*(e^2*V)^2/8 - 5*(e^2*V)^3/16) - ser (b2*e^2) (b3*e^3) (b4*e^4) (b5*e^5) s
      = e^7*(3/8*W - 5/16*W') := by
    rw [hW, hW', hV, hY, hV0, hV1, hV2, hV3]; unfold ser; ring
  have p2 : ∀ a b : ℝ, |a| ≤ 10 → |b| ≤ 10 → |a*b| ≤ 100 := by
    intro a b ha hb
    rw [abs_mul]; calc |a| * |b| ≤ 10*10 := by gcongr
      _ = 100 := by norm_num
  have hWb : |W| ≤ 1000 := by
    have q1 := abs_le.mp (p2 _ _ v1 v2)
    have q2 := abs_le.mp (p2 _ _ v0 v3)
    have q3 := abs_le.mp (p2 _ _ v2 v2)
    have q4 := abs_le.mp (p2 _ _ v1 v3)
    have q5 := abs_le.mp (p2 _ _ v2 v3)
    have q6 := abs_le.mp (p2 _ _ v3 v3)
    have r1 : |e*(V2^2 + 2*(V1*V3))| ≤ 1/8*300 := by
      rw [abs_mul, abs_of_nonneg he]
      have : |V2^2 + 2*(V1*V3)| ≤ 300 := by rw [pow_two, abs_le]; constructor <;> linarith
      gcongr
    have r2 : |e^2*(2*(V2*V3))| ≤ (1/8)^2*200 := by
      rw [abs_mul, abs_of_nonneg (by positivity)]
      have : |2*(V2*V3)| ≤ 200 := by rw [abs_le]; constructor <;> linarith
      gcongr
    have r3 : |e^3*V3^2| ≤ (1/8)^3*100 := by
      rw [abs_mul, abs_of_nonneg (by positivity)]
      have : |V3^2| ≤ 100 := by rw [pow_two, abs_le]; constructor <;> linarith
      gcongr
    rw [abs_le] at r1 r2 r3 ⊢
    rw [hW]; constructor <;> linarith
  have hW'b : |W'| ≤ 20000 := by
    have r1 : |V0^2*Y| ≤ 10^2*20 := by rw [abs_mul, abs_pow]; gcongr
    have r2 : |e*(V0*Y^2)| ≤ 1/8*(10*20^2) := by rw [abs_mul, abs_mul, abs_pow, abs_of_nonneg he]; gcongr
    have r3 : |e^2*Y^3| ≤ (1/8)^2*20^3 := by rw [abs_mul, abs_pow, abs_pow, abs_of_nonneg he]; gcongr
    rw [abs_le] at r1 r2 r3 ⊢
    rw [hW']; constructor <;> linarith
  have h7 : 0 ≤ e^7 := by positivity
  have hE : |e^7*(3/8*W - 5/16*W')| ≤ e^7*10000 := by
    rw [abs_mul, abs_of_nonneg h7]
    have : |3/8*W - 5/16*W'| ≤ 10000 := by
      rw [abs_le] at hWb hW'b ⊢; constructor <;> linarith
    gcongr
  have hR : 2*(e^2*V)^4 ≤ e^7*50000 := by
    have : V^4 ≤ 20^4 := by
      calc V^4 = |V|^4 := by rw [← abs_pow, abs_of_nonneg (by positivity)]
        _ ≤ 20^4 := by gcongr
    calc 2*(e^2*V)^4 = 2*(e^7*e)*V^4 := by ring
      _ ≤ 2*(e^7*(1/8))*20^4 := by gcongr
      _ = e^7*40000 := by ring
      _ ≤ e^7*50000 := by gcongr; norm_num
  calc |1/√(1 + e^2*V) - ser (b2*e^2) (b3*e^3) (b4*e^4) (b5*e^5) s|
      = |(1/√(1 + e^2*V) - (1 - e^2*V/2 + 3*(e^2*V)^2/8 - 5*(e^2*V)^3/16)) + e^7*(3/8*W - 5/16*W')| := by
        rw [← hser]; congr 1; ring
    _ ≤ 2*(e^2*V)^4 + e^7*10000 := (abs_add_le _ _).trans (add_le_add hT hE)
    _ ≤ 10000000*e^7 := by linarith

/-- integral of the series without weight -/
theorem ser_int0 (a2 a3 a4 a5 : ℝ) : ∫ v in (0:ℝ)..1, ser a2 a3 a4 a5 (v^2) =
    1 - a2/10 - a3/14 + (3/8*a2^2 - a4/2)/9 + (3/4*(a2*a3) - a5/2)/11 + (3/8*(a3^2 + 2*(a2*a4)) - 5/16*a2^3)/13 := by
  have hd : ∀ v : ℝ, HasDerivAt (fun v : ℝ => v - a2/10*v^5 - a3/14*v^7 + (3/8*a2^2 - a4/2)/9*v^9 + (3/4*(a2*a3) - a5/2)/11*v^11
      + (3/8*(a3^2 + 2*(a2*a4)) - 5/16*a2^3)/13*v^13) (ser a2 a3 a4 a5 (v^2)) v := by
    intro v
    have := (((((hasDerivAt_id v).sub ((hasDerivAt_pow 5 v).const_mul (a2/10))).sub ((hasDerivAt_pow 7 v).const_mul (a3/14))).add
      ((hasDerivAt_pow 9 v).const_mul ((3/8*a2^2 - a4/2)/9))).add ((hasDerivAt_pow 11 v).const_mul ((3/4*(a2*a3) - a5/2)/11))).add
      ((hasDerivAt_pow 13 v).const_mul ((3/8*(a3^2 + 2*(a2*a4)) - 5/16*a2^3)/13))
    refine HasDerivAt.congr_deriv this ?_
    unfold ser; norm_num; ring
  rw [intervalIntegral.integral_eq_sub_of_hasDerivAt (fun v _ => hd v)]
  · norm_num
  · apply Continuous.intervalIntegrable; unfold ser; fun_prop

/-- integral of the series with the weight `3v²` -/
theorem ser_int2 (a2 a3 a4 a5 : ℝ) : ∫ v in (0:ℝ)..1, 3*v^2 * ser a2 a3 a4 a5 (v^2) =
    1 - 3/14*a2 - a3/6 + (3/8*a2^2 - a4/2)*3/11 + (3/4*(a2*a3) - a5/2)*3/13 + (3/8*(a3^2 + 2*(a2*a4)) - 5/16*a2^3)/5 := by
  have hd : ∀ v : ℝ, HasDerivAt (fun v : ℝ => v^3 - 3/14*a2*v^7 - a3/6*v^9 + (3/8*a2^2 - a4/2)*3/11*v^11 + (3/4*(a2*a3) - a5/2)*3/13*v^13
      + (3/8*(a3^2 + 2*(a2*a4)) - 5/16*a2^3)/5*v^15) (3*v^2 * ser a2 a3 a4 a5 (v^2)) v := by
    intro v
    have := (((((hasDerivAt_pow 3 v).sub ((hasDerivAt_pow 7 v).const_mul (3/14*a2))).sub ((hasDerivAt_pow 9 v).const_mul (a3/6))).add
      ((hasDerivAt_pow 11 v).const_mul ((3/8*a2^2 - a4/2)*3/11))).add ((hasDerivAt_pow 13 v).const_mul ((3/4*(a2*a3) - a5/2)*3/13))).add
      ((hasDerivAt_pow 15 v).const_mul ((3/8*(a3^2 + 2*(a2*a4)) - 5/16*a2^3)/5))
    refine HasDerivAt.congr_deriv this ?_
    unfold ser; norm_num; ring
  rw [intervalIntegral.integral_eq_sub_of_hasDerivAt (fun v _ => hd v)]
  · norm_num
  · apply Continuous.intervalIntegrable; unfold ser; fun_prop

theorem rpow_neg_half {A : ℝ} (hA : 0 < A) : A ^ (-1/2 : ℝ) = 1/√A := by
  rw [show (-1/2 : ℝ) = -(1/2) by norm_num, rpow_neg hA.le, ← sqrt_eq_rpow, one_div]
theorem rpow_neg_three_half {A : ℝ} (hA : 0 < A) : A ^ (-3/2 : ℝ) = 1/(√A*A) := by
  rw [show (-3/2 : ℝ) = -(1/2 + 1) by norm_num, rpow_neg hA.le, rpow_add hA, ← sqrt_eq_rpow, rpow_one, one_div]

theorem integral_close {f g w : ℝ → ℝ} {C : ℝ} (hf : ContinuousOn f (Icc 0 1)) (hg : Continuous g) (hw : Continuous w)
    (hw1 : ∀ v ∈ Icc (0:ℝ) 1, |w v| ≤ 3)
    (h : ∀ v ∈ Icc (0:ℝ) 1, |f v - g v| ≤ C) : |(∫ v in (0:ℝ)..1, w v * f v) - ∫ v in (0:ℝ)..1, w v * g v| ≤ 3*C := by
  have i1 : IntervalIntegrable (fun v => w v * f v) volume 0 1 := by
    apply ContinuousOn.intervalIntegrable
    rw [uIcc_of_le zero_le_one]
    exact hw.continuousOn.mul hf
  have i2 : IntervalIntegrable (fun v => w v * g v) volume 0 1 := (hw.mul hg).intervalIntegrable _ _
  rw [← intervalIntegral.integral_sub i1 i2]
  have := intervalIntegral.norm_integral_le_of_norm_le_const (a := (0:ℝ)) (b := 1) (C := 3*C) (f := fun v => w v * f v - w v * g v) (by
    intro v hv
    rw [uIoc_of_le zero_le_one] at hv
    have hv' : v ∈ Icc (0:ℝ) 1 := ⟨hv.1.le, hv.2⟩
    rw [← mul_sub, norm_mul, Real.norm_eq_abs, Real.norm_eq_abs]
    have := hw1 v hv'
    have := h v hv'
    gcongr)
  simpa using this

theorem one_sub_pos {X s e : ℝ} (hX : |X| ≤ e) (he : e ≤ 1/8) (hs0 : 0 ≤ s) (hs1 : s ≤ 1) : 0 < 1 - X*s := by
  obtain ⟨h1, h2⟩ := abs_le.mp hX
  nlinarith

/-- five-variable accuracy: the sixth-order series with a weight -/
theorem series_close {X Y Z P Q e : ℝ} (he0 : 0 ≤ e) (he : e ≤ 1/8) (hX : |X| ≤ e) (hY : |Y| ≤ e) (hZ : |Z| ≤ e) (hP : |P| ≤ e) (hQ : |Q| ≤ e)
    (h0 : X + Y + Z + P + Q = 0) (w : ℝ → ℝ) (hw : Continuous w) (hw1 : ∀ v ∈ Icc (0:ℝ) 1, |w v| ≤ 3) :
    |(∫ v in (0:ℝ)..1, w v * (1 / √((1 - X*v^2)*(1 - Y*v^2)*(1 - Z*v^2)*((1 - P*v^2)*(1 - Q*v^2))))) -
      ∫ v in (0:ℝ)..1, w v * ser (X*Y+X*Z+X*P+X*Q+Y*Z+Y*P+Y*Q+Z*P+Z*Q+P*Q)
        (-(X*Y*Z+X*Y*P+X*Y*Q+X*Z*P+X*Z*Q+X*P*Q+Y*Z*P+Y*Z*Q+Y*P*Q+Z*P*Q))
        (X*Y*Z*P+X*Y*Z*Q+X*Y*P*Q+X*Z*P*Q+Y*Z*P*Q) (-(X*Y*Z*P*Q)) (v^2)| ≤ 30000000*e^7 := by
  have m2 : ∀ a b : ℝ, |a| ≤ e → |b| ≤ e → |a*b| ≤ e^2 := by
    intro a b ha hb; rw [abs_mul, pow_two]; gcongr
  have m3 : ∀ a b c : ℝ, |a| ≤ e → |b| ≤ e → |c| ≤ e → |a*b*c| ≤ e^3 := by
    intro a b c ha hb hc; rw [abs_mul, pow_succ]; have := m2 a b ha hb; gcongr
  have m4 : ∀ a b c d : ℝ, |a| ≤ e → |b| ≤ e → |c| ≤ e → |d| ≤ e → |a*b*c*d| ≤ e^4 := by
    intro a b c d ha hb hc hd; rw [abs_mul, pow_succ]; have := m3 a b c ha hb hc; gcongr
  have m5 : ∀ a b c d f : ℝ, |a| ≤ e → |b| ≤ e → |c| ≤ e → |d| ≤ e → |f| ≤ e → |a*b*c*d*f| ≤ e^5 := by
    intro a b c d f ha hb hc hd hf; rw [abs_mul, pow_succ]; have := m4 a b c d ha hb hc hd; gcongr
  have k2 : |X*Y+X*Z+X*P+X*Q+Y*Z+Y*P+Y*Q+Z*P+Z*Q+P*Q| ≤ 10*e^2 := by
    have a1 := abs_le.mp (m2 X Y hX hY)
    have a2 := abs_le.mp (m2 X Z hX hZ)
    have a3 := abs_le.mp (m2 X P hX hP)
    have a4 := abs_le.mp (m2 X Q hX hQ)
    have a5 := abs_le.mp (m2 Y Z hY hZ)
    have a6 := abs_le.mp (m2 Y P hY hP)
    have a7 := abs_le.mp (m2 Y Q hY hQ)
    have a8 := abs_le.mp (m2 Z P hZ hP)
    have a9 := abs_le.mp (m2 Z Q hZ hQ)
    have a0 := abs_le.mp (m2 P Q hP hQ)
    rw [abs_le]; constructor <;> linarith
  have k3 : |-(X*Y*Z+X*Y*P+X*Y*Q+X*Z*P+X*Z*Q+X*P*Q+Y*Z*P+Y*Z*Q+Y*P*Q+Z*P*Q)| ≤ 10*e^3 := by
    have a1 := abs_le.mp (m3 X Y Z hX hY hZ)
    have a2 := abs_le.mp (m3 X Y P hX hY hP)
    have a3 := abs_le.mp (m3 X Y Q hX hY hQ)
    have a4 := abs_le.mp (m3 X Z P hX hZ hP)
    have a5 := abs_le.mp (m3 X Z Q hX hZ hQ)
    have a6 := abs_le.mp (m3 X P Q hX hP hQ)
    have a7 := abs_le.mp (m3 Y Z P hY hZ hP)
    have a8 := abs_le.mp (m3 Y Z Q hY hZ hQ)
    have a9 := abs_le.mp (m3 Y P Q hY hP hQ)
    have a0 := abs_le.mp (m3 Z P Q hZ hP hQ)
    rw [abs_le]; constructor <;> linarith
  have k4 : |X*Y*Z*P+X*Y*Z*Q+X*Y*P*Q+X*Z*P*Q+Y*Z*P*Q| ≤ 10*e^4 := by
    have a1 := abs_le.mp (m4 X Y Z P hX hY hZ hP)
    have a2 := abs_le.mp (m4 X Y Z Q hX hY hZ hQ)
    have a3 := abs_le.mp (m4 X Y P Q hX hY hP hQ)
    have a4 := abs_le.mp (m4 X Z P Q hX hZ hP hQ)
    have a5 := abs_le.mp (m4 Y Z P Q hY hZ hP hQ)
    have : 0 ≤ e^4 := by positivity
    rw [abs_le]; constructor <;> linarith
  have k5 : |-(X*Y*Z*P*Q)| ≤ 10*e^5 := by
    rw [abs_neg]; have := m5 X Y Z P Q hX hY hZ hP hQ
    have : 0 ≤ e^5 := by positivity
    linarith
  have hpos : ∀ v ∈ Icc (0:ℝ) 1, 0 < (1 - X*v^2)*(1 - Y*v^2)*(1 - Z*v^2)*((1 - P*v^2)*(1 - Q*v^2)) := by
    intro v hv
    have hv2 : v^2 ≤ 1 := pow_le_one₀ hv.1 hv.2
    have hv0 : 0 ≤ v^2 := sq_nonneg v
    have := one_sub_pos hX he hv0 hv2
    have := one_sub_pos hY he hv0 hv2
    have := one_sub_pos hZ he hv0 hv2
    have := one_sub_pos hP he hv0 hv2
    have := one_sub_pos hQ he hv0 hv2
    positivity
  have := integral_close (C := 10000000*e^7) (f := fun v => 1 / √((1 - X*v^2)*(1 - Y*v^2)*(1 - Z*v^2)*((1 - P*v^2)*(1 - Q*v^2))))
    (g := fun v => ser (X*Y+X*Z+X*P+X*Q+Y*Z+Y*P+Y*Q+Z*P+Z*Q+P*Q)
        (-(X*Y*Z+X*Y*P+X*Y*Q+X*Z*P+X*Z*Q+X*P*Q+Y*Z*P+Y*Z*Q+Y*P*Q+Z*P*Q))
        (X*Y*Z*P+X*Y*Z*Q+X*Y*P*Q+X*Z*P*Q+Y*Z*P*Q) (-(X*Y*Z*P*Q)) (v^2)) (w := w) (by
      apply ContinuousOn.div continuousOn_const (by fun_prop)
      intro v hv
      exact (sqrt_pos.mpr (hpos v hv)).ne') (by unfold ser; fun_prop) hw hw1 (by
      intro v hv
      have hv2 : v^2 ≤ 1 := pow_le_one₀ hv.1 hv.2
      have hv0 : 0 ≤ v^2 := sq_nonneg v
      have := ser_bound he0 he hv0 hv2 k2 k3 k4 k5
      have e1 : (1 - X*v^2)*(1 - Y*v^2)*(1 - Z*v^2)*((1 - P*v^2)*(1 - Q*v^2)) = 1 +
        ((X*Y+X*Z+X*P+X*Q+Y*Z+Y*P+Y*Q+Z*P+Z*Q+P*Q) * (v^2)^2 +
        (-(X*Y*Z+X*Y*P+X*Y*Q+X*Z*P+X*Z*Q+X*P*Q+Y*Z*P+Y*Z*Q+Y*P*Q+Z*P*Q)) * (v^2)^3 +
        (X*Y*Z*P+X*Y*Z*Q+X*Y*P*Q+X*Z*P*Q+Y*Z*P*Q) * (v^2)^4 + (-(X*Y*Z*P*Q)) * (v^2)^5) := by
        linear_combination (-v^2) * h0
      rw [e1]; exact this)
  linarith

/-- the value computed by one pass of `RF` -/
theorem rfVal_close {x y z e : ℝ} (hx : 0 ≤ x) (hy : 0 ≤ y) (hz : 0 ≤ z) (hA : 0 < (x+y+z)/3) (he0 : 0 ≤ e) (he : e ≤ 1/8)
    (hX : |1 - x/((x+y+z)/3)| ≤ e) (hY : |1 - y/((x+y+z)/3)| ≤ e) (hZ : |1 - z/((x+y+z)/3)| ≤ e) :
    |rfVal x y z - RF x y z| ≤ 1/√((x+y+z)/3) * (30000000*e^7) := by
  rw [RF_unit hA hx hy hz]
  unfold rfVal
  simp only
  have h0 : (1 - x/((x+y+z)/3)) + (1 - y/((x+y+z)/3)) + (1 - z/((x+y+z)/3)) + 0 + 0 = 0 := by
    have : x + y + z ≠ 0 := by intro h; rw [h] at hA; norm_num at hA
    field_simp; ring
  rw [rpow_neg_half hA, ← mul_sub, abs_mul, abs_of_nonneg (by positivity : 0 ≤ 1/√((x+y+z)/3))]
  apply mul_le_mul_of_nonneg_left _ (by positivity)
  generalize 1 - x/((x+y+z)/3) = X at *
  generalize 1 - y/((x+y+z)/3) = Y at *
  generalize 1 - z/((x+y+z)/3) = Z at *
  have hz0 : |(0:ℝ)| ≤ e := by simpa using he0
  have := series_close he0 he hX hY hZ hz0 hz0 h0 (fun _ => 1) continuous_const (fun _ _ => by norm_num)
  simp only [one_mul, zero_mul, mul_zero, add_zero, neg_zero, sub_zero, mul_one] at this
  rw [ser_int0] at this
  rw [abs_sub_comm]
  refine le_of_eq_of_le ?_ this
  congr 2
  obtain rfl : Z = -X - Y := by linarith
  ring

/-- the value computed by one pass of `RC` -/
theorem rcVal_close {x y e : ℝ} (hx : 0 ≤ x) (hy : 0 < y) (he0 : 0 ≤ e) (he : e ≤ 1/8)
    (hX : |1 - x/((x+y+y)/3)| ≤ e) (hY : |1 - y/((x+y+y)/3)| ≤ e) :
    |rcVal x y - RC x y| ≤ 1/√((x+y+y)/3) * (30000000*e^7) := by
  have hA : 0 < (x+y+y)/3 := by positivity
  rw [RC_eq_RF hy]
  have := rfVal_close hx hy.le hy.le hA he0 he hX hY hY
  refine le_of_eq_of_le ?_ this
  congr 2
  unfold rcVal rfVal
  simp only
  rw [show x + 2*y = x + y + y by ring]
  have e1 : 1 - x/((x+y+y)/3) = 2 * ((y-x)/(3*((x+y+y)/3))) := by
    have : x + y + y ≠ 0 := by positivity
    field_simp; ring
  have e2 : 1 - y/((x+y+y)/3) = -((y-x)/(3*((x+y+y)/3))) := by
    have : x + y + y ≠ 0 := by positivity
    field_simp; ring
  rw [e1, e2]
  ring

/-- the tail of `RJ` -/
theorem rjTail_close {x y z p e : ℝ} (hx : 0 ≤ x) (hy : 0 ≤ y) (hz : 0 ≤ z) (hp : 0 ≤ p) (hA : 0 < (x+y+z+2*p)/5) (he0 : 0 ≤ e) (he : e ≤ 1/8)
    (hX : |1 - x/((x+y+z+2*p)/5)| ≤ e) (hY : |1 - y/((x+y+z+2*p)/5)| ≤ e) (hZ : |1 - z/((x+y+z+2*p)/5)| ≤ e)
    (hP : |1 - p/((x+y+z+2*p)/5)| ≤ e) :
    |rjTail x y z p - RJ x y z p| ≤ 1/(√((x+y+z+2*p)/5) * ((x+y+z+2*p)/5)) * (30000000*e^7) := by
  rw [RJ_unit hA hx hy hz hp]
  unfold rjTail
  simp only
  have h0 : (1 - x/((x+y+z+2*p)/5)) + (1 - y/((x+y+z+2*p)/5)) + (1 - z/((x+y+z+2*p)/5)) + (1 - p/((x+y+z+2*p)/5)) + (1 - p/((x+y+z+2*p)/5)) = 0 := by
    have : x + y + z + 2*p ≠ 0 := by intro h; rw [h] at hA; norm_num at hA
    field_simp; ring
  rw [rpow_neg_three_half hA, ← mul_sub, abs_mul, abs_of_nonneg (by positivity : 0 ≤ 1/(√((x+y+z+2*p)/5) * ((x+y+z+2*p)/5)))]
  apply mul_le_mul_of_nonneg_left _ (by positivity)
  generalize 1 - x/((x+y+z+2*p)/5) = X at *
  generalize 1 - y/((x+y+z+2*p)/5) = Y at *
  generalize 1 - z/((x+y+z+2*p)/5) = Z at *
  generalize 1 - p/((x+y+z+2*p)/5) = P at *
  have := series_close he0 he hX hY hZ hP hP h0 (fun v => 3*v^2) (by fun_prop) (fun v hv => by
    have : v^2 ≤ 1 := pow_le_one₀ hv.1 hv.2
    rw [abs_of_nonneg (by positivity)]; linarith)
  simp only [← pow_two (1 - P * _)] at this
  rw [ser_int2] at this
  rw [abs_sub_comm]
  refine le_of_eq_of_le ?_ this
  congr 2
  obtain rfl : Z = -X - Y - 2*P := by linarith
  ring
end Wiz
