import Verif.Props.CarlsonLimit

/-! # C76: the stopping test can fire much too early -/
namespace Wiz
open Spec Real MeasureTheory Set Filter Topology

/-- one duplication with rational lower bounds -/
theorem RF_le_step {x y z p q r x' y' z' : ℝ} (hx : 0 ≤ x) (hy : 0 < y) (hz : 0 < z)
    (hp : 0 ≤ p) (hq : 0 ≤ q) (hr : 0 ≤ r) (h1 : p^2 ≤ x*y) (h2 : q^2 ≤ x*z) (h3 : r^2 ≤ y*z)
    (hx' : 0 < x') (hy' : 0 < y') (hz' : 0 < z')
    (g1 : x' ≤ (x + (p+q+r))/4) (g2 : y' ≤ (y + (p+q+r))/4) (g3 : z' ≤ (z + (p+q+r))/4) : RF x y z ≤ RF x' y' z' := by
  rw [RF_dup hx hy hz]
  have : p + q + r ≤ lam x y z := by
    unfold lam
    have := le_sqrt_of_sq_le h1
    have := le_sqrt_of_sq_le h2
    have := le_sqrt_of_sq_le h3
    linarith
  exact RF_mono hx'.le hy' hz' (by linarith) (by linarith) (by linarith)

theorem RF_le_geom {x y z g : ℝ} (hx : 0 < x) (hy : 0 < y) (hz : 0 < z) (hg : 0 < g)
    (h1 : 3*g ≤ x+y+z) (h2 : 3*g^2 ≤ x*y+y*z+z*x) (h3 : g^3 ≤ x*y*z) : RF x y z ≤ 1/√g := by
  rw [← RF_const hg]
  unfold RF
  apply mul_le_mul_of_nonneg_left _ (by norm_num)
  apply setIntegral_mono_on (rf_integrable hx.le hy hz) (rf_integrable hg.le hg hg) measurableSet_Ioi
  intro t ht
  have ht' : 0 < t := ht
  have := sqrt_pos.mpr (show 0 < t + g by positivity)
  apply one_div_le_one_div_of_le (by positivity)
  rw [← sqrt_mul (by positivity), ← sqrt_mul (by positivity), ← sqrt_mul (by positivity), ← sqrt_mul (by positivity)]
  apply sqrt_le_sqrt
  have a1 : t^2*(3*g) ≤ t^2*(x+y+z) := by gcongr
  have a2 : t*(3*g^2) ≤ t*(x*y+y*z+z*x) := by gcongr
  nlinarith

theorem RF_upper : RF 0 (5269/50000000) 1 ≤ 597/100 := by
  refine (RF_le_step (p := 0) (q := 0) (r := 2053/200000) (x' := 1283/500000) (y' := 81/31250) (z' := 126283/500000)
    ?_ ?_ ?_ ?_ ?_ ?_ ?_ ?_ ?_ ?_ ?_ ?_ ?_ ?_ ?_).trans ?_ <;> try norm_num
  refine (RF_le_step (p := 1289/500000) (q := 25457/1000000) (r := 12793/500000) (x' := 7023/500000) (y' := 14053/1000000) (z' := 38273/500000)
    ?_ ?_ ?_ ?_ ?_ ?_ ?_ ?_ ?_ ?_ ?_ ?_ ?_ ?_ ?_).trans ?_ <;> try norm_num
  refine (RF_le_step (p := 14049/1000000) (q := 32789/1000000) (r := 32797/1000000) (x' := 1171/50000) (y' := 11711/500000) (z' := 7809/200000)
    ?_ ?_ ?_ ?_ ?_ ?_ ?_ ?_ ?_ ?_ ?_ ?_ ?_ ?_ ?_).trans ?_ <;> try norm_num
  refine (RF_le_step (p := 1171/50000) (q := 30239/1000000) (r := 189/6250) (x' := 26829/1000000) (y' := 2683/100000) (z' := 1921/62500)
    ?_ ?_ ?_ ?_ ?_ ?_ ?_ ?_ ?_ ?_ ?_ ?_ ?_ ?_ ?_).trans ?_ <;> try norm_num
  have hfin : 1/√(3509/125000:ℝ) ≤ 597/100 := by
    have : (16754/100000 : ℝ) ≤ √(3509/125000) := by apply le_sqrt_of_sq_le; norm_num
    rw [div_le_iff₀ (by positivity)]
    linarith
  refine (RF_le_geom (g := 3509/125000) ?_ ?_ ?_ ?_ ?_ ?_ ?_).trans hfin <;> norm_num

/-- the series factor of `rfVal` -/
noncomputable def rfS (x y z : ℝ) : ℝ :=
  let mu := (x + y + z) / 3
  let X := 1 - x / mu
  let Y := 1 - y / mu
  let Z := 1 - z / mu
  let s1 := (X^2 + Y^2 + Z^2) / 4
  let s2 := (X^2*X + Y^2*Y + Z^2*Z) / 6
  1 + s1/5 + s2/7 + s1^2/6 + 3/11*s1*s2 + (5/26*(s1^2*s1) + 3/26*s2^2)

theorem rfVal_eq {x y z : ℝ} (h : 0 < x + y + z) : rfVal x y z = rfS x y z / √((x+y+z)/3) := by
  unfold rfVal rfS
  simp only
  rw [rpow_neg_half (by positivity)]
  ring

theorem rfVal_lt {x y z x' y' z' : ℝ} (h : 0 < x + y + z) (h' : 0 < x' + y' + z')
    (hS' : 0 < rfS x' y' z') (hlt : rfS x y z^2 * ((x'+y'+z')/3) < rfS x' y' z'^2 * ((x+y+z)/3)) : rfVal x y z < rfVal x' y' z' := by
  rw [rfVal_eq h, rfVal_eq h', div_lt_div_iff₀ (by positivity) (by positivity)]
  apply lt_of_pow_lt_pow_left₀ 2 (by positivity)
  rw [mul_pow, mul_pow, sq_sqrt (by positivity), sq_sqrt (by positivity)]
  exact hlt

/-- the arguments after one and two duplications started from `(0,w⁴,1)`, with `c=√(1+w²)` -/
theorem dup_one (w : ℝ) : dupIter 0 (w^4) 1 1 = (w^2/4, (w^4 + w^2)/4, (1 + w^2)/4) := by
  have : lam 0 (w^4) 1 = w^2 := by
    unfold lam
    rw [zero_mul, zero_mul, sqrt_zero, mul_one, show w^4 = (w^2)^2 by ring, sqrt_sq (by positivity)]; ring
  simp only [dupIter, this, zero_add]

theorem dup_two (w c : ℝ) (hw : 0 ≤ w) (hc : 0 ≤ c) (h : c^2 = 1 + w^2) :
    dupIter 0 (w^4) 1 2 = ((w^2/4 + w*c*(w+1+c)/4)/4, ((w^4 + w^2)/4 + w*c*(w+1+c)/4)/4, ((1 + w^2)/4 + w*c*(w+1+c)/4)/4) := by
  have e : dupIter 0 (w^4) 1 2 = (((dupIter 0 (w^4) 1 1).1 + lam (dupIter 0 (w^4) 1 1).1 (dupIter 0 (w^4) 1 1).2.1 (dupIter 0 (w^4) 1 1).2.2)/4,
      ((dupIter 0 (w^4) 1 1).2.1 + lam (dupIter 0 (w^4) 1 1).1 (dupIter 0 (w^4) 1 1).2.1 (dupIter 0 (w^4) 1 1).2.2)/4,
      ((dupIter 0 (w^4) 1 1).2.2 + lam (dupIter 0 (w^4) 1 1).1 (dupIter 0 (w^4) 1 1).2.1 (dupIter 0 (w^4) 1 1).2.2)/4) := rfl
  rw [e, dup_one w]
  have : lam (w^2/4) ((w^4 + w^2)/4) ((1 + w^2)/4) = w*c*(w+1+c)/4 := by
    unfold lam
    rw [show w^2/4 * ((w^4+w^2)/4) = (w^2*c/4)^2 by rw [div_pow, mul_pow, h]; ring, sqrt_sq (by positivity),
      show w^2/4 * ((1+w^2)/4) = (w*c/4)^2 by rw [div_pow, mul_pow, h]; ring, sqrt_sq (by positivity),
      show (w^4+w^2)/4 * ((1+w^2)/4) = (w*c^2/4)^2 by rw [h]; ring, sqrt_sq (by positivity)]
    ring
  simp only [this]

theorem sign_b : rfVal (dupIter 0 ((1146919/11295000:ℝ)^4) 1 2).1 (dupIter 0 ((1146919/11295000:ℝ)^4) 1 2).2.1 (dupIter 0 ((1146919/11295000:ℝ)^4) 1 2).2.2 <
    rfVal (dupIter 0 ((1146919/11295000:ℝ)^4) 1 1).1 (dupIter 0 ((1146919/11295000:ℝ)^4) 1 1).2.1 (dupIter 0 ((1146919/11295000:ℝ)^4) 1 1).2.2 := by
  rw [dup_one _, dup_two (1146919/11295000) (11353081/11295000) (by norm_num) (by norm_num) (by norm_num)]
  apply rfVal_lt
  · norm_num
  · norm_num
  · norm_num [rfS]
  · norm_num [rfS]

theorem sign_a : rfVal (dupIter 0 ((4578639/45190000:ℝ)^4) 1 1).1 (dupIter 0 ((4578639/45190000:ℝ)^4) 1 1).2.1 (dupIter 0 ((4578639/45190000:ℝ)^4) 1 1).2.2 <
    rfVal (dupIter 0 ((4578639/45190000:ℝ)^4) 1 2).1 (dupIter 0 ((4578639/45190000:ℝ)^4) 1 2).2.1 (dupIter 0 ((4578639/45190000:ℝ)^4) 1 2).2.2 := by
  rw [dup_one _, dup_two (4578639/45190000) (45421361/45190000) (by norm_num) (by norm_num) (by norm_num)]
  apply rfVal_lt
  · norm_num
  · norm_num
  · norm_num [rfS]
  · norm_num [rfS]

theorem poly_cont {f g h r : ℝ → ℝ} {S : Set ℝ} (hf : ContinuousOn f S) (hg : ContinuousOn g S) (hh : ContinuousOn h S) (hr : ContinuousOn r S) :
    ContinuousOn (fun w => r w * (1 + ((1 - f w)^2 + (1 - g w)^2 + (1 - h w)^2)/4/5 +
      ((1 - f w)^2*(1 - f w) + (1 - g w)^2*(1 - g w) + (1 - h w)^2*(1 - h w))/6/7 +
      (((1 - f w)^2 + (1 - g w)^2 + (1 - h w)^2)/4)^2/6 +
      3/11*(((1 - f w)^2 + (1 - g w)^2 + (1 - h w)^2)/4)*(((1 - f w)^2*(1 - f w) + (1 - g w)^2*(1 - g w) + (1 - h w)^2*(1 - h w))/6) +
      (5/26*((((1 - f w)^2 + (1 - g w)^2 + (1 - h w)^2)/4)^2*(((1 - f w)^2 + (1 - g w)^2 + (1 - h w)^2)/4)) +
       3/26*(((1 - f w)^2*(1 - f w) + (1 - g w)^2*(1 - g w) + (1 - h w)^2*(1 - h w))/6)^2))) S := by
  fun_prop

/-- the crossing -/
theorem crossing : ∃ w : ℝ, 4578639/45190000 ≤ w ∧ w ≤ 1146919/11295000 ∧
    rfVal (dupIter 0 (w^4) 1 1).1 (dupIter 0 (w^4) 1 1).2.1 (dupIter 0 (w^4) 1 1).2.2 =
    rfVal (dupIter 0 (w^4) 1 2).1 (dupIter 0 (w^4) 1 2).2.1 (dupIter 0 (w^4) 1 2).2.2 := by
  have hpos : ∀ (k : ℕ) (w : ℝ), 0 < w → 0 < (dupIter 0 (w^4) 1 k).1 + (dupIter 0 (w^4) 1 k).2.1 + (dupIter 0 (w^4) 1 k).2.2 := by
    intro k w hw
    obtain ⟨a, b, c⟩ := dupIter_pos le_rfl (pow_pos hw 4) one_pos k (x := 0)
    positivity
  have cd : ∀ k : ℕ, Continuous fun w : ℝ => dupIter 0 (w^4) 1 k := by
    intro k
    induction k with
    | zero => simp only [dupIter]; fun_prop
    | succ k ih =>
      simp only [dupIter, lam]
      fun_prop
  have cv : ∀ k : ℕ, ContinuousOn (fun w : ℝ => rfVal (dupIter 0 (w^4) 1 k).1 (dupIter 0 (w^4) 1 k).2.1 (dupIter 0 (w^4) 1 k).2.2) (Ioi 0) := by
    intro k
    have h1 : Continuous fun w : ℝ => (dupIter 0 (w^4) 1 k).1 := (cd k).fst
    have h2 : Continuous fun w : ℝ => (dupIter 0 (w^4) 1 k).2.1 := (cd k).snd.fst
    have h3 : Continuous fun w : ℝ => (dupIter 0 (w^4) 1 k).2.2 := (cd k).snd.snd
    have hmu : ContinuousOn (fun w : ℝ => ((dupIter 0 (w^4) 1 k).1 + (dupIter 0 (w^4) 1 k).2.1 + (dupIter 0 (w^4) 1 k).2.2)/3) (Ioi 0) :=
      (((h1.add h2).add h3).div_const 3).continuousOn
    have hmu0 : ∀ w ∈ Ioi (0:ℝ), ((dupIter 0 (w^4) 1 k).1 + (dupIter 0 (w^4) 1 k).2.1 + (dupIter 0 (w^4) 1 k).2.2)/3 ≠ 0 := by
      intro w hw
      have := hpos k w hw
      positivity
    have q1 := h1.continuousOn.div hmu hmu0
    have q2 := h2.continuousOn.div hmu hmu0
    have q3 := h3.continuousOn.div hmu hmu0
    have hr : ContinuousOn (fun w : ℝ => (((dupIter 0 (w^4) 1 k).1 + (dupIter 0 (w^4) 1 k).2.1 + (dupIter 0 (w^4) 1 k).2.2)/3) ^ (-1/2 : ℝ)) (Ioi 0) :=
      hmu.rpow_const (fun w hw => Or.inl (hmu0 w hw))
    exact poly_cont q1 q2 q3 hr
  have hle : (4578639/45190000 : ℝ) ≤ 1146919/11295000 := by norm_num
  have hsub : Icc (4578639/45190000 : ℝ) (1146919/11295000) ⊆ Ioi 0 := by
    intro w hw
    have : (0:ℝ) < 4578639/45190000 := by norm_num
    exact lt_of_lt_of_le this hw.1
  have := intermediate_value_Icc' hle (((cv 2).sub (cv 1)).mono hsub)
  obtain ⟨w, hw, e⟩ := this (show (0:ℝ) ∈ _ from ⟨sub_nonpos.mpr sign_b.le, sub_nonneg.mpr sign_a.le⟩)
  refine ⟨w, hw.1, hw.2, ?_⟩
  exact (sub_eq_zero.mp e).symm

/-- the second value of the loop near the crossing -/
theorem second_value {w : ℝ} (h1 : 4578639/45190000 ≤ w) (h2 : w ≤ 1146919/11295000) :
    602/100 ≤ rfVal (dupIter 0 (w^4) 1 1).1 (dupIter 0 (w^4) 1 1).2.1 (dupIter 0 (w^4) 1 1).2.2 := by
  have hw : 0 < w := lt_of_lt_of_le (by norm_num) h1
  have s1 : 10265/1000000 ≤ w^2 := le_trans (by norm_num) (pow_le_pow_left₀ (by norm_num) h1 2)
  have s2 : w^2 ≤ 10311/1000000 := le_trans (pow_le_pow_left₀ hw.le h2 2) (by norm_num)
  rw [dup_one w]
  simp only
  rw [rfVal_eq (by positivity)]
  have e4 : w^4 = (w^2)^2 := by ring
  rw [e4]
  generalize w^2 = s at *
  have hs0 : 0 < s := lt_of_lt_of_le (by norm_num) s1
  have hd : 0 < 1 + 3*s + s^2 := by positivity
  have hmu : (s/4 + (s^2 + s)/4 + (1 + s)/4)/3 = (1 + 3*s + s^2)/12 := by ring
  have d1 : 10309/10000 ≤ 1 + 3*s + s^2 := by nlinarith
  have d2 : 1 + 3*s + s^2 ≤ 103104/100000 := by nlinarith
  have hX : 1 - s/4/((1 + 3*s + s^2)/12) = 1 - 3*s/(1 + 3*s + s^2) := by field_simp; ring
  have hY : 1 - (s^2+s)/4/((1 + 3*s + s^2)/12) = 1 - 3*(s^2+s)/(1 + 3*s + s^2) := by field_simp; ring
  have hZ : 1 - (1+s)/4/((1 + 3*s + s^2)/12) = -((1 - 3*s/(1 + 3*s + s^2)) + (1 - 3*(s^2+s)/(1 + 3*s + s^2))) := by field_simp; ring
  have x1 : 96999/100000 ≤ 1 - 3*s/(1 + 3*s + s^2) := by
    have : 3*s/(1 + 3*s + s^2) ≤ 3001/100000 := by rw [div_le_iff₀ hd]; linarith
    linarith
  have x2 : 1 - 3*s/(1 + 3*s + s^2) ≤ 97015/100000 := by
    have : 2985/100000 ≤ 3*s/(1 + 3*s + s^2) := by rw [le_div_iff₀ hd]; linarith
    linarith
  have y1 : 96968/100000 ≤ 1 - 3*(s^2+s)/(1 + 3*s + s^2) := by
    have : 3*(s^2+s)/(1 + 3*s + s^2) ≤ 3032/100000 := by rw [div_le_iff₀ hd]; nlinarith
    linarith
  have y2 : 1 - 3*(s^2+s)/(1 + 3*s + s^2) ≤ 96985/100000 := by
    have : 3015/100000 ≤ 3*(s^2+s)/(1 + 3*s + s^2) := by rw [le_div_iff₀ hd]; nlinarith
    linarith
  have hS : 17660/10000 ≤ rfS (s/4) ((s^2+s)/4) ((1+s)/4) := by
    unfold rfS
    simp only
    rw [hmu, hX, hY, hZ]
    generalize 1 - 3*s/(1 + 3*s + s^2) = X at *
    generalize 1 - 3*(s^2+s)/(1 + 3*s + s^2) = Y at *
    have a1 : (96999/100000:ℝ)*(96968/100000) ≤ X*Y := mul_le_mul x1 y1 (by norm_num) (by linarith)
    have a2 : X*Y ≤ (97015/100000:ℝ)*(96985/100000) := mul_le_mul x2 y2 (by linarith) (by norm_num)
    have b1 : (96999/100000:ℝ)^2 ≤ X^2 := pow_le_pow_left₀ (by norm_num) x1 2
    have b2 : X^2 ≤ (97015/100000:ℝ)^2 := pow_le_pow_left₀ (by linarith) x2 2
    have c1 : (96968/100000:ℝ)^2 ≤ Y^2 := pow_le_pow_left₀ (by norm_num) y1 2
    have c2 : Y^2 ≤ (96985/100000:ℝ)^2 := pow_le_pow_left₀ (by linarith) y2 2
    have p1 : 1410/1000 ≤ (X^2 + Y^2 + (-(X+Y))^2)/4 := by nlinarith
    have p2 : (X^2 + Y^2 + (-(X+Y))^2)/4 ≤ 1412/1000 := by nlinarith
    have e2 : (X^2*X + Y^2*Y + (-(X+Y))^2*(-(X+Y)))/6 = -(X*Y*(X+Y))/2 := by ring
    have t1 : (96999/100000:ℝ)*(96968/100000)*(96999/100000 + 96968/100000) ≤ X*Y*(X+Y) :=
      mul_le_mul a1 (by linarith) (by norm_num) (by nlinarith)
    have t2 : X*Y*(X+Y) ≤ (97015/100000:ℝ)*(96985/100000)*(97015/100000 + 96985/100000) :=
      mul_le_mul a2 (by linarith) (by linarith) (by norm_num)
    have q1 : 912/1000 ≤ X*Y*(X+Y)/2 := by linarith
    have q2 : X*Y*(X+Y)/2 ≤ 913/1000 := by linarith
    rw [e2]
    generalize (X^2 + Y^2 + (-(X+Y))^2)/4 = S1 at *
    have e3 : -(X*Y*(X+Y))/2 = -(X*Y*(X+Y)/2) := by ring
    rw [e3]
    generalize X*Y*(X+Y)/2 = S2 at *
    have r1 : (1410/1000:ℝ)^2 ≤ S1^2 := pow_le_pow_left₀ (by norm_num) p1 2
    have r2 : (1410/1000:ℝ)^2*(1410/1000) ≤ S1^2*S1 := mul_le_mul r1 p1 (by norm_num) (by positivity)
    have r3 : (912/1000:ℝ)^2 ≤ S2^2 := pow_le_pow_left₀ (by norm_num) q1 2
    have r4 : S1*S2 ≤ (1412/1000:ℝ)*(913/1000) := mul_le_mul p2 q2 (by linarith) (by norm_num)
    have e5 : (-S2)^2 = S2^2 := by ring
    rw [e5]
    have e6 : 3/11*S1*(-S2) = -(3/11)*(S1*S2) := by ring
    have e7 : (-S2)/7 = -(S2/7) := by ring
    rw [e6, e7]
    linarith
  rw [hmu, le_div_iff₀ (by positivity)]
  have hsq : √((1 + 3*s + s^2)/12) ≤ 29313/100000 := by
    rw [sqrt_le_left (by norm_num)]; nlinarith
  calc 602/100 * √((1 + 3*s + s^2)/12) ≤ 602/100*(29313/100000) := by gcongr
    _ ≤ 17660/10000 := by norm_num
    _ ≤ _ := hS

/-- one more pass of the loop on a single entry -/
theorem rfLoop_single (fuel : ℕ) (a : RFst) (u v : ℝ) (ha : a.RF = .fin u) (hb : (rfStep a).RF = .fin v) :
    rfLoop (fuel+1) [a] = if (1e-12 : ℝ) < |v - u| then rfLoop fuel [rfStep a] else [rfStep a] := by
  simp only [rfLoop, List.map_cons, List.map_nil, List.zipWith_cons_cons, List.zipWith_nil_left, npAmax, List.foldl_nil,
    ha, hb, Num.fin_sub, Num.abs_fin, carlsonRES, Num.lt_fin]

/-- **C76, stopping test refuted.**  There is a parameter `0<m<1` for which the routine, called with `n=0`
(where its answer should be the complete elliptic integral of the first kind), returns a finite number that is wrong by
at least `1/20` (the stated tolerance is `1e-12`): two successive passes of the loop return exactly the
same value long before the iteration has converged. -/
theorem C76_premature_stop_refuted : ∃ m : ℝ, 0 < m ∧ m < 1 ∧ ∃ v : ℝ,
    ellipticPiCarlson [(.fin 0, .fin m)] = [.fin v] ∧ 1/20 ≤ |v - ellK m| := by
  obtain ⟨w, h1, h2, hx⟩ := crossing
  have hv := second_value h1 h2
  have hw : 0 < w := lt_of_lt_of_le (by norm_num) h1
  have hy : 5269/50000000 ≤ w^4 := le_trans (by norm_num) (pow_le_pow_left₀ (by norm_num) h1 4)
  have hy1 : w^4 < 1 := lt_of_le_of_lt (pow_le_pow_left₀ hw.le h2 4) (by norm_num)
  have hy0 : 0 < w^4 := by positivity
  have hK : ellK (1 - w^4) = RF 0 (w^4) 1 := by rw [ellK_eq_RF _ (by linarith)]; congr 1; ring
  have hKu : ellK (1 - w^4) ≤ 597/100 := by
    rw [hK]
    exact (RF_mono le_rfl (by norm_num) one_pos le_rfl hy le_rfl).trans RF_upper
  have hKl : 1 ≤ ellK (1 - w^4) := by
    rw [hK]
    have := RF_mono (x := 0) (y := w^4) (z := 1) (x' := 1) (y' := 1) (z' := 1) le_rfl hy0 one_pos zero_le_one hy1.le le_rfl
    rw [RF_const one_pos, sqrt_one, div_one] at this
    exact this
  refine ⟨1 - w^4, by linarith, by linarith, ?_⟩
  have e0 := C38_n_zero [1 - w^4] (by intro m hm; simp only [List.mem_singleton] at hm; rw [hm]; linarith)
  simp only [List.map_cons, List.map_nil, sub_sub_cancel] at e0
  have it := fun k => rfStep_iter 0 (w^4) 1 le_rfl hy0.le zero_le_one (by positivity) k
  have i1 := it 0
  have i2 := it 1
  have i3 := it 2
  rw [← hx] at i3
  rw [Function.iterate_succ_apply', i2] at i3
  rw [Function.iterate_succ_apply', i1] at i2
  simp only [zero_add, Function.iterate_one] at i1
  rw [e0]
  unfold ellipticRF carlsonITMAX
  simp only [List.map_cons, List.map_nil, Num.zero_def, Num.one_def] at *
  rw [rfLoop_single 19 _ 0 _ rfl (by rw [i1])]
  by_cases c1 : (1e-12:ℝ) < |rfVal (dupIter 0 (w^4) 1 0).1 (dupIter 0 (w^4) 1 0).2.1 (dupIter 0 (w^4) 1 0).2.2 - 0|
  · rw [if_pos c1, i1, rfLoop_single 18 _ _ _ rfl (by rw [i2])]
    refine ⟨rfVal (dupIter 0 (w^4) 1 1).1 (dupIter 0 (w^4) 1 1).2.1 (dupIter 0 (w^4) 1 1).2.2, ?_, ?_⟩
    · split_ifs with c2
      · rw [i2, rfLoop_single 17 _ _ _ rfl (by rw [i3]), sub_self, abs_zero, if_neg (by norm_num), i3]
        rfl
      · rw [i2]; rfl
    · rw [abs_of_nonneg (by linarith)]; linarith
  · rw [if_neg c1, i1]
    refine ⟨_, rfl, ?_⟩
    rw [sub_zero, not_lt] at c1
    have := (abs_le.mp c1).2
    rw [abs_sub_comm]
    refine le_trans ?_ (le_abs_self _)
    norm_num at this ⊢
    linarith

end Wiz
