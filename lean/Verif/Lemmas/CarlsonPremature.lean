import Verif.Lemmas.CarlsonUniformPi
import Verif.Props.CarlsonStop
set_option autoImplicit false

/-! The third-kind routine near the premature stop of its first-kind loop. -/
namespace Wiz
open Spec Real MeasureTheory Set Filter Topology

/-! ### a lower bound of the series factor of the third-kind sum -/

theorem rjS_lower {X Y Z P a b c d B1 A2 A4 : ℝ} (ha : 0 ≤ a) (hc : 0 ≤ c) (x1 : a ≤ X) (x2 : X ≤ b) (y1 : a ≤ Y) (y2 : Y ≤ b)
    (p1 : a ≤ P) (p2 : P ≤ b) (z1 : -d ≤ Z) (z2 : Z ≤ -c) (hB1 : (4*b^2 + d^2)/4 ≤ B1) (hA2 : A2 ≤ (4*a^3 - d^3)/6) (hA20 : A2 ≤ 0)
    (hA4 : A4 ≤ (4*a^5 - d^5)/10) :
    1 + 3/7*((4*a^2+c^2)/4) + A2/3 + 3/22*((4*a^2+c^2)/4)^2 + 3/11*((4*a^4+c^4)/8) + 3/13*(B1*A2 + A4) - B1^3/10 +
      3/5*((4*a^2+c^2)/4)*((4*a^4+c^4)/8) ≤ rjS X Y Z P := by
  have hz : ∃ z, Z = -z := ⟨-Z, by ring⟩
  obtain ⟨z, rfl⟩ := hz
  have z1' : z ≤ d := by linarith
  have z2' : c ≤ z := by linarith
  have hz0 : 0 ≤ z := hc.trans z2'
  have hX0 := ha.trans x1
  have hY0 := ha.trans y1
  have hP0 := ha.trans p1
  have lo : ∀ n : ℕ, a^n ≤ X^n ∧ a^n ≤ Y^n ∧ a^n ≤ P^n ∧ c^n ≤ z^n := fun n =>
    ⟨pow_le_pow_left₀ ha x1 n, pow_le_pow_left₀ ha y1 n, pow_le_pow_left₀ ha p1 n, pow_le_pow_left₀ hc z2' n⟩
  have hi : ∀ n : ℕ, X^n ≤ b^n ∧ Y^n ≤ b^n ∧ P^n ≤ b^n ∧ z^n ≤ d^n := fun n =>
    ⟨pow_le_pow_left₀ hX0 x2 n, pow_le_pow_left₀ hY0 y2 n, pow_le_pow_left₀ hP0 p2 n, pow_le_pow_left₀ hz0 z1' n⟩
  obtain ⟨l21, l22, l23, l24⟩ := lo 2
  obtain ⟨l31, l32, l33, l34⟩ := lo 3
  obtain ⟨l41, l42, l43, l44⟩ := lo 4
  obtain ⟨l51, l52, l53, l54⟩ := lo 5
  obtain ⟨h21, h22, h23, h24⟩ := hi 2
  obtain ⟨-, -, -, h34⟩ := hi 3
  obtain ⟨-, -, -, h54⟩ := hi 5
  have s1l : (4*a^2+c^2)/4 ≤ (X^2 + Y^2 + (-z)^2 + 2*P^2)/4 := by rw [neg_sq]; linarith
  have s1h : (X^2 + Y^2 + (-z)^2 + 2*P^2)/4 ≤ B1 := by rw [neg_sq]; linarith
  have s2l : A2 ≤ (X^3 + Y^3 + (-z)^3 + 2*P^3)/6 := by rw [show (-z)^3 = -z^3 by ring]; linarith
  have s3l : (4*a^4+c^4)/8 ≤ (X^4 + Y^4 + (-z)^4 + 2*P^4)/8 := by rw [show (-z)^4 = z^4 by ring]; linarith
  have s4l : A4 ≤ (X^5 + Y^5 + (-z)^5 + 2*P^5)/10 := by rw [show (-z)^5 = -z^5 by ring]; linarith
  unfold rjS
  simp only
  have g1 : 0 ≤ (4*a^2+c^2)/4 := by positivity
  have g3 : 0 ≤ (4*a^4+c^4)/8 := by positivity
  generalize (X^2 + Y^2 + (-z)^2 + 2*P^2)/4 = s1 at *
  generalize (X^3 + Y^3 + (-z)^3 + 2*P^3)/6 = s2 at *
  generalize (X^4 + Y^4 + (-z)^4 + 2*P^4)/8 = s3 at *
  generalize (X^5 + Y^5 + (-z)^5 + 2*P^5)/10 = s4 at *
  generalize (4*a^2+c^2)/4 = A1 at *
  generalize (4*a^4+c^4)/8 = A3 at *
  clear l21 l22 l23 l24 l31 l32 l33 l34 l41 l42 l43 l44 l51 l52 l53 l54 h21 h22 h23 h24 h34 h54 lo hi
  have k1 : A1^2 ≤ s1*s1 := by rw [pow_two]; exact mul_le_mul s1l s1l g1 (g1.trans s1l)
  have k2 : B1*A2 ≤ s1*s2 :=
    (mul_le_mul_of_nonpos_right s1h hA20).trans (mul_le_mul_of_nonneg_left s2l (g1.trans s1l))
  have k3 : s1*s1*s1 ≤ B1^3 := by
    have h0 : 0 ≤ s1 := g1.trans s1l
    have := pow_le_pow_left₀ h0 s1h 3
    linarith [show s1^3 = s1*s1*s1 by ring]
  have k4 : A1*A3 ≤ s1*s3 := mul_le_mul s1l s3l g3 (g1.trans s1l)
  have k5 := sq_nonneg s2
  have k6 : 3/5*A1*A3 ≤ 3/5*s1*s3 := by linarith
  linarith

/-- the tail of the third-kind sum from bounds of its first argument -/
theorem tail_lower {x e y p mh σ T a b c d B1 A2 A4 : ℝ} (hx : 0 < x) (he : 0 < e) (hp : 0 < p) (hpy : p ≤ y) (hy1 : y ≤ 1)
    (ha : 0 ≤ a) (hc : 0 ≤ c) (hm0 : 0 < mh)
    (hmh : x + e*(1 + 3*y)/5 ≤ mh)
    (h1 : (1 - b)*(x + e*(1 + 3*y)/5) ≤ x) (h2 : x + e*y ≤ (1 - a)*(x + e/5))
    (h3 : (1 + c)*(x + e*(1 + 3*y)/5) ≤ x + e) (h4 : x + e ≤ (1 + d)*(x + e/5))
    (hb1 : b ≤ 1)
    (hB1 : (4*b^2 + d^2)/4 ≤ B1) (hA2 : A2 ≤ (4*a^3 - d^3)/6) (hA20 : A2 ≤ 0) (hA4 : A4 ≤ (4*a^5 - d^5)/10)
    (hσ0 : 0 ≤ σ)
    (hσ : σ ≤ 1 + 3/7*((4*a^2+c^2)/4) + A2/3 + 3/22*((4*a^2+c^2)/4)^2 + 3/11*((4*a^4+c^4)/8) + 3/13*(B1*A2 + A4) - B1^3/10 +
      3/5*((4*a^2+c^2)/4)*((4*a^4+c^4)/8)) (hT0 : 0 ≤ T) (hT : T^2*mh^3 ≤ σ^2) :
    T ≤ rjTail x (x + e*y) (x + e) (x + e*p) := by
  have hy0 : 0 < y := by linarith
  rw [rjTail_eq (by positivity)]
  obtain ⟨M, hM⟩ : ∃ M, M = (x + (x + e*y) + (x + e) + 2*(x + e*p))/5 := ⟨_, rfl⟩
  rw [← hM]
  have hMx : M = x + e*(1 + y + 2*p)/5 := by rw [hM]; ring
  have hep := mul_pos he hp
  have hey := mul_pos he hy0
  have hepy := mul_le_mul_of_nonneg_left hpy he.le
  have hM1 : x + e/5 ≤ M := by rw [hMx]; linarith
  have hM2 : M ≤ x + e*(1 + 3*y)/5 := by rw [hMx]; linarith
  have hM0 : 0 < M := by linarith
  have hd : 0 ≤ 1 + d := by
    by_contra hcon
    push Not at hcon
    nlinarith
  have r : ∀ t : ℝ, (1 - b)*M ≤ t → t ≤ (1 - a)*M → a ≤ 1 - t/M ∧ 1 - t/M ≤ b := by
    intro t u v
    have e1 : 1 - b ≤ t/M := by rw [le_div_iff₀ hM0]; exact u
    have e2 : t/M ≤ 1 - a := by rw [div_le_iff₀ hM0]; exact v
    exact ⟨by linarith, by linarith⟩
  have hb0 : (1 - b)*M ≤ x := (mul_le_mul_of_nonneg_left hM2 (by linarith)).trans h1
  have ha1 : 0 ≤ 1 - a := by
    by_contra hcon
    push Not at hcon
    nlinarith
  have ha0 : x + e*y ≤ (1 - a)*M := h2.trans (mul_le_mul_of_nonneg_left hM1 ha1)
  obtain ⟨rx1, rx2⟩ := r x hb0 (by linarith)
  obtain ⟨ry1, ry2⟩ := r (x + e*y) (by linarith) ha0
  obtain ⟨rp1, rp2⟩ := r (x + e*p) (by linarith) (by linarith)
  have rz1 : -d ≤ 1 - (x+e)/M := by
    have : (x+e)/M ≤ 1 + d := by rw [div_le_iff₀ hM0]; exact h4.trans (mul_le_mul_of_nonneg_left hM1 hd)
    linarith
  have rz2 : 1 - (x+e)/M ≤ -c := by
    have : 1 + c ≤ (x+e)/M := by rw [le_div_iff₀ hM0]; exact (mul_le_mul_of_nonneg_left hM2 (by linarith)).trans h3
    linarith
  have hS := rjS_lower ha hc rx1 rx2 ry1 ry2 rp1 rp2 rz1 rz2 hB1 hA2 hA20 hA4
  have hS' := hσ.trans hS
  generalize rjS (1 - x/M) (1 - (x + e*y)/M) (1 - (x+e)/M) (1 - (x + e*p)/M) = S at *
  have hsM := sqrt_pos.mpr hM0
  rw [one_div_mul_eq_div, le_div_iff₀ (by positivity)]
  refine le_trans ?_ hS'
  refine (pow_le_pow_iff_left₀ (by positivity) hσ0 two_ne_zero).mp (le_trans ?_ hT)
  have hMm : M ≤ mh := hM2.trans hmh
  rw [mul_pow, mul_pow, sq_sqrt hM0.le]
  have : M*M^2 ≤ mh^3 := by
    have := pow_le_pow_left₀ hM0.le hMm 3
    linarith [show M*M^2 = M^3 by ring]
  exact mul_le_mul_of_nonneg_left this (sq_nonneg T)

/-- one duplication with rational bounds -/
theorem xi_step {x e y lo hi l u : ℝ} (hx : 0 < x) (he : 0 < e) (hy : 0 < y) (hu0 : 0 ≤ u)
    (hl : l^2 ≤ x*(x+e)) (hu : (x+e*y)*(x+e) ≤ u^2) (hlo : lo ≤ (2*x + 2*l)/4) (hhi : (2*x + e*y + 2*u)/4 ≤ hi) :
    lo ≤ (x + lam x (x+e*y) (x+e))/4 ∧ (x + lam x (x+e*y) (x+e))/4 ≤ hi := by
  have hey : 0 < e*y := mul_pos he hy
  have a1 : x ≤ √(x*(x+e*y)) := le_sqrt_of_sq_le (by nlinarith)
  have a2 : √(x*(x+e*y)) ≤ x + e*y := by rw [sqrt_le_left (by positivity)]; nlinarith
  have b1 : l ≤ √(x*(x+e)) := le_sqrt_of_sq_le hl
  have b2 : √(x*(x+e)) ≤ √((x+e*y)*(x+e)) := sqrt_le_sqrt (by nlinarith)
  have b3 : √((x+e*y)*(x+e)) ≤ u := by rw [sqrt_le_left hu0]; exact hu
  unfold lam
  constructor <;> linarith

theorem xi_next {y lo hi lo' hi' l u : ℝ} (j : ℕ) (y1 : 105370/1000000000 ≤ y) (y2 : y ≤ 106317/1000000000) (hlo0 : 0 < lo)
    (a1 : lo ≤ (dupIter 0 y 1 j).1) (a2 : (dupIter 0 y 1 j).1 ≤ hi) (hu0 : 0 ≤ u)
    (hl : l^2 ≤ lo*(lo+((4:ℝ)^j)⁻¹)) (hu : (hi+((4:ℝ)^j)⁻¹*(106317/1000000000))*(hi+((4:ℝ)^j)⁻¹) ≤ u^2) (hlo : lo' ≤ (2*lo + 2*l)/4)
    (hhi : (2*hi + ((4:ℝ)^j)⁻¹*(106317/1000000000) + 2*u)/4 ≤ hi') :
    lo' ≤ (dupIter 0 y 1 (j+1)).1 ∧ (dupIter 0 y 1 (j+1)).1 ≤ hi' := by
  have hy : 0 < y := by linarith
  obtain ⟨s1, s2, -⟩ := cu_shape y 0 j
  have es : (dupIter 0 y 1 (j+1)).1 = ((dupIter 0 y 1 j).1 + lam (dupIter 0 y 1 j).1 (dupIter 0 y 1 j).2.1 (dupIter 0 y 1 j).2.2)/4 := rfl
  rw [es, s1, s2]
  clear es
  have he : 0 < ((4:ℝ)^j)⁻¹ := by positivity
  generalize ((4:ℝ)^j)⁻¹ = e at *
  generalize (dupIter 0 y 1 j).1 = x at *
  have hey : e*y ≤ e*(106317/1000000000) := mul_le_mul_of_nonneg_left y2 he.le
  have hey0 : 0 < e*y := mul_pos he hy
  refine xi_step (l := l) (u := u) (by linarith) he hy hu0 (hl.trans ?_) (le_trans ?_ hu) (by linarith) (by linarith)
  · exact mul_le_mul a1 (by linarith) (by linarith) (by linarith)
  · exact mul_le_mul (by linarith) (by linarith) (by linarith) (by linarith)

/-- the smallest argument after one to four duplications -/
theorem xi_vals {w : ℝ} (h1 : 4578639/45190000 ≤ w) (h2 : w ≤ 1146919/11295000) :
    (105370/1000000000 ≤ w^4 ∧ w^4 ≤ 106317/1000000000) ∧
    (2566250/1000000000 ≤ (dupIter 0 (w^4) 1 1).1 ∧ (dupIter 0 (w^4) 1 1).1 ≤ 2577750/1000000000) ∧
    (14012/1000000 ≤ (dupIter 0 (w^4) 1 2).1 ∧ (dupIter 0 (w^4) 1 2).1 ≤ 14120/1000000) ∧
    (23377/1000000 ≤ (dupIter 0 (w^4) 1 3).1 ∧ (dupIter 0 (w^4) 1 3).1 ≤ 23512/1000000) ∧
    (26785/1000000 ≤ (dupIter 0 (w^4) 1 4).1 ∧ (dupIter 0 (w^4) 1 4).1 ≤ 26925/1000000) := by
  have hw : 0 < w := lt_of_lt_of_le (by norm_num) h1
  have s1 : 10265/1000000 ≤ w^2 := le_trans (by norm_num) (pow_le_pow_left₀ (by norm_num) h1 2)
  have s2 : w^2 ≤ 10311/1000000 := le_trans (pow_le_pow_left₀ hw.le h2 2) (by norm_num)
  have e4 : w^4 = w^2*w^2 := by ring
  have y1 : 105370/1000000000 ≤ w^4 := by rw [e4]; nlinarith
  have y2 : w^4 ≤ 106317/1000000000 := by rw [e4]; nlinarith
  have e1 : (dupIter 0 (w^4) 1 1).1 = w^2/4 := by rw [dup_one]
  have b1 : 2566250/1000000000 ≤ (dupIter 0 (w^4) 1 1).1 ∧ (dupIter 0 (w^4) 1 1).1 ≤ 2577750/1000000000 := by
    rw [e1]; constructor <;> linarith
  have b2 := xi_next (lo' := 14012/1000000) (hi' := 14120/1000000) (l := 25458/1000000) (u := 25648/1000000) 1 y1 y2 (by norm_num) b1.1 b1.2
    (by norm_num) (by norm_num) (by norm_num) (by norm_num) (by norm_num)
  have b3 := xi_next (lo' := 23377/1000000) (hi' := 23512/1000000) (l := 32742/1000000) (u := 32900/1000000) 2 y1 y2 (by norm_num) b2.1 b2.2
    (by norm_num) (by norm_num) (by norm_num) (by norm_num) (by norm_num)
  have b4 := xi_next (lo' := 26785/1000000) (hi' := 26925/1000000) (l := 30195/1000000) (u := 30336/1000000) 3 y1 y2 (by norm_num) b3.1 b3.2
    (by norm_num) (by norm_num) (by norm_num) (by norm_num) (by norm_num)
  exact ⟨⟨y1, y2⟩, b1, b2, b3, b4⟩

/-- the third-kind integral of the next arguments -/
theorem RJ_dup_le {y p b T : ℝ} (hp : 0 < p) (hpy : p ≤ y) (hy : y ≤ 1) (k : ℕ) (hb : 0 < b) (h : b ≤ (dupIter 0 y 1 k).1) (hT0 : 0 < T)
    (hT : 1 ≤ T^2*b^3) : RJ (dupIter 0 y 1 k).1 (dupIter 0 y 1 k).2.1 (dupIter 0 y 1 k).2.2 (dupP 0 y 1 p k) ≤ T := by
  obtain ⟨o1, o2, o3⟩ := dup_order hp.le hpy hy k
  have := RJ_mono hb hb hb hb h (h.trans (o1.trans o2)) (h.trans (o1.trans (o2.trans o3))) (h.trans o1)
  rw [RJ_const hb] at this
  refine this.trans ?_
  have hs := sqrt_pos.mpr hb
  rw [div_le_iff₀ (by positivity)]
  have : 1^2 ≤ (T*(√b*b))^2 := by
    rw [mul_pow, mul_pow, sq_sqrt hb.le]; linarith [show T^2*(b*b^2) = T^2*b^3 by ring]
  exact (pow_le_pow_iff_left₀ zero_le_one (by positivity) two_ne_zero).mp this

/-- the truncation of the third-kind loop after at least two passes -/
theorem tail_error {w p : ℝ} (h1 : 4578639/45190000 ≤ w) (h2 : w ≤ 1146919/11295000) (hp : 0 < p) (hpy : p ≤ w^4) (k : ℕ) :
    -(56/1000) ≤ ((4:ℝ)^(k+2))⁻¹ * (rjTail (dupIter 0 (w^4) 1 (k+1)).1 (dupIter 0 (w^4) 1 (k+1)).2.1 (dupIter 0 (w^4) 1 (k+1)).2.2 (dupP 0 (w^4) 1 p (k+1)) -
      RJ (dupIter 0 (w^4) 1 (k+2)).1 (dupIter 0 (w^4) 1 (k+2)).2.1 (dupIter 0 (w^4) 1 (k+2)).2.2 (dupP 0 (w^4) 1 p (k+2))) := by
  obtain ⟨⟨y1, y2⟩, b1, b2, b3, b4⟩ := xi_vals h1 h2
  have hy1 : w^4 ≤ 1 := by linarith
  have shape := fun j => cu_shape (w^4) p j
  generalize w^4 = y at *
  have low : ∀ k, 26785/1000000 ≤ (dupIter 0 y 1 (k+4)).1 := by
    intro k
    induction k with
    | zero => exact b4.1
    | succ k ih =>
      have es : (dupIter 0 y 1 (k+4+1)).1 = ((dupIter 0 y 1 (k+4)).1 + lam (dupIter 0 y 1 (k+4)).1 (dupIter 0 y 1 (k+4)).2.1 (dupIter 0 y 1 (k+4)).2.2)/4 := rfl
      have hy : 0 < y := by linarith
      rw [show k+1+4 = k+4+1 by ring, es, (shape (k+4)).1, (shape (k+4)).2.1]
      clear es
      have he : 0 < ((4:ℝ)^(k+4))⁻¹ := by positivity
      generalize ((4:ℝ)^(k+4))⁻¹ = e at *
      generalize (dupIter 0 y 1 (k+4)).1 = x at *
      have hx : 0 < x := by linarith
      have hey : 0 < e*y := mul_pos he hy
      exact (xi_step (l := x) (u := x + e*y + e) (hi := (2*x + e*y + 2*(x + e*y + e))/4) hx he hy (by positivity) (by nlinarith)
        (by nlinarith [mul_pos hx he, mul_pos hx hey, mul_pos hey he]) (by linarith) le_rfl).1
  have tl : ∀ j, 0 ≤ rjTail (dupIter 0 y 1 (j+1)).1 (dupIter 0 y 1 (j+1)).2.1 (dupIter 0 y 1 (j+1)).2.2 (dupP 0 y 1 p (j+1)) := by
    intro j
    have hy : 0 < y := by linarith
    obtain ⟨a, b, c⟩ := dupIter_pos le_rfl hy one_pos (j+1) (x := 0)
    have hq := dupP_pos 0 y 1 p hp (j+1)
    rw [rjTail_eq (by positivity)]
    exact mul_nonneg (by positivity) (rjS_nonneg _ _ _ _)
  have t1 : 3000 ≤ rjTail (dupIter 0 y 1 1).1 (dupIter 0 y 1 1).2.1 (dupIter 0 y 1 1).2.2 (dupP 0 y 1 p 1) := by
    rw [(shape 1).1, (shape 1).2.1, (shape 1).2.2]
    generalize (dupIter 0 y 1 1).1 = x at *
    obtain ⟨c1, c2⟩ := b1
    refine tail_lower (e := ((4:ℝ)^1)⁻¹) (mh := 52594/1000000) (σ := 45) (a := 9504/10000) (b := 9512/10000) (c := 38024/10000) (d := 38048/10000)
      (B1 := 4524/1000) (A2 := -8608/1000) (A4 := -79427/1000) ?_ ?_ hp hpy hy1 ?_ ?_ ?_ ?_ ?_ ?_ ?_ ?_ ?_ ?_ ?_ ?_ ?_ ?_ ?_ ?_ ?_ <;>
      first | linarith | norm_num <;> linarith
  have t2 : 400 ≤ rjTail (dupIter 0 y 1 2).1 (dupIter 0 y 1 2).2.1 (dupIter 0 y 1 2).2.2 (dupP 0 y 1 p 2) := by
    rw [(shape 2).1, (shape 2).2.1, (shape 2).2.2]
    generalize (dupIter 0 y 1 2).1 = x at *
    obtain ⟨c1, c2⟩ := b2
    refine tail_lower (e := ((4:ℝ)^2)⁻¹) (mh := 26624/1000000) (σ := 18/10) (a := 4693/10000) (b := 4716/10000) (c := 18778/10000) (d := 18860/10000)
      (B1 := 1112/1000) (A2 := -1050/1000) (A4 := -2378/1000) ?_ ?_ hp hpy hy1 ?_ ?_ ?_ ?_ ?_ ?_ ?_ ?_ ?_ ?_ ?_ ?_ ?_ ?_ ?_ ?_ ?_ <;>
      first | linarith | norm_num <;> linarith
  have t3 : 229 ≤ rjTail (dupIter 0 y 1 3).1 (dupIter 0 y 1 3).2.1 (dupIter 0 y 1 3).2.2 (dupP 0 y 1 p 3) := by
    rw [(shape 3).1, (shape 3).2.1, (shape 3).2.2]
    generalize (dupIter 0 y 1 3).1 = x at *
    obtain ⟨c1, c2⟩ := b3
    refine tail_lower (e := ((4:ℝ)^3)⁻¹) (mh := 26638/1000000) (σ := 1) (a := 1172/10000) (b := 1180/10000) (c := 4692/10000) (d := 4717/10000)
      (B1 := 70/1000) (A2 := -17/1000) (A4 := -3/1000) ?_ ?_ hp hpy hy1 ?_ ?_ ?_ ?_ ?_ ?_ ?_ ?_ ?_ ?_ ?_ ?_ ?_ ?_ ?_ ?_ ?_ <;>
      first | linarith | norm_num <;> linarith
  have t4 : 215 ≤ rjTail (dupIter 0 y 1 4).1 (dupIter 0 y 1 4).2.1 (dupIter 0 y 1 4).2.2 (dupP 0 y 1 p 4) := by
    rw [(shape 4).1, (shape 4).2.1, (shape 4).2.2]
    generalize (dupIter 0 y 1 4).1 = x at *
    obtain ⟨c1, c2⟩ := b4
    refine tail_lower (e := ((4:ℝ)^4)⁻¹) (mh := 27707/1000000) (σ := 1) (a := 281/10000) (b := 284/10000) (c := 1127/10000) (d := 1134/10000)
      (B1 := 5/1000) (A2 := -1/1000) (A4 := -1/1000) ?_ ?_ hp hpy hy1 ?_ ?_ ?_ ?_ ?_ ?_ ?_ ?_ ?_ ?_ ?_ ?_ ?_ ?_ ?_ ?_ ?_ <;>
      first | linarith | norm_num <;> linarith
  have j4 : ∀ k, RJ (dupIter 0 y 1 (k+4)).1 (dupIter 0 y 1 (k+4)).2.1 (dupIter 0 y 1 (k+4)).2.2 (dupP 0 y 1 p (k+4)) ≤ 229 := fun k =>
    RJ_dup_le hp hpy hy1 (k+4) (by norm_num) (low k) (by norm_num) (by norm_num)
  match k with
  | 0 =>
    have := RJ_dup_le hp hpy hy1 2 (b := 14012/1000000) (T := 603) (by norm_num) b2.1 (by norm_num) (by norm_num)
    have h3 : (0:ℝ) ≤ ((4:ℝ)^(0+2))⁻¹ := by positivity
    refine le_trans (by norm_num) (mul_nonneg h3 (sub_nonneg.mpr (this.trans (le_trans (by norm_num) t1))))
  | 1 =>
    have := RJ_dup_le hp hpy hy1 3 (b := 23377/1000000) (T := 280) (by norm_num) b3.1 (by norm_num) (by norm_num)
    have h3 : (0:ℝ) ≤ ((4:ℝ)^(1+2))⁻¹ := by positivity
    refine le_trans (by norm_num) (mul_nonneg h3 (sub_nonneg.mpr (this.trans (le_trans (by norm_num) t2))))
  | 2 =>
    have h3 : (0:ℝ) ≤ ((4:ℝ)^(2+2))⁻¹ := by positivity
    refine le_trans (by norm_num) (mul_nonneg h3 (sub_nonneg.mpr ((j4 0).trans t3)))
  | 3 =>
    have h3 : ((4:ℝ)^(3+2))⁻¹ = 1/1024 := by norm_num
    rw [h3]
    have := j4 1
    simp only [Nat.reduceAdd] at this ⊢
    linarith
  | k+4 =>
    have := j4 (k+2)
    have h5 := tl (k+4)
    have h3 : (0:ℝ) < ((4:ℝ)^(k+4+2))⁻¹ := by positivity
    have h6 : ((4:ℝ)^(k+4+2))⁻¹ ≤ 1/4096 := by
      rw [show k+4+2 = k+6 by ring, pow_add, mul_inv]
      have : ((4:ℝ)^k)⁻¹ ≤ 1 := inv_le_one_of_one_le₀ (one_le_pow₀ (by norm_num))
      norm_num; linarith
    rw [show k+2+4 = k+4+2 by ring] at this
    simp only [show k+4+1 = k+5 by ring, show k+4+2 = k+6 by ring] at *
    generalize rjTail _ _ _ _ = A at *
    generalize RJ _ _ _ _ = B at *
    nlinarith
end Wiz
