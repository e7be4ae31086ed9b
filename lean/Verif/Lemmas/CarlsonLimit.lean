import Verif.Lemmas.CarlsonConv

/-! # Convergence of the recursion for `RJ` -/
namespace Wiz
open Spec Real MeasureTheory Set Filter Topology

/-- the exact partial sums of the duplication of `RJ` -/
noncomputable def rjExact (y p : ℝ) : ℕ → ℝ
  | 0 => 0
  | k + 1 =>
    let s := dupIter 0 y 1 k
    let q := dupP 0 y 1 p k
    rjExact y p k + 3 * ((4:ℝ)^k)⁻¹ * RC (rjAlfaR s.1 s.2.1 s.2.2 q) (rjBetR s.1 s.2.1 s.2.2 q)

theorem rj_telescope {y p : ℝ} (hy : 0 < y) (hp : 0 < p) (k : ℕ) :
    RJ 0 y 1 p = rjExact y p k + ((4:ℝ)^k)⁻¹ * RJ (dupIter 0 y 1 k).1 (dupIter 0 y 1 k).2.1 (dupIter 0 y 1 k).2.2 (dupP 0 y 1 p k) := by
  induction k with
  | zero => simp [rjExact, dupIter, dupP]
  | succ k ih =>
    obtain ⟨a, b, c⟩ := dupIter_pos le_rfl hy one_pos k (x := 0)
    have hq := dupP_pos 0 y 1 p hp k
    rw [ih, RJ_dup a b c hq]
    simp only [rjExact, dupIter, dupP, pow_succ, mul_inv]
    ring

/-- uniform bounds on the iterates -/
theorem rj_bounds {y p : ℝ} (hy : 0 < y) (hp : 0 < p) :
    ∃ b D : ℝ, 0 < b ∧ 0 ≤ D ∧ (∀ k, b ≤ dupP 0 y 1 p k) ∧
      (∀ k, b ≤ (dupIter 0 y 1 (k+1)).1 ∧ b ≤ (dupIter 0 y 1 (k+1)).2.1 ∧ b ≤ (dupIter 0 y 1 (k+1)).2.2) ∧
      (∀ k, |dupP 0 y 1 p k - (dupIter 0 y 1 k).1| ≤ D/4^k ∧ |dupP 0 y 1 p k - (dupIter 0 y 1 k).2.1| ≤ D/4^k ∧
        |dupP 0 y 1 p k - (dupIter 0 y 1 k).2.2| ≤ D/4^k) := by
  set L := lam 0 y 1 / 4 with hL
  have hL0 : 0 < L := by
    have : 0 < √(y*1) := by positivity
    have h1 : 0 ≤ √(0*y) := sqrt_nonneg _
    have h2 : 0 ≤ √(0*1:ℝ) := sqrt_nonneg _
    rw [hL]; unfold lam; positivity
  have hlow : ∀ k, L ≤ (dupIter 0 y 1 (k+1)).1 ∧ L ≤ (dupIter 0 y 1 (k+1)).2.1 ∧ L ≤ (dupIter 0 y 1 (k+1)).2.2 :=
    fun k => dupIter_lower' 0 y 1 le_rfl hy.le zero_le_one k
  refine ⟨min p L, |p| + |p - y| + |p - 1|, lt_min hp hL0, by positivity, ?_, ?_, ?_⟩
  · intro k
    cases k with
    | zero => exact min_le_left _ _
    | succ k =>
      refine (min_le_right _ _).trans ?_
      induction k with
      | zero =>
        simp only [dupP, dupIter]
        rw [hL]; linarith
      | succ k ih =>
        rw [dupP]
        obtain ⟨h1, h2, h3⟩ := hlow k
        generalize (dupIter 0 y 1 (k+1)).1 = X at *
        generalize (dupIter 0 y 1 (k+1)).2.1 = Y at *
        generalize (dupIter 0 y 1 (k+1)).2.2 = Z at *
        have f : ∀ u v : ℝ, L ≤ u → L ≤ v → L ≤ √(u*v) := by
          intro u v hu hv
          apply le_sqrt_of_sq_le
          nlinarith
        have := f X Y h1 h2
        have := f X Z h1 h3
        have := f Y Z h2 h3
        unfold lam; linarith
  · intro k
    obtain ⟨h1, h2, h3⟩ := hlow k
    exact ⟨(min_le_right _ _).trans h1, (min_le_right _ _).trans h2, (min_le_right _ _).trans h3⟩
  · intro k
    have e1 := dupP_diff 0 y 1 p k
    obtain ⟨e2, e3, _⟩ := dupIter_diff 0 y 1 k
    have a1 := abs_nonneg (p - y)
    have a2 := abs_nonneg (p - 1)
    have a3 := abs_nonneg p
    have h4 : (0:ℝ) < 4^k := by positivity
    refine ⟨?_, ?_, ?_⟩
    · rw [e1, sub_zero, abs_div, abs_of_pos h4]; gcongr; linarith
    · rw [show dupP 0 y 1 p k - (dupIter 0 y 1 k).2.1 = (p - y)/4^k by linear_combination e1 + e2, abs_div, abs_of_pos h4]
      gcongr; linarith
    · rw [show dupP 0 y 1 p k - (dupIter 0 y 1 k).2.2 = (p - 1)/4^k by linear_combination e1 + e3, abs_div, abs_of_pos h4]
      gcongr; linarith

/-- error of the accumulated `RC` terms -/
theorem rjAcc_close {y p : ℝ} (kC : ℕ → ℕ) (δ : ℝ)
    (h : ∀ j, |rcVal (rcIter (rjAlfaR (dupIter 0 y 1 j).1 (dupIter 0 y 1 j).2.1 (dupIter 0 y 1 j).2.2 (dupP 0 y 1 p j))
        (rjBetR (dupIter 0 y 1 j).1 (dupIter 0 y 1 j).2.1 (dupIter 0 y 1 j).2.2 (dupP 0 y 1 p j)) (kC j - 1)).1
        (rcIter (rjAlfaR (dupIter 0 y 1 j).1 (dupIter 0 y 1 j).2.1 (dupIter 0 y 1 j).2.2 (dupP 0 y 1 p j))
        (rjBetR (dupIter 0 y 1 j).1 (dupIter 0 y 1 j).2.1 (dupIter 0 y 1 j).2.2 (dupP 0 y 1 p j)) (kC j - 1)).2 -
        RC (rjAlfaR (dupIter 0 y 1 j).1 (dupIter 0 y 1 j).2.1 (dupIter 0 y 1 j).2.2 (dupP 0 y 1 p j))
        (rjBetR (dupIter 0 y 1 j).1 (dupIter 0 y 1 j).2.1 (dupIter 0 y 1 j).2.2 (dupP 0 y 1 p j))| ≤ δ) (k : ℕ) :
    |rjAcc kC y p k - rjExact y p k| ≤ 4*δ*(1 - ((4:ℝ)^k)⁻¹) := by
  induction k with
  | zero => simp [rjAcc, rjExact]
  | succ k ih =>
    simp only [rjAcc, rjExact]
    have := h k
    have h4 : (0:ℝ) < ((4:ℝ)^k)⁻¹ := by positivity
    generalize rcVal _ _ = r at *
    generalize RC _ _ = c at *
    rw [show rjAcc kC y p k + 3 * ((4:ℝ)^k)⁻¹ * r - (rjExact y p k + 3 * ((4:ℝ)^k)⁻¹ * c) =
      (rjAcc kC y p k - rjExact y p k) + 3 * ((4:ℝ)^k)⁻¹ * (r - c) by ring]
    refine (abs_add_le _ _).trans ?_
    rw [abs_mul, abs_of_pos (by positivity : 0 < 3 * ((4:ℝ)^k)⁻¹)]
    calc |rjAcc kC y p k - rjExact y p k| + 3 * ((4:ℝ)^k)⁻¹ * |r - c| ≤ 4*δ*(1 - ((4:ℝ)^k)⁻¹) + 3 * ((4:ℝ)^k)⁻¹ * δ := by gcongr
      _ = 4*δ*(1 - ((4:ℝ)^(k+1))⁻¹) := by rw [pow_succ, mul_inv]; ring

/-- the next arguments stay in the same interval -/
theorem rj_next {X Y Z q b d : ℝ} (hb : 0 < b) (hd0 : 0 ≤ d) (x1 : b ≤ X) (x2 : b ≤ Y) (x3 : b ≤ Z) (hq : b ≤ q)
    (d1 : |q - X| ≤ d) (d2 : |q - Y| ≤ d) (d3 : |q - Z| ≤ d) :
    |RJ X Y Z q - RJ ((X + lam X Y Z)/4) ((Y + lam X Y Z)/4) ((Z + lam X Y Z)/4) ((q + lam X Y Z)/4)| ≤ 4*d/(b^2*√b) := by
  have f : ∀ u v : ℝ, b ≤ u → b ≤ v → |q - u| ≤ d → |q - v| ≤ d → |√(u*v) - q| ≤ d := by
    intro u v hu hv h1 h2
    rw [abs_le] at *
    constructor
    · have : q - d ≤ √(u*v) := by
        rcases le_or_gt (q - d) 0 with h | h
        · exact h.trans (sqrt_nonneg _)
        · apply le_sqrt_of_sq_le
          nlinarith
      linarith
    · have : √(u*v) ≤ q + d := by
        rw [sqrt_le_left (by linarith)]
        nlinarith
      linarith
  have g : ∀ u v : ℝ, b ≤ u → b ≤ v → b ≤ √(u*v) := by
    intro u v hu hv
    apply le_sqrt_of_sq_le
    nlinarith
  have s1 := abs_le.mp (f X Y x1 x2 d1 d2)
  have s2 := abs_le.mp (f X Z x1 x3 d1 d3)
  have s3 := abs_le.mp (f Y Z x2 x3 d2 d3)
  have g1 := g X Y x1 x2
  have g2 := g X Z x1 x3
  have g3 := g Y Z x2 x3
  have hlam1 : -(3*d) ≤ lam X Y Z - 3*q := by unfold lam; linarith
  have hlam2 : lam X Y Z - 3*q ≤ 3*d := by unfold lam; linarith
  have hlam3 : 3*b ≤ lam X Y Z := by unfold lam; linarith
  generalize lam X Y Z = L at *
  apply RJ_osc hb hd0 hq (c := q)
  rw [abs_le] at d1 d2 d3
  intro w hw
  simp only [List.mem_cons, List.not_mem_nil, or_false] at hw
  rcases hw with rfl | rfl | rfl | rfl | rfl | rfl | rfl | rfl
  all_goals exact ⟨by linarith, by rw [abs_le]; constructor <;> linarith⟩

theorem rj_tail_err {X Y Z q b d : ℝ} (hb : 0 < b) (hd0 : 0 ≤ d) (x1 : b ≤ X) (x2 : b ≤ Y) (x3 : b ≤ Z) (hq : b ≤ q)
    (d1 : |q - X| ≤ d) (d2 : |q - Y| ≤ d) (d3 : |q - Z| ≤ d) (hsm : 2*d/b ≤ 1/8) :
    |rjTail X Y Z q - RJ X Y Z q| ≤ 1/(√b*b) * (30000000*(2*d/b)) := by
  have hA : b ≤ (X + Y + Z + 2*q)/5 := by linarith
  have hA0 : 0 < (X + Y + Z + 2*q)/5 := by linarith
  rw [abs_le] at d1 d2 d3
  have dev : ∀ w, |w - (X + Y + Z + 2*q)/5| ≤ 2*d → |1 - w/((X + Y + Z + 2*q)/5)| ≤ 2*d/b := by
    intro w hw
    rw [show 1 - w/((X + Y + Z + 2*q)/5) = -((w - (X + Y + Z + 2*q)/5)/((X + Y + Z + 2*q)/5)) by
      rw [sub_div, div_self hA0.ne']; ring, abs_neg, abs_div, abs_of_pos hA0]
    gcongr
  have := rjTail_close (by linarith) (by linarith) (by linarith) (by linarith) hA0 (by positivity) hsm
    (dev X (by rw [abs_le]; constructor <;> linarith)) (dev Y (by rw [abs_le]; constructor <;> linarith))
    (dev Z (by rw [abs_le]; constructor <;> linarith)) (dev q (by rw [abs_le]; constructor <;> linarith))
  refine this.trans ?_
  have h0 : 0 ≤ 2*d/b := by positivity
  have hp7 : (2*d/b)^7 ≤ 2*d/b := pow_le_of_le_one h0 (by linarith) (by norm_num)
  have : √b ≤ √((X + Y + Z + 2*q)/5) := sqrt_le_sqrt hA
  have hsb := sqrt_pos.mpr hb
  gcongr

theorem rj_combine {T R R' acc ex C1 C2 b D : ℝ} {n K : ℕ} (hC1 : 0 ≤ C1)
    (hC2 : C2 = 1/(√b*b)*(30000000*(2*D/b)) + 4*D/(b^2*√b)) (hD : 0 ≤ D) (hb : 0 < b)
    (hnext : |R - R'| ≤ 4*(D/4^(n+1))/(b^2*√b)) (htail : |T - R| ≤ 1/(√b*b) * (30000000*(2*(D/4^(n+1))/b)))
    (hsum : |acc - ex| ≤ C1/4^(7*K)) :
    |acc + ((4:ℝ)^(n+1+1))⁻¹ * T - (ex + ((4:ℝ)^(n+1+1))⁻¹ * R')| ≤ (C1+C2)/16^(n+1) + (C1+C2)/4^(7*K) := by
  have hsb := sqrt_pos.mpr hb
  have hC20 : 0 ≤ C2 := by rw [hC2]; positivity
  have hTR : |T - R'| ≤ C2/4^(n+1) := by
    have : T - R' = (T - R) + (R - R') := by ring
    rw [this]
    refine (abs_add_le _ _).trans ((add_le_add htail hnext).trans (le_of_eq ?_))
    rw [hC2]; field_simp
  have hfin : |((4:ℝ)^(n+1+1))⁻¹ * (T - R')| ≤ C2/16^(n+1) := by
    rw [abs_mul, abs_of_pos (by positivity : 0 < ((4:ℝ)^(n+1+1))⁻¹)]
    calc ((4:ℝ)^(n+1+1))⁻¹ * |T - R'| ≤ ((4:ℝ)^(n+1+1))⁻¹ * (C2/4^(n+1)) := by gcongr
      _ ≤ ((4:ℝ)^(n+1))⁻¹ * (C2/4^(n+1)) := by
          gcongr
          · norm_num
          · omega
      _ = C2/16^(n+1) := by
          rw [show (16:ℝ) = 4*4 by norm_num, mul_pow]; field_simp
  have h16 : C2/16^(n+1) ≤ (C1+C2)/16^(n+1) := by gcongr; linarith
  have h47 : C1/4^(7*K) ≤ (C1+C2)/4^(7*K) := by gcongr; linarith
  rw [show acc + ((4:ℝ)^(n+1+1))⁻¹ * T - (ex + ((4:ℝ)^(n+1+1))⁻¹ * R') =
    ((4:ℝ)^(n+1+1))⁻¹ * (T - R') + (acc - ex) by ring]
  exact (abs_add_le _ _).trans (add_le_add (hfin.trans h16) (hsum.trans h47))

/-- quantitative convergence of the recursion for `RJ` -/
theorem rj_rate {y p : ℝ} (hy : 0 < y) (hp : 0 < p) :
    ∃ (C : ℝ) (N : ℕ), 0 ≤ C ∧ ∀ (k K : ℕ) (kC : ℕ → ℕ), N ≤ k → N ≤ K → (∀ j, K + 1 ≤ kC j) →
      |rjAcc kC y p (k+1) + ((4:ℝ)^(k+1))⁻¹ *
         rjTail (dupIter 0 y 1 k).1 (dupIter 0 y 1 k).2.1 (dupIter 0 y 1 k).2.2 (dupP 0 y 1 p k) - RJ 0 y 1 p| ≤
        C/16^k + C/4^(7*K) := by
  obtain ⟨b, D, hb, hD, hP, hX, hdiff⟩ := rj_bounds hy hp
  set M := D^3 with hM
  have hM0 : 0 ≤ M := by positivity
  obtain ⟨N1, hN1⟩ := pow_unbounded_of_one_lt (8*M/(b^3/4)) (by norm_num : (1:ℝ) < 4)
  obtain ⟨N2, hN2⟩ := pow_unbounded_of_one_lt (8*(2*D)/b) (by norm_num : (1:ℝ) < 4)
  set C1 := 4*(1/√(b^3/4) * (30000000*(M/(b^3/4))^7)) with hC1
  set C2 := 1/(√b*b)*(30000000*(2*D/b)) + 4*D/(b^2*√b) with hC2
  have hC10 : 0 ≤ C1 := by positivity
  have hC20 : 0 ≤ C2 := by positivity
  refine ⟨C1 + C2, N1 + N2 + 1, by positivity, ?_⟩
  intro k K kC hk hK hC
  have hb3 : 0 < b^3 := by positivity
  -- the RC terms
  have hRC := rjAcc_close kC (1/√(b^3/4) * (30000000*(M/4^K/(b^3/4))^7)) (y := y) (p := p) (by
    intro j
    obtain ⟨a1, a2, a3⟩ := dupIter_pos le_rfl hy one_pos j (x := 0)
    have hq := hP j
    obtain ⟨d1, d2, d3⟩ := hdiff j
    have h4j : D/4^j ≤ D := div_le_self hD (one_le_pow₀ (by norm_num))
    obtain ⟨n, hn⟩ : ∃ n, kC j - 1 = n + 1 := ⟨kC j - 2, by have := hC j; omega⟩
    rw [hn]
    have hKn : K ≤ n + 1 := by have := hC j; omega
    have h4 : (4:ℝ)^K ≤ 4^(n+1) := pow_le_pow_right₀ (by norm_num) hKn
    have hsmall : M/4^K/(b^3/4) ≤ 1/8 := by
      have : (4:ℝ)^N1 ≤ 4^K := pow_le_pow_right₀ (by norm_num) (by omega)
      rw [div_le_iff₀ (by positivity), div_le_iff₀ (by positivity)]
      have := lt_of_lt_of_le hN1 this
      rw [div_lt_iff₀ (by positivity)] at this
      linarith
    have hle : M/4^(n+1)/(b^3/4) ≤ M/4^K/(b^3/4) := by gcongr
    have hec := bet_sub_alfa a1 a2.le a3.le (p := dupP 0 y 1 p j)
    have hMM : |rjAlfaR (dupIter 0 y 1 j).1 (dupIter 0 y 1 j).2.1 (dupIter 0 y 1 j).2.2 (dupP 0 y 1 p j) -
        rjBetR (dupIter 0 y 1 j).1 (dupIter 0 y 1 j).2.1 (dupIter 0 y 1 j).2.2 (dupP 0 y 1 p j)| ≤ M := by
      rw [abs_sub_comm, hec, abs_mul, abs_mul, hM, pow_succ, pow_two]
      have g1 := d1.trans h4j
      have g2 := d2.trans h4j
      have g3 := d3.trans h4j
      gcongr
    have hbet : b^3 ≤ rjBetR (dupIter 0 y 1 j).1 (dupIter 0 y 1 j).2.1 (dupIter 0 y 1 j).2.2 (dupP 0 y 1 p j) := by
      unfold rjBetR
      have hl := lam_nonneg (dupIter 0 y 1 j).1 (dupIter 0 y 1 j).2.1 (dupIter 0 y 1 j).2.2
      generalize lam _ _ _ = l at *
      generalize dupP 0 y 1 p j = q at *
      have hq0 : 0 ≤ q := hb.le.trans hq
      calc b^3 = b*b^2 := by ring
        _ ≤ q*(q+l)^2 := by
          have : b ≤ q + l := by linarith
          gcongr
    have := rc_rate (rjAlfaR_nonneg _ _ _ _) hb3 hbet hMM n (hle.trans hsmall)
    refine this.trans ?_
    gcongr) (k+1)
  have hsum : |rjAcc kC y p (k+1) - rjExact y p (k+1)| ≤ C1/4^(7*K) := by
    refine hRC.trans ?_
    have : (0:ℝ) ≤ ((4:ℝ)^(k+1))⁻¹ := by positivity
    calc _ ≤ 4*(1/√(b^3/4) * (30000000*(M/4^K/(b^3/4))^7))*1 := by
          apply mul_le_mul_of_nonneg_left _ (by positivity); linarith
      _ = C1/4^(7*K) := by
          rw [hC1, mul_comm 7 K, pow_mul, show M/4^K/(b^3/4) = M/(b^3/4)/4^K by rw [div_right_comm], div_pow]
          ring
  -- the tail
  obtain ⟨n, rfl⟩ : ∃ n, k = n + 1 := ⟨k - 1, by omega⟩
  obtain ⟨x1, x2, x3⟩ := hX n
  obtain ⟨x1', x2', x3'⟩ := hX (n+1)
  have hq := hP (n+1)
  have hq' := hP (n+1+1)
  obtain ⟨d1, d2, d3⟩ := hdiff (n+1)
  have h4p : (0:ℝ) < 4^(n+1) := by positivity
  have hd0 : 0 ≤ D/4^(n+1) := by positivity
  have hsm : 2*D/4^(n+1)/b ≤ 1/8 := by
    have : (4:ℝ)^N2 ≤ 4^(n+1) := pow_le_pow_right₀ (by norm_num) (by omega)
    rw [div_le_iff₀ (by positivity), div_le_iff₀ (by positivity)]
    have := lt_of_lt_of_le hN2 this
    rw [div_lt_iff₀ (by positivity)] at this
    linarith
  have htel := rj_telescope hy hp (n+1+1)
  have hnext := rj_next hb hd0 x1 x2 x3 hq d1 d2 d3
  have htail := rj_tail_err hb hd0 x1 x2 x3 hq d1 d2 d3 (by rw [← mul_div_assoc]; exact hsm)
  have es : RJ (dupIter 0 y 1 (n+1+1)).1 (dupIter 0 y 1 (n+1+1)).2.1 (dupIter 0 y 1 (n+1+1)).2.2 (dupP 0 y 1 p (n+1+1)) =
      RJ (((dupIter 0 y 1 (n+1)).1 + lam (dupIter 0 y 1 (n+1)).1 (dupIter 0 y 1 (n+1)).2.1 (dupIter 0 y 1 (n+1)).2.2)/4)
      (((dupIter 0 y 1 (n+1)).2.1 + lam (dupIter 0 y 1 (n+1)).1 (dupIter 0 y 1 (n+1)).2.1 (dupIter 0 y 1 (n+1)).2.2)/4)
      (((dupIter 0 y 1 (n+1)).2.2 + lam (dupIter 0 y 1 (n+1)).1 (dupIter 0 y 1 (n+1)).2.1 (dupIter 0 y 1 (n+1)).2.2)/4)
      ((dupP 0 y 1 p (n+1) + lam (dupIter 0 y 1 (n+1)).1 (dupIter 0 y 1 (n+1)).2.1 (dupIter 0 y 1 (n+1)).2.2)/4) := rfl
  rw [← es] at hnext
  rw [htel]
  exact rj_combine hC10 hC2 hD hb hnext htail hsum
end Wiz
