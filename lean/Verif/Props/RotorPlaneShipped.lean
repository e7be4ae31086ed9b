import Verif.Props.RotorPlane
import Verif.Props.CarlsonStop
import Verif.Props.CylinderAccuracy
set_option autoImplicit false

/-! # C86: the closed form of the rotor-plane amplitude, as shipped -/
namespace Wiz
open Spec Real Classical Filter Topology

theorem rB_compl {r m : ℝ} (hr : 0 ≤ r) : (1 - rB2 r m) * (1 + rB1 r m) = 1 - rJ r := by
  have h1 := rB_diff (m := m) hr
  have h2 := rB_prod (m := m) hr
  have h3 : rJ r = 4*r/(1+r)^2 := by
    unfold rJ
    have : (1+r)^2 ≠ 0 := by positivity
    field_simp
    ring
  rw [show (1 - rB2 r m) * (1 + rB1 r m) = 1 + (rB1 r m - rB2 r m) - rB1 r m * rB2 r m by ring, h1, h2, h3]
  ring

theorem rB2_weight {r m : ℝ} (hr : 0 ≤ r) (h1 : r < 1) (hm : m ≠ 0) :
    rB2 r m - rJ r = √((1 - rB2 r m) * ((rB2 r m - rJ r)/rB2 r m)) * (2*|m|/(1+r)) ∧ rJ r ≤ rB2 r m ∧ 0 < rB2 r m := by
  have hc := rB_compl (m := m) hr
  have hp := rB_prod (m := m) hr
  have hb1 := rB1_nonneg (m := m) hr
  have hb2 := rB2_lt (m := m) hr h1
  have hpos : 0 < rB1 r m * rB2 r m := by rw [hp]; positivity
  have hb1' : 0 < rB1 r m := lt_of_le_of_ne hb1 (by intro h; rw [← h] at hpos; simp at hpos)
  have hb2' : 0 < rB2 r m := by
    by_contra h
    nlinarith
  have e : rB2 r m - rJ r = (1 - rB2 r m) * rB1 r m := by linarith
  refine ⟨?_, ?_, hb2'⟩
  · have e2 : (1 - rB2 r m) * ((rB2 r m - rJ r)/rB2 r m) = ((1 - rB2 r m) * rB1 r m)^2/(rB1 r m * rB2 r m) := by
      rw [e]; field_simp
    rw [e2, sqrt_div (by positivity), sqrt_sq (mul_nonneg (by linarith) hb1), hp, sqrt_div (by positivity), sqrt_sq (by positivity),
      show 4*m^2 = (2*m)^2 by ring, sqrt_sq_eq_abs, abs_mul, abs_two, e]
    have : |m| ≠ 0 := abs_ne_zero.mpr hm
    field_simp
  · have := mul_nonneg (show 0 ≤ 1 - rB2 r m by linarith) hb1
    linarith

/-- the second integral contributes at most 6% whatever pass the loops stop at -/
theorem second_small (vr : List ℝ) (m : ℝ) (hm : m ≠ 0) (hvr : ∀ r ∈ vr, 0 ≤ r ∧ r < 1) (P2 : ℝ → ℝ)
    (q2 : ellipticPiCarlson (vr.map fun r => (.fin (rB2 r m), .fin (rJ r))) = vr.map (fun r => .fin (P2 r))) (r : ℝ) (hr : r ∈ vr) :
    |r*(r+1)/(2*m*π*√(m^2+r^2)) * ((rB2 r m - rJ r) * (P2 r - ellPi (rB2 r m) (rJ r)))| ≤ 6/100 := by
  obtain ⟨h0, h1⟩ := hvr r hr
  obtain ⟨w1, w2, w3⟩ := rB2_weight h0 h1 hm
  have hj0 : 0 ≤ rJ r := by
    unfold rJ
    rw [sub_nonneg, div_le_one (by positivity)]
    nlinarith
  have hP := piOf_map (vr.map fun r => ((.fin (rB2 r m), .fin (rJ r)) : Num × Num))
  obtain ⟨c, hc, hb⟩ := carlson_uniform (vr.map fun r => (rB2 r m, rJ r)) (by
      intro q hq
      obtain ⟨r', hr', rfl⟩ := List.mem_map.mp hq
      obtain ⟨a, b⟩ := hvr r' hr'
      exact (rJ_lt a b.ne).le) (rB2 r m) (rJ r) (List.mem_map.mpr ⟨r, hr, rfl⟩) hj0 w2 (rB2_lt h0 h1)
    (piOf (vr.map fun r => ((.fin (rB2 r m), .fin (rJ r)) : Num × Num))) (by
      rw [List.map_map, List.map_map] at *
      exact hP)
  have hPc : P2 r = c := by
    rw [q2, List.map_map] at hP
    have := List.map_inj_left.mp hP r hr
    simp only [Function.comp_apply] at this
    rw [hc] at this
    exact Num.fin.inj this
  rw [hPc]
  have hs : 0 < √(m^2+r^2) := sqrt_pos.mpr (by positivity)
  have hm' : 0 < |m| := abs_pos.mpr hm
  have hrs : r ≤ √(m^2+r^2) := le_sqrt_of_sq_le (by nlinarith [sq_nonneg m])
  rw [w1, abs_mul, abs_mul, abs_mul, abs_div, abs_of_nonneg (show 0 ≤ r*(r+1) by positivity), abs_mul, abs_mul, abs_mul, abs_of_pos hs,
    abs_of_pos pi_pos, abs_two, abs_of_nonneg (sqrt_nonneg ((1 - rB2 r m) * _)), abs_of_nonneg (show 0 ≤ 2*|m|/(1+r) by positivity)]
  generalize √((1 - rB2 r m) * ((rB2 r m - rJ r) / rB2 r m)) = A at *
  generalize |c - ellPi (rB2 r m) (rJ r)| = D at *
  generalize √(m^2+r^2) = S at *
  have e : r*(r+1)/(2*|m| * π*S) * (A*(2*|m|/(1+r))*D) = r/S*(A*D)/π := by
    have : (1 + r) ≠ 0 := by positivity
    have : |m| ≠ 0 := hm'.ne'
    field_simp
    ring
  rw [e, div_le_iff₀ pi_pos]
  have h2 : r/S ≤ 1 := (div_le_one hs).mpr hrs
  have h3 : r/S*(A*D) ≤ 1*(188/1000) := by
    rcases le_or_gt 0 (A*D) with h | h
    · exact mul_le_mul h2 hb h zero_le_one
    · have : r/S*(A*D) ≤ 0 := mul_nonpos_of_nonneg_of_nonpos (by positivity) h.le
      linarith
  have := pi_gt_d2
  norm_num at this
  linarith

/-- C86 (shipped `fKzt`): the closed form with the library's own routine for the elliptic integral of the
third kind is a finite number at every radius of `[0,1)`; its distance to the amplitude `K_z` is at most 0.06 plus
the error of the routine at the single argument `(-b₁,j²)`, written out, times an explicit factor: the second integral is harmless
whatever pass the loops stop at.  The error of the first one is not bounded: `C86_shipped_refuted`. -/
theorem C86_shipped_partial (vr : List ℝ) (m : ℝ) (hm : m ≠ 0) (hvr : ∀ r ∈ vr, 0 ≤ r ∧ r < 1) :
    ∃ b1 b2 j2 P1 P2 v : ℝ → ℝ,
      (∀ r, j2 r = 1 - (1-r)^2/(1+r)^2 ∧ b1 r = ((√(1+m^2) + √(r^2+m^2))/(1+r))^2 - 1 ∧
        b2 r = 1 - ((√(1+m^2) - √(r^2+m^2))/(1+r))^2) ∧
      ellipticPiCarlson (vr.map fun r => (.fin (-b1 r), .fin (j2 r))) = vr.map (fun r => .fin (P1 r)) ∧
      ellipticPiCarlson (vr.map fun r => (.fin (b2 r), .fin (j2 r))) = vr.map (fun r => .fin (P2 r)) ∧
      fKzt vr m 1 = .ok [vr.map fun r => .fin (v r)] ∧
      (∀ r ∈ vr, |v r - skewAmplitude r m| ≤ r*(r+1)/(2*|m| * π*√(m^2+r^2)) *
        (|b1 r + j2 r| * |P1 r - ellPi (-b1 r) (j2 r)| + |b2 r - j2 r| * |P2 r - ellPi (b2 r) (j2 r)|)) ∧
      ∀ r ∈ vr, |v r - skewAmplitude r m| ≤ r*(r+1)/(2*|m| * π*√(m^2+r^2)) * (|b1 r + j2 r| * |P1 r - ellPi (-b1 r) (j2 r)|) + 6/100 := by
  obtain ⟨P1, P2, v, q1, q2, q3, hd⟩ := kzt_shipped vr m hm hvr
  have hc : ∀ r : ℝ, 0 ≤ r → |r*(r+1)/(2*m*π*√(m^2+r^2))| = r*(r+1)/(2*|m| * π*√(m^2+r^2)) := by
    intro r h0
    have hs : 0 < √(m^2+r^2) := sqrt_pos.mpr (by positivity)
    rw [abs_div, abs_mul, abs_mul, abs_mul, abs_mul, abs_of_nonneg h0, abs_of_pos (show 0 < r+1 by linarith), abs_of_pos hs,
      abs_of_pos pi_pos, abs_two]
  refine ⟨fun r => rB1 r m, fun r => rB2 r m, rJ, P1, P2, v, fun r => ⟨rfl, rfl, rfl⟩, q1, q2, q3, ?_, ?_⟩
  · intro r hr
    rw [hd r hr, abs_neg, abs_mul, hc r (hvr r hr).1, ← abs_mul, ← abs_mul]
    have hs : 0 < √(m^2+r^2) := sqrt_pos.mpr (by positivity)
    have := (hvr r hr).1
    gcongr
    exact abs_add_le _ _
  · intro r hr
    have h2 := second_small vr m hm hvr P2 q2 r hr
    rw [hd r hr, abs_neg, mul_add]
    refine (abs_add_le _ _).trans (add_le_add ?_ h2)
    rw [abs_mul, abs_mul, hc r (hvr r hr).1]

/-- the hypotheses are met: radii up to nearly the tip, negative skew -/
example : (-(3/10) : ℝ) ≠ 0 ∧ ∀ r ∈ [(0:ℝ), 1/2, 999/1000], 0 ≤ r ∧ r < 1 := by
  refine ⟨by norm_num, ?_⟩
  intro r hr; simp at hr; rcases hr with rfl | rfl | rfl <;> norm_num

/-! ### the value returned when the first-kind loop stops too early -/

theorem rcVal_abs {x y δ : ℝ} (hx : 0 ≤ x) (hδ : 0 < δ) (hy : δ ≤ y) : |rcVal x y| ≤ 4*(1/√(2*δ/3)) := by
  unfold rcVal
  simp only
  have hy0 : 0 < y := lt_of_lt_of_le hδ hy
  have hmu : 0 < (x + 2*y)/3 := by positivity
  rw [rpow_neg_half hmu]
  have hs : |(y - x)/(3*((x+2*y)/3))| ≤ 1 := by
    rw [abs_div, abs_of_pos (show 0 < 3*((x+2*y)/3) by positivity), div_le_one (by positivity), abs_le]
    constructor <;> linarith
  generalize (y - x)/(3*((x+2*y)/3)) = s at *
  have p : ∀ k : ℕ, |s^k| ≤ 1 := fun k => by rw [abs_pow]; exact pow_le_one₀ (abs_nonneg _) hs
  have hS : |1 + 3/10*s^2 + s^2*s/7 + 3/8*(s^2*s*s) + 9/22*(s^2*s*s*s) + 159/208*(s^2*s*s*s*s)| ≤ 4 := by
    have e : 1 + 3/10*s^2 + s^2*s/7 + 3/8*(s^2*s*s) + 9/22*(s^2*s*s*s) + 159/208*(s^2*s*s*s*s) =
        1 + 3/10*s^2 + s^3/7 + 3/8*s^4 + 9/22*s^5 + 159/208*s^6 := by ring
    rw [e]
    have a2 := abs_le.mp (p 2)
    have a3 := abs_le.mp (p 3)
    have a4 := abs_le.mp (p 4)
    have a5 := abs_le.mp (p 5)
    have a6 := abs_le.mp (p 6)
    rw [abs_le]
    constructor <;> linarith [a2.1, a2.2, a3.1, a3.2, a4.1, a4.2, a5.1, a5.2, a6.1, a6.2]
  rw [abs_mul, abs_of_nonneg (show 0 ≤ 1/√((x+2*y)/3) by positivity), mul_comm]
  have hle : 1/√((x+2*y)/3) ≤ 1/√(2*δ/3) := by
    apply one_div_le_one_div_of_le (sqrt_pos.mpr (by positivity))
    apply sqrt_le_sqrt
    linarith
  exact mul_le_mul hS hle (by positivity) (by norm_num)

theorem rcIter_low {α β : ℝ} (hα : 0 ≤ α) (hβ : 0 < β) (k : ℕ) : β/2^k ≤ (rcIter α β k).2 := by
  induction k with
  | zero => simp [rcIter]
  | succ k ih =>
    obtain ⟨h1, h2⟩ := rcIter_nonneg α β hα hβ k
    simp only [rcIter, rcLam]
    have := sqrt_nonneg ((rcIter α β k).1*(rcIter α β k).2)
    rw [pow_succ, ← div_div]
    linarith

theorem dupP_low {y p : ℝ} (hp : 0 < p) (k : ℕ) : p/4^k ≤ dupP 0 y 1 p k := by
  induction k with
  | zero => simp [dupP]
  | succ k ih =>
    simp only [dupP]
    have := lam_nonneg (dupIter 0 y 1 k).1 (dupIter 0 y 1 k).2.1 (dupIter 0 y 1 k).2.2
    rw [pow_succ, ← div_div]
    linarith

theorem rjS_abs {X Y Z P : ℝ} (hX : |X| ≤ 4) (hY : |Y| ≤ 4) (hZ : |Z| ≤ 4) (hP : |P| ≤ 4) : |rjS X Y Z P| ≤ 10000 := by
  have pw : ∀ t : ℝ, |t| ≤ 4 → ∀ k : ℕ, |t^k| ≤ 4^k := fun t ht k => by rw [abs_pow]; exact pow_le_pow_left₀ (abs_nonneg _) ht k
  have s1 : |(X^2 + Y^2 + Z^2 + 2*P^2)/4| ≤ 20 := by
    have a := abs_le.mp (pw X hX 2); have b := abs_le.mp (pw Y hY 2); have c := abs_le.mp (pw Z hZ 2); have d := abs_le.mp (pw P hP 2)
    norm_num at a b c d
    rw [abs_le]; constructor <;> linarith [a.1, a.2, b.1, b.2, c.1, c.2, d.1, d.2]
  have s2 : |(X^3 + Y^3 + Z^3 + 2*P^3)/6| ≤ 54 := by
    have a := abs_le.mp (pw X hX 3); have b := abs_le.mp (pw Y hY 3); have c := abs_le.mp (pw Z hZ 3); have d := abs_le.mp (pw P hP 3)
    norm_num at a b c d
    rw [abs_le]; constructor <;> linarith [a.1, a.2, b.1, b.2, c.1, c.2, d.1, d.2]
  have s3 : |(X^4 + Y^4 + Z^4 + 2*P^4)/8| ≤ 160 := by
    have a := abs_le.mp (pw X hX 4); have b := abs_le.mp (pw Y hY 4); have c := abs_le.mp (pw Z hZ 4); have d := abs_le.mp (pw P hP 4)
    norm_num at a b c d
    rw [abs_le]; constructor <;> linarith [a.1, a.2, b.1, b.2, c.1, c.2, d.1, d.2]
  have s4 : |(X^5 + Y^5 + Z^5 + 2*P^5)/10| ≤ 512 := by
    have a := abs_le.mp (pw X hX 5); have b := abs_le.mp (pw Y hY 5); have c := abs_le.mp (pw Z hZ 5); have d := abs_le.mp (pw P hP 5)
    norm_num at a b c d
    rw [abs_le]; constructor <;> linarith [a.1, a.2, b.1, b.2, c.1, c.2, d.1, d.2]
  unfold rjS
  simp only
  generalize (X^2 + Y^2 + Z^2 + 2*P^2)/4 = a at *
  generalize (X^3 + Y^3 + Z^3 + 2*P^3)/6 = b at *
  generalize (X^4 + Y^4 + Z^4 + 2*P^4)/8 = c at *
  generalize (X^5 + Y^5 + Z^5 + 2*P^5)/10 = d at *
  have m1 : |a*a| ≤ 20*20 := by rw [abs_mul]; exact mul_le_mul s1 s1 (abs_nonneg _) (by norm_num)
  have m2 : |a*b| ≤ 20*54 := by rw [abs_mul]; exact mul_le_mul s1 s2 (abs_nonneg _) (by norm_num)
  have m3 : |a*a*a| ≤ 20*20*20 := by rw [abs_mul]; exact mul_le_mul m1 s1 (abs_nonneg _) (by norm_num)
  have m4 : |b^2| ≤ 54^2 := by rw [abs_pow]; exact pow_le_pow_left₀ (abs_nonneg _) s2 2
  have m5 : |a*c| ≤ 20*160 := by rw [abs_mul]; exact mul_le_mul s1 s3 (abs_nonneg _) (by norm_num)
  have t := abs_le.mp s1
  have t2 := abs_le.mp s2
  have t3 := abs_le.mp s3
  have t4 := abs_le.mp s4
  have u1 := abs_le.mp m1
  have u2 := abs_le.mp m2
  have u3 := abs_le.mp m3
  have u4 := abs_le.mp m4
  have u5 := abs_le.mp m5
  rw [mul_assoc (3/5) a c, abs_le]
  constructor <;> linarith [t.1, t.2, t2.1, t2.2, t3.1, t3.2, t4.1, t4.2, u1.1, u1.2, u2.1, u2.2, u3.1, u3.2, u4.1, u4.2, u5.1, u5.2]

/-- the third-kind loop stays bounded for `p ≥ 1` -/
theorem rj_bounded : ∃ C : ℝ, 0 < C ∧ ∀ (y p : ℝ) (kC : ℕ → ℕ) (k : ℕ), 0 ≤ y → 1 ≤ p → k ≤ 20 → (∀ j, kC j ≤ 20) →
    |rjAcc kC y p (k+1) + ((4:ℝ)^(k+1))⁻¹ * rjTail (dupIter 0 y 1 k).1 (dupIter 0 y 1 k).2.1 (dupIter 0 y 1 k).2.2 (dupP 0 y 1 p k)| ≤ C := by
  obtain ⟨δ, hδ⟩ : ∃ δ : ℝ, δ = (1/4^20)^3/2^20 := ⟨_, rfl⟩
  have hδ0 : 0 < δ := by rw [hδ]; positivity
  obtain ⟨c1, hc1⟩ : ∃ c1 : ℝ, c1 = 4*(1/√(2*δ/3)) := ⟨_, rfl⟩
  have hc10 : 0 ≤ c1 := by rw [hc1]; positivity
  obtain ⟨μ, hμ⟩ : ∃ μ : ℝ, μ = 2*(1/4^20)/5 := ⟨_, rfl⟩
  have hμ0 : 0 < μ := by rw [hμ]; positivity
  have plow : ∀ (y p : ℝ) (k : ℕ), 1 ≤ p → k ≤ 20 → 1/4^20 ≤ dupP 0 y 1 p k := by
    intro y p k hp hk
    refine le_trans ?_ (dupP_low (y := y) (lt_of_lt_of_le one_pos hp) k)
    exact div_le_div₀ (by linarith) hp (by positivity) (pow_le_pow_right₀ (by norm_num) hk)
  have acc : ∀ (y p : ℝ) (kC : ℕ → ℕ), 0 ≤ y → 1 ≤ p → (∀ j, kC j ≤ 20) → ∀ k ≤ 21, |rjAcc kC y p k| ≤ k*(3*c1) := by
    intro y p kC hy hp hC k
    induction k with
    | zero => intro _; simp [rjAcc]
    | succ k ih =>
      intro hk
      have i := ih (by omega)
      have hpl := plow y p k hp (by omega)
      have hp0 : 0 < dupP 0 y 1 p k := lt_of_lt_of_le (by positivity) hpl
      simp only [rjAcc]
      have hα := rjAlfaR_nonneg (dupIter 0 y 1 k).1 (dupIter 0 y 1 k).2.1 (dupIter 0 y 1 k).2.2 (dupP 0 y 1 p k)
      have hβ : (1/4^20)^3 ≤ rjBetR (dupIter 0 y 1 k).1 (dupIter 0 y 1 k).2.1 (dupIter 0 y 1 k).2.2 (dupP 0 y 1 p k) := by
        unfold rjBetR
        have hl := lam_nonneg (dupIter 0 y 1 k).1 (dupIter 0 y 1 k).2.1 (dupIter 0 y 1 k).2.2
        have h1 : (1/4^20:ℝ)^3 ≤ (dupP 0 y 1 p k)^3 := pow_le_pow_left₀ (by positivity) hpl 3
        refine h1.trans ?_
        rw [show (dupP 0 y 1 p k)^3 = dupP 0 y 1 p k * (dupP 0 y 1 p k)^2 by ring]
        gcongr
        linarith
      generalize rjAlfaR (dupIter 0 y 1 k).1 (dupIter 0 y 1 k).2.1 (dupIter 0 y 1 k).2.2 (dupP 0 y 1 p k) = α at *
      generalize rjBetR (dupIter 0 y 1 k).1 (dupIter 0 y 1 k).2.1 (dupIter 0 y 1 k).2.2 (dupP 0 y 1 p k) = β at *
      have hβ0 : 0 < β := lt_of_lt_of_le (by positivity) hβ
      have hlow : δ ≤ (rcIter α β (kC k - 1)).2 := by
        refine le_trans ?_ (rcIter_low hα hβ0 _)
        rw [hδ]
        exact div_le_div₀ hβ0.le hβ (by positivity) (pow_le_pow_right₀ (by norm_num) (by have := hC k; omega))
      have hv := rcVal_abs (rcIter_nonneg α β hα hβ0 (kC k - 1)).1 hδ0 hlow
      rw [← hc1] at hv
      have h4 : ((4:ℝ)^k)⁻¹ ≤ 1 := inv_le_one_of_one_le₀ (one_le_pow₀ (by norm_num))
      have h40 : (0:ℝ) ≤ ((4:ℝ)^k)⁻¹ := by positivity
      refine (abs_add_le _ _).trans ?_
      rw [abs_mul, abs_of_nonneg (show 0 ≤ 3*((4:ℝ)^k)⁻¹ by positivity)]
      have : 3*((4:ℝ)^k)⁻¹*|rcVal (rcIter α β (kC k - 1)).1 (rcIter α β (kC k - 1)).2| ≤ 3*1*c1 := by gcongr
      push_cast
      linarith
  refine ⟨21*(3*c1) + 1/(√μ*μ)*10000, by positivity, ?_⟩
  intro y p kC k hy hp hk hC
  have a := acc y p kC hy hp hC (k+1) (by omega)
  have hk' : ((k+1:ℕ):ℝ) ≤ 21 := by exact_mod_cast (by omega : k+1 ≤ 21)
  have a' : |rjAcc kC y p (k+1)| ≤ 21*(3*c1) := a.trans (by gcongr)
  have hpl := plow y p k hp hk
  obtain ⟨d1, d2, d3, d4⟩ := dupIter_nonneg 0 y 1 le_rfl hy zero_le_one (by linarith) k
  generalize (dupIter 0 y 1 k).1 = X at *
  generalize (dupIter 0 y 1 k).2.1 = Y at *
  generalize (dupIter 0 y 1 k).2.2 = Z at *
  generalize dupP 0 y 1 p k = P at *
  have hP0 : 0 < P := lt_of_lt_of_le (by positivity) hpl
  have hM : μ ≤ (X+Y+Z+2*P)/5 := by rw [hμ]; linarith
  have hM0 : 0 < (X+Y+Z+2*P)/5 := by positivity
  have r : ∀ t : ℝ, 0 ≤ t → t ≤ X+Y+Z+2*P → |1 - t/((X+Y+Z+2*P)/5)| ≤ 4 := by
    intro t h0 h1
    have e1 : 0 ≤ t/((X+Y+Z+2*P)/5) := by positivity
    have e2 : t/((X+Y+Z+2*P)/5) ≤ 5 := by rw [div_le_iff₀ hM0]; linarith
    rw [abs_le]; constructor <;> linarith
  have ht : |rjTail X Y Z P| ≤ 1/(√μ*μ)*10000 := by
    rw [rjTail_eq (by positivity), abs_mul, abs_of_nonneg (show 0 ≤ 1/(√((X+Y+Z+2*P)/5)*((X+Y+Z+2*P)/5)) by positivity)]
    have hS := rjS_abs (r X d1 (by linarith)) (r Y d2 (by linarith)) (r Z d3 (by linarith)) (r P hP0.le (by linarith))
    refine mul_le_mul ?_ hS (abs_nonneg _) (by positivity)
    apply one_div_le_one_div_of_le (by positivity)
    exact mul_le_mul (sqrt_le_sqrt hM) hM hμ0.le (sqrt_nonneg _)
  refine (abs_add_le _ _).trans (add_le_add a' ?_)
  rw [abs_mul, abs_of_nonneg (show 0 ≤ ((4:ℝ)^(k+1))⁻¹ by positivity)]
  have h4 : ((4:ℝ)^(k+1))⁻¹ ≤ 1 := inv_le_one_of_one_le₀ (one_le_pow₀ (by norm_num))
  calc ((4:ℝ)^(k+1))⁻¹*|rjTail X Y Z P| ≤ 1*(1/(√μ*μ)*10000) := mul_le_mul h4 ht (abs_nonneg _) zero_le_one
    _ = _ := one_mul _

/-- one entry of the routine: the first-kind loop, plus `n/3` times a bounded number -/
theorem pi_single {C : ℝ} (hC : ∀ (y p : ℝ) (kC : ℕ → ℕ) (k : ℕ), 0 ≤ y → 1 ≤ p → k ≤ 20 → (∀ j, kC j ≤ 20) →
      |rjAcc kC y p (k+1) + ((4:ℝ)^(k+1))⁻¹ * rjTail (dupIter 0 y 1 k).1 (dupIter 0 y 1 k).2.1 (dupIter 0 y 1 k).2.2 (dupP 0 y 1 p k)| ≤ C)
    {n m v : ℝ} (hn : n ≤ 0) (hm : m ≤ 1) (hv : ellipticRF [.fin (1 - m)] = [.fin v]) :
    ∃ J : ℝ, |J| ≤ C ∧ ellipticPiCarlson [(.fin n, .fin m)] = [.fin (v + 1/3*n*J)] := by
  unfold ellipticPiCarlson
  rw [if_neg (by simp)]
  obtain ⟨kJ, kC, b1, b2, b3, e2⟩ := ellipticRJ_schedule [((1 : Num) - .fin m, (1 : Num) - .fin n)]
  obtain ⟨a, rfl⟩ : ∃ a, kJ = a + 1 := ⟨kJ - 1, by omega⟩
  simp only [List.map_cons, List.map_nil, e2]
  simp only [Num.one_def, Num.fin_sub]
  rw [hv, carlsonRJ_fin kC (fun j => (b3 j).1) _ _ (by linarith) (by linarith)]
  exact ⟨_, hC (1-m) (1-n) kC a (by linarith) (by linarith) (by omega) (fun j => (b3 j).2), by simp only [List.zipWith_cons_cons, List.zipWith_nil_left, Num.fin_mul, Num.fin_add]⟩

theorem ellPi_near {b j : ℝ} (hb : 0 ≤ b) (hj : j < 1) : |ellPi (-b) j - ellK j| ≤ b * ellK j := by
  have hd : ∀ t : ℝ, 0 < √(1 - j * sin t^2) := fun t => sqrt_pos.mpr (delta_pos hj t)
  have hn : ∀ t : ℝ, 1 ≤ 1 - -b * sin t^2 := fun t => by nlinarith [mul_nonneg hb (sq_nonneg (sin t))]
  have c1 : Continuous fun t : ℝ => 1/√(1 - j * sin t^2) := continuous_const.div (by fun_prop) fun t => (hd t).ne'
  have c2 : Continuous fun t : ℝ => 1/((1 - -b * sin t^2) * √(1 - j * sin t^2)) :=
    continuous_const.div (by fun_prop) fun t => mul_ne_zero (by linarith [hn t]) (hd t).ne'
  unfold ellPi ellK
  rw [← intervalIntegral.integral_sub (c2.intervalIntegrable _ _) (c1.intervalIntegrable _ _), ← intervalIntegral.integral_const_mul]
  refine (intervalIntegral.abs_integral_le_integral_abs (by positivity)).trans ?_
  apply intervalIntegral.integral_mono_on (by positivity) ((c2.sub c1).abs.intervalIntegrable _ _) ((c1.const_mul b).intervalIntegrable _ _)
  intro t _
  simp only [Pi.sub_apply]
  have h1 := hn t
  have h2 := hd t
  have hs : sin t^2 ≤ 1 := by nlinarith [sin_sq_add_cos_sq t, sq_nonneg (cos t)]
  have hu : 1 - -b * sin t^2 ≤ 1 + b := by nlinarith
  generalize 1 - -b * sin t^2 = N at *
  have hN : 0 < N := by linarith
  rw [← one_div_mul_one_div, show 1/N*(1/√(1 - j * sin t^2)) - 1/√(1 - j * sin t^2) = -((1 - 1/N)*(1/√(1 - j * sin t^2))) by ring, abs_neg, abs_mul,
    abs_of_nonneg (show 0 ≤ 1/√(1 - j * sin t^2) by positivity)]
  refine mul_le_mul_of_nonneg_right ?_ (by positivity)
  have h3 : 1/N ≤ 1 := (div_le_one hN).mpr h1
  have h4 : 1 - 1/N ≤ b := by
    have : 1 - 1/N = (N-1)/N := by field_simp
    rw [this, div_le_iff₀ hN]
    nlinarith
  rw [abs_of_nonneg (by linarith)]
  exact h4

/-- **C86, shipped closed form refuted.**  There is one radius of the rotor at which the shipped closed form is not the amplitude `K_z`
for small skews, and by any amount: below every skew `ε` there is one where the returned (finite) number is off by more than `B`. -/
theorem C86_shipped_refuted : ∃ r : ℝ, 0 < r ∧ r < 1 ∧ ∀ B ε : ℝ, 0 < ε → ∃ m v : ℝ, 0 < m ∧ m < ε ∧
    fKzt [r] m 1 = .ok [[.fin v]] ∧ B ≤ |v - skewAmplitude r m| := by
  obtain ⟨μ, hμ0, hμ1, v0, hv0, hbad⟩ := C76_premature_stop_refuted
  obtain ⟨C, hC0, hC⟩ := rj_bounded
  have hrf : ellipticRF [.fin (1 - μ)] = [.fin v0] := by
    have := C38_n_zero [μ] (by intro m hm; simp only [List.mem_singleton] at hm; rw [hm]; exact hμ1.le)
    simp only [List.map_cons, List.map_nil] at this
    rw [← this]; exact hv0
  have hq0 : 0 < √(1-μ) := sqrt_pos.mpr (by linarith)
  have hq1 : √(1-μ) < 1 := by rw [sqrt_lt' one_pos]; linarith
  have hqq : √(1-μ)^2 = 1 - μ := sq_sqrt (by linarith)
  generalize √(1-μ) = q at *
  obtain ⟨r, hr⟩ : ∃ r : ℝ, r = (1-q)/(1+q) := ⟨_, rfl⟩
  have hr0 : 0 < r := by rw [hr]; exact div_pos (by linarith) (by linarith)
  have hr1 : r < 1 := by rw [hr, div_lt_one (by linarith)]; linarith
  have hJ : rJ r = μ := by
    have : (1-r)/(1+r) = q := by
      rw [hr]
      have : (1+q) ≠ 0 := by linarith
      field_simp
      ring
    unfold rJ
    rw [← div_pow, this, hqq]; ring
  refine ⟨r, hr0, hr1, ?_⟩
  intro B ε hε
  -- the skew below which the first argument is nearly zero
  have hcont : Continuous fun m : ℝ => rB1 r m := by unfold rB1; fun_prop
  have hz : rB1 r 0 = 0 := by
    unfold rB1
    rw [show (1:ℝ) + 0^2 = 1 by norm_num, show r^2 + 0^2 = r^2 by ring, sqrt_one, sqrt_sq hr0.le, div_self (by linarith)]
    norm_num
  have hK0 : 0 ≤ ellK μ := by
    unfold ellK
    apply intervalIntegral.integral_nonneg (by positivity)
    intro t _; positivity
  obtain ⟨D, hD⟩ : ∃ D : ℝ, D = C/3 + ellK μ := ⟨_, rfl⟩
  have hD0 : 0 < D := by rw [hD]; positivity
  obtain ⟨δ, hδ0, hδ⟩ := Metric.continuous_iff.mp hcont 0 (1/(40*D)) (by positivity)
  obtain ⟨m, hmε, hmδ, hm1, hmB, hm0⟩ : ∃ m : ℝ, m < ε ∧ m < δ ∧ m ≤ 1 ∧ m ≤ r*μ/(160*π*(|B|+1)) ∧ 0 < m := by
    refine ⟨min (min (ε/2) (δ/2)) (min 1 (r*μ/(160*π*(|B|+1)))), ?_, ?_, ?_, ?_, ?_⟩
    · exact lt_of_le_of_lt ((min_le_left _ _).trans (min_le_left _ _)) (by linarith)
    · exact lt_of_le_of_lt ((min_le_left _ _).trans (min_le_right _ _)) (by linarith)
    · exact (min_le_right _ _).trans (min_le_left _ _)
    · exact (min_le_right _ _).trans (min_le_right _ _)
    · exact lt_min (lt_min (by linarith) (by linarith)) (lt_min one_pos (by positivity))
  obtain ⟨P1, P2, v, q1, q2, q3, hd⟩ := kzt_shipped [r] m hm0.ne' (by intro x hx; simp only [List.mem_singleton] at hx; rw [hx]; exact ⟨hr0.le, hr1⟩)
  have h2 := second_small [r] m hm0.ne' (by intro x hx; simp only [List.mem_singleton] at hx; rw [hx]; exact ⟨hr0.le, hr1⟩) P2 q2 r (by simp)
  have hd' := hd r (by simp)
  refine ⟨m, v r, hm0, hmε, by simpa using q3, ?_⟩
  have hb0 := rB1_nonneg (m := m) hr0.le
  have hb : rB1 r m * D ≤ 1/40 := by
    have := hδ m (by rw [dist_zero_right, norm_eq_abs, abs_of_pos hm0]; exact hmδ)
    rw [hz, dist_zero_right, norm_eq_abs, abs_of_nonneg hb0, lt_div_iff₀ (by positivity)] at this
    linarith
  simp only [hJ] at h2 hd'
  simp only [List.map_cons, List.map_nil] at q1
  rw [hJ] at q1
  obtain ⟨J, hJC, eJ⟩ := pi_single hC (show -rB1 r m ≤ 0 by linarith) hμ1.le hrf
  rw [eJ] at q1
  have hP1 : v0 + 1/3*(-rB1 r m)*J = P1 r := Num.fin.inj (List.head_eq_of_cons_eq q1)
  have hnear := ellPi_near hb0 hμ1
  generalize rB1 r m = b at *
  have herr : 1/40 ≤ |P1 r - ellPi (-b) μ| := by
    rw [← hP1]
    have e : v0 - ellK μ = (v0 + 1/3*(-b)*J - ellPi (-b) μ) + (1/3*b*J + (ellPi (-b) μ - ellK μ)) := by ring
    rw [e] at hbad
    have t1 := abs_add_le (v0 + 1/3*(-b)*J - ellPi (-b) μ) (1/3*b*J + (ellPi (-b) μ - ellK μ))
    have t2 := abs_add_le (1/3*b*J) (ellPi (-b) μ - ellK μ)
    have t3 : |1/3*b*J| ≤ 1/3*b*C := by
      rw [abs_mul, abs_of_nonneg (show 0 ≤ 1/3*b by positivity)]
      gcongr
    have t4 : 1/3*b*C + b*ellK μ = b*D := by rw [hD]; ring
    linarith
  have hs : 0 < √(m^2+r^2) := sqrt_pos.mpr (by positivity)
  have hs2 : √(m^2+r^2) ≤ 2 := by rw [sqrt_le_left (by norm_num)]; nlinarith
  have hpref : r/(4*m*π) ≤ r*(r+1)/(2*m*π*√(m^2+r^2)) := by
    rw [div_le_div_iff₀ (by positivity) (by positivity)]
    have : 2*m*π*√(m^2+r^2) ≤ 2*m*π*2 := by gcongr
    nlinarith [mul_le_mul_of_nonneg_left this hr0.le, mul_pos (mul_pos hr0 hr0) (mul_pos hm0 pi_pos)]
  have hmain : r/(4*m*π)*(μ*(1/40)) ≤ |r*(r+1)/(2*m*π*√(m^2+r^2)) * ((b + μ) * (P1 r - ellPi (-b) μ))| := by
    rw [abs_mul, abs_mul, abs_of_nonneg (show 0 ≤ r*(r+1)/(2*m*π*√(m^2+r^2)) by positivity), abs_of_nonneg (show 0 ≤ b + μ by linarith)]
    have : μ*(1/40) ≤ (b+μ)*|P1 r - ellPi (-b) μ| := mul_le_mul (by linarith) herr (by norm_num) (by linarith)
    exact mul_le_mul hpref this (by positivity) (by positivity)
  have hB : |B| + 1 ≤ r/(4*m*π)*(μ*(1/40)) := by
    rw [le_div_iff₀ (by positivity)] at hmB
    rw [show r/(4*m*π)*(μ*(1/40)) = r*μ/(160*π)/m by field_simp; ring, le_div_iff₀ hm0, le_div_iff₀ (by positivity)]
    linarith
  rw [hd', abs_neg, mul_add]
  generalize r*(r+1)/(2*m*π*√(m^2+r^2)) * ((b + μ) * (P1 r - ellPi (-b) μ)) = X at *
  generalize r*(r+1)/(2*m*π*√(m^2+r^2)) * ((rB2 r m - μ) * (P2 r - ellPi (rB2 r m) μ)) = Y at *
  have t : |X| ≤ |X + Y| + |Y| := by
    have := abs_sub (X + Y) Y
    simpa using this
  linarith [le_abs_self B]

end Wiz
