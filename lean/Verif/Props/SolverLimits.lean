import Verif.Props.Solver
import Verif.Props.SolverCont

/-! # C134: the discrete and the continuous solver give the same axial induction, up to the spacing of the stations -/
set_option autoImplicit false
namespace Wiz
open Spec Finset Real Classical
noncomputable section

theorem aOfCt_low (x : ℝ) (h : x ≤ Ctc) : aOfCt x = (1 - √(1 - x))/2 ∧ 0.32 ≤ √(1 - x) ∧ √(1-x)^2 = 1 - x := by
  have h1 : (0.32:ℝ)^2 ≤ 1 - x := by
    have : Ctc = 0.8976 := by unfold Ctc ac; norm_num
    rw [this] at h
    norm_num; linarith
  refine ⟨by unfold aOfCt; rw [if_pos h], ?_, sq_sqrt (by nlinarith)⟩
  exact le_sqrt_of_sq_le h1

theorem aOfCt_high (x : ℝ) (h : Ctc ≤ x) : aOfCt x = (x - 4 * ac^2) / (4 * (1 - 2*ac)) := by
  rcases h.lt_or_eq with h | h
  · unfold aOfCt; rw [if_neg (not_le.2 h)]
  · subst h
    rw [(aOfCt_low Ctc le_rfl).1]
    have : Ctc = 0.8976 := by unfold Ctc ac; norm_num
    have h2 : √(1 - Ctc) = 0.32 := by
      rw [this, sqrt_eq_iff_mul_self_eq (by norm_num) (by norm_num)]; norm_num
    rw [h2, this]; unfold ac; norm_num

/-- the axial induction is a Lipschitz function of the effective thrust -/
theorem aOfCt_lipschitz (x y : ℝ) : |aOfCt x - aOfCt y| ≤ 0.78125 * |x - y| := by
  have mono : ∀ x y, x ≤ y → 0 ≤ aOfCt y - aOfCt x ∧ aOfCt y - aOfCt x ≤ 0.78125 * (y - x) := by
    have low : ∀ x y, x ≤ y → y ≤ Ctc → 0 ≤ aOfCt y - aOfCt x ∧ aOfCt y - aOfCt x ≤ 0.78125 * (y - x) := by
      intro x y hxy hy
      obtain ⟨a1, a2, a3⟩ := aOfCt_low x (hxy.trans hy)
      obtain ⟨b1, b2, b3⟩ := aOfCt_low y hy
      rw [a1, b1]
      generalize √(1 - x) = p at *
      generalize √(1 - y) = q at *
      have hpq : q ≤ p := by nlinarith
      constructor
      · linarith
      · have e : y - x = (p - q) * (p + q) := by linear_combination b3 - a3
        rw [e]
        nlinarith [mul_nonneg (sub_nonneg.2 hpq) (show 0 ≤ p + q - 0.64 by linarith)]
    have high : ∀ x y, x ≤ y → Ctc ≤ x → 0 ≤ aOfCt y - aOfCt x ∧ aOfCt y - aOfCt x ≤ 0.78125 * (y - x) := by
      intro x y hxy hx
      rw [aOfCt_high x hx, aOfCt_high y (hx.trans hxy)]
      unfold ac
      norm_num
      constructor <;> linarith
    intro x y hxy
    rcases le_total y Ctc with h | h
    · exact low x y hxy h
    · rcases le_total Ctc x with h' | h'
      · exact high x y hxy h'
      · have := low x Ctc h' le_rfl
        have := high Ctc y h le_rfl
        constructor <;> linarith [low x Ctc h' le_rfl]
  rcases le_total x y with h | h
  · obtain ⟨h1, h2⟩ := mono x y h
    rw [abs_sub_comm, abs_of_nonneg h1, abs_sub_comm, abs_of_nonneg (by linarith)]
    exact h2
  · obtain ⟨h1, h2⟩ := mono y x h
    rw [abs_of_nonneg h1, abs_of_nonneg (by linarith)]
    exact h2

/-- one ring of the discrete solver against the mid-point value -/
theorem ring_step (p h : ℝ) (hh : 0 < h) (hp : 2*h ≤ p) :
    |h/(2*p^3) - (1/(p - h/2)^2 - 1/(p + h/2)^2)/4| ≤ (5/16)*(h/p)*(h/(2*p^3)) := by
  have hp0 : 0 < p := by linarith
  obtain ⟨x, hx⟩ : ∃ x, x = h/p := ⟨_, rfl⟩
  have hx0 : 0 < x := by rw [hx]; positivity
  have hx1 : x ≤ 1/2 := by rw [hx, div_le_iff₀ hp0]; linarith
  have he : h = x * p := by rw [hx]; field_simp
  have e1 : h/(2*p^3) = (x/2)/p^2 := by rw [he]; field_simp
  have hy : 0 < 1 - x^2/4 := by nlinarith
  have hm : 0 < 1 - x/2 := by linarith
  have e2 : (1/(p - h/2)^2 - 1/(p + h/2)^2)/4 = (x/2/(1 - x^2/4)^2)/p^2 := by
    have a : p - h/2 = p*(1 - x/2) := by rw [he]; ring
    have b : p + h/2 = p*(1 + x/2) := by rw [he]; ring
    have c : 1 - x^2/4 = (1 - x/2)*(1 + x/2) := by ring
    rw [a, b, c]
    have hq : 0 < 1 + x/2 := by linarith
    have hx2 : x/2 = ((1 + x/2) - (1 - x/2))/2 := by ring
    have hs : (1 + x/2) + (1 - x/2) = 2 := by ring
    obtain ⟨A, hA⟩ : ∃ A, A = 1 - x/2 := ⟨_, rfl⟩
    obtain ⟨B, hB⟩ : ∃ B, B = 1 + x/2 := ⟨_, rfl⟩
    rw [← hA] at hm
    rw [← hB] at hq
    rw [← hA, ← hB] at hs hx2 ⊢
    rw [hx2]
    field_simp
    linear_combination 2 * (B - A) * hs
  rw [e1, e2, ← hx, ← sub_div, ← mul_div_assoc, abs_div, abs_of_pos (show 0 < p^2 by positivity)]
  apply div_le_div_of_nonneg_right _ (by positivity)
  have e3 : x/2 - x/2/(1 - x^2/4)^2 = -(x/2 * ((1 - (1 - x^2/4)^2)/(1 - x^2/4)^2)) := by
    generalize 1 - x^2/4 = Y at hy
    field_simp
    ring
  have hpos : 0 ≤ (1 - (1 - x^2/4)^2)/(1 - x^2/4)^2 := by
    apply div_nonneg _ (by positivity)
    nlinarith
  rw [e3, abs_neg, abs_of_nonneg (mul_nonneg (by linarith) hpos), mul_comm]
  apply mul_le_mul_of_nonneg_right _ (by linarith)
  rw [div_le_iff₀ (by positivity)]
  have h4 : x^2 ≤ 1/4 := by nlinarith
  have h5 : x^3 ≤ 1/8 := by nlinarith
  nlinarith [mul_pos hx0 hx0, mul_nonneg hx0.le (sub_nonneg.2 h4), mul_nonneg hx0.le (sub_nonneg.2 hx1), sq_nonneg (x^2)]

theorem inv_sq_step (p h : ℝ) (hh : 0 < h) (hp : h < p) : h/p^3 ≤ (1/(p-h)^2 - 1/p^2)/2 := by
  have h1 : 0 < p - h := by linarith
  have hp0 : 0 < p := by linarith
  have e : (1/(p-h)^2 - 1/p^2)/2 - h/p^3 = h^2*(3*p - 2*h)/(2*(p-h)^2*p^3) := by field_simp; ring
  have : 0 ≤ h^2*(3*p - 2*h)/(2*(p-h)^2*p^3) := by
    apply div_nonneg _ (by positivity)
    exact mul_nonneg (sq_nonneg _) (by linarith)
  linarith


/-- the trapezoidal sum against the sum of the outer rings -/
theorem trap_disc (g d : ℕ → ℝ) (i m : ℕ) :
    ∑ j ∈ Ico i (i+1+m), (g j + g (j+1))/2 - ∑ j ∈ Ico (i+1) (i+1+m), d (j+1) =
      g i/2 + g (i+1) - g (i+1+m)/2 + ∑ j ∈ Ico (i+1) (i+1+m), (g (j+1) - d (j+1)) := by
  induction m with
  | zero => simp [Finset.sum_Ico_succ_top]; ring
  | succ m ih =>
    rw [show i+1+(m+1) = i+1+m+1 from rfl, Finset.sum_Ico_succ_top (by omega), Finset.sum_Ico_succ_top (by omega),
      Finset.sum_Ico_succ_top (by omega)]
    linear_combination ih

theorem inv_cube_sum (r0 h : ℝ) (h0 : 0 < r0) (hh : 0 < h) (i m : ℕ) :
    ∑ j ∈ Ico (i+1) (i+1+m), h/(r0 + (j+1:ℕ)*h)^3 ≤ (1/(r0 + (i+1:ℕ)*h)^2 - 1/(r0 + (i+1+m:ℕ)*h)^2)/2 := by
  induction m with
  | zero => simp
  | succ m ih =>
    rw [show i+1+(m+1) = i+1+m+1 from rfl, Finset.sum_Ico_succ_top (by omega)]
    have := inv_sq_step (r0 + (i+1+m+1:ℕ)*h) h hh (by push_cast; nlinarith [show (0:ℝ) ≤ i from i.cast_nonneg, show (0:ℝ) ≤ m from m.cast_nonneg])
    have e : r0 + (i+1+m+1:ℕ)*h - h = r0 + (i+1+m:ℕ)*h := by push_cast; ring
    rw [e] at this
    linarith

/-- the thrust lost to rotation, discrete against continuous -/
theorem rot_diff (r0 h s K : ℝ) (k : ℕ → ℝ) (i m : ℕ) (h0 : 0 < r0) (hh : 0 < h) (hs : 0 ≤ s)
    (hK : ∀ j ≤ i+1+m, k j^2 ≤ K^2) :
    |∑ j ∈ Ico i (i+1+m), (s*k j^2*(h/(2*(r0+j*h)^3)) + s*k (j+1)^2*(h/(2*(r0+(j+1:ℕ)*h)^3)))/2
      - ∑ j ∈ Ico (i+1) (i+1+m), s*k (j+1)^2*((1/((r0+(j+1:ℕ)*h) - h/2)^2 - 1/((r0+(j+1:ℕ)*h)+h/2)^2)/4)|
     ≤ 0.83*(s*K^2*(h/(r0+i*h)^3)) := by
  have := trap_disc (fun j => s*k j^2*(h/(2*(r0+j*h)^3))) (fun j => s*k j^2*((1/((r0+j*h) - h/2)^2 - 1/((r0+j*h)+h/2)^2)/4)) i m
  beta_reduce at this
  rw [this]
  have hpos : ∀ j : ℕ, 0 < r0 + j*h := fun j => by positivity
  obtain ⟨B, hB⟩ : ∃ B, B = s*K^2*(h/(r0+i*h)^3) := ⟨_, rfl⟩
  have hB0 : 0 ≤ B := by rw [hB]; have := hpos i; positivity
  have hg : ∀ j, i ≤ j → j ≤ i+1+m → 0 ≤ s*k j^2*(h/(2*(r0+j*h)^3)) ∧ s*k j^2*(h/(2*(r0+j*h)^3)) ≤ B/2 := by
    intro j h1 h2
    have p1 := hpos j
    have p2 := hpos i
    refine ⟨by positivity, ?_⟩
    have hij : r0 + i*h ≤ r0 + j*h := by
      have : (i:ℝ) ≤ j := by exact_mod_cast h1
      nlinarith
    have e : B/2 = s*K^2*(h/(2*(r0+i*h)^3)) := by rw [hB]; field_simp
    rw [e]
    have hk := hK j h2
    gcongr
  have hsum : |∑ j ∈ Ico (i+1) (i+1+m), (s*k (j+1)^2*(h/(2*(r0+(j+1:ℕ)*h)^3)) -
      s*k (j+1)^2*((1/((r0+(j+1:ℕ)*h) - h/2)^2 - 1/((r0+(j+1:ℕ)*h)+h/2)^2)/4))| ≤ 0.08*B := by
    refine (Finset.abs_sum_le_sum_abs _ _).trans ?_
    have hstep : ∀ j ∈ Ico (i+1) (i+1+m), |s*k (j+1)^2*(h/(2*(r0+(j+1:ℕ)*h)^3)) -
      s*k (j+1)^2*((1/((r0+(j+1:ℕ)*h) - h/2)^2 - 1/((r0+(j+1:ℕ)*h)+h/2)^2)/4)| ≤
        (5/32)*(s*K^2*(h/(r0+i*h)))*(h/(r0+(j+1:ℕ)*h)^3) := by
      intro j hj
      have hj := Finset.mem_Ico.1 hj
      have p1 := hpos (j+1)
      have p2 := hpos i
      have hij : r0 + i*h ≤ r0 + (j+1:ℕ)*h := by
        have : (i:ℝ) ≤ (j+1:ℕ) := by exact_mod_cast (by omega : i ≤ j+1)
        nlinarith
      have h2 : 2*h ≤ r0 + (j+1:ℕ)*h := by
        have : (2:ℝ) ≤ (j+1:ℕ) := by exact_mod_cast (by omega : 2 ≤ j+1)
        nlinarith
      have hr := ring_step (r0 + (j+1:ℕ)*h) h hh h2
      have hk := hK (j+1) (by omega)
      generalize r0 + (j+1:ℕ)*h = p at *
      rw [← mul_sub, abs_mul, abs_of_nonneg (by positivity)]
      calc s*k (j+1)^2 * _ ≤ s*K^2*((5/16)*(h/p)*(h/(2*p^3))) := by gcongr
        _ = (5/32)*(s*K^2*(h/p))*(h/p^3) := by ring
        _ ≤ _ := by gcongr
    refine (Finset.sum_le_sum hstep).trans ?_
    rw [← Finset.mul_sum]
    have hi := inv_cube_sum r0 h h0 hh i m
    have p2 := hpos i
    have p3 := hpos (i+1)
    have hle : ∑ j ∈ Ico (i+1) (i+1+m), h/(r0 + (j+1:ℕ)*h)^3 ≤ (1/(r0 + i*h)^2)/2 := by
      have a1 : 0 ≤ 1/(r0 + (i+1+m:ℕ)*h)^2 := by positivity
      have a2 : 1/(r0 + (i+1:ℕ)*h)^2 ≤ 1/(r0 + i*h)^2 := by
        have : r0 + i*h ≤ r0 + (i+1:ℕ)*h := by push_cast; nlinarith
        gcongr
      linarith
    refine (mul_le_mul_of_nonneg_left hle (by positivity)).trans ?_
    have : 5/32*(s*K^2*(h/(r0+i*h)))*(1/(r0+i*h)^2/2) = (5/64)*B := by
      rw [hB]; generalize r0 + (i:ℝ)*h = p at *; ring
    rw [this]
    nlinarith
  have g1 := hg i le_rfl (by omega)
  have g2 := hg (i+1) (by omega) (by omega)
  have g3 := hg (i+1+m) (by omega) le_rfl
  rw [← hB]
  obtain ⟨u1, u2⟩ := abs_le.1 hsum
  rw [abs_le]
  constructor <;> nlinarith


/-- the effective thrust of the two solvers at one station -/
theorem eff_diff (n i : ℕ) (r0 h R s K : ℝ) (k : ℕ → ℝ) (t : ℝ) (hi : i < n) (h2 : 2 ≤ n) (h0 : 0 < r0) (hh : 0 < h) (ht : t ≠ 0) (hR : R ≠ 0)
    (hst : s = 1/t^2) (hK : ∀ j < n, k j^2 ≤ K^2) :
    |ctEff n k (fun j => t * rcyl n (fun j => r0 + j*h) R j) i -
      (k i * (1 + k i/(4*(t*(r0+i*h))^2)) -
        8 * ∑ j ∈ Ico i (n-1), ((r0+(j+1:ℕ)*h)/R - (r0+j*h)/R) * ((t*(r0+j*h))^2 * (k j/(4*(t*(r0+j*h))^2))^2/((r0+j*h)/R) +
          (t*(r0+(j+1:ℕ)*h))^2 * (k (j+1)/(4*(t*(r0+(j+1:ℕ)*h))^2))^2/((r0+(j+1:ℕ)*h)/R))/2)| ≤ 1.1*(s*K^2*(h/(r0+i*h)^3)) := by
  have hpos : ∀ j : ℕ, 0 < r0 + j*h := fun j => by positivity
  have hs : 0 ≤ s := by rw [hst]; positivity
  have hrc : ∀ j < n, rcyl n (fun j => r0 + j*h) R j = r0 + j*h + h/2 := by
    intro j hj
    unfold rcyl
    rw [if_neg (by omega)]
    obtain ⟨m, rfl⟩ : ∃ m, n = m + 2 := ⟨n-2, by omega⟩
    split_ifs with hl
    · have : j = m + 1 := by omega
      subst this
      simp only [show m + 2 - 1 = m + 1 from rfl, show m + 2 - 2 = m from rfl]
      push_cast; ring
    · push_cast; ring
  have hnext : ∀ j : ℕ, r0 + (j+1:ℕ)*h = r0 + j*h + h := fun j => by push_cast; ring
  -- the Kutta-Joukowski part
  have kj : ctKJ (k i) (t * rcyl n (fun j => r0 + j*h) R i) - k i * (1 + k i/(4*(t*(r0+i*h))^2)) =
      -(s * k i^2 * ((1/(r0+i*h)^2 - 1/(r0+i*h+h/2)^2)/4)) := by
    unfold ctKJ
    rw [hrc i hi, hst]
    have p1 := hpos i
    generalize r0 + (i:ℝ)*h = p at *
    have p2 : 0 < p + h/2 := by linarith
    generalize p + h/2 = q at *
    field_simp
    ring
  have kjb : |s * k i^2 * ((1/(r0+i*h)^2 - 1/(r0+i*h+h/2)^2)/4)| ≤ 0.25*(s*K^2*(h/(r0+i*h)^3)) := by
    have p1 := hpos i
    have hk := hK i hi
    generalize r0 + (i:ℝ)*h = p at *
    have a1 : 0 ≤ 1/p^2 - 1/(p+h/2)^2 := by
      rw [sub_nonneg]; gcongr; linarith
    have a2 : (1/p^2 - 1/(p+h/2)^2)/4 ≤ 0.25*(h/p^3) := by
      have hq : 0 < p + h/2 := by linarith
      have : 0.25*(h/p^3) - (1/p^2 - 1/(p+h/2)^2)/4 = h^2*(3/4*p + h/4)/(4*p^3*(p+h/2)^2) := by
        have e : h = 2*((p+h/2) - p) := by ring
        obtain ⟨q, hq'⟩ : ∃ q, q = p + h/2 := ⟨_, rfl⟩
        rw [← hq'] at e hq ⊢
        rw [e]
        field_simp
        ring
      have h3 : 0 ≤ h^2*(3/4*p + h/4)/(4*p^3*(p+h/2)^2) := by positivity
      linarith
    rw [abs_of_nonneg (by positivity)]
    calc s*k i^2*((1/p^2 - 1/(p+h/2)^2)/4) ≤ s*K^2*(0.25*(h/p^3)) := by
          have : 0 ≤ (1/p^2 - 1/(p+h/2)^2)/4 := by linarith
          gcongr
      _ = _ := by ring
  -- the rotation part
  have cont : 8 * ∑ j ∈ Ico i (n-1), ((r0+(j+1:ℕ)*h)/R - (r0+j*h)/R) * ((t*(r0+j*h))^2 * (k j/(4*(t*(r0+j*h))^2))^2/((r0+j*h)/R) +
          (t*(r0+(j+1:ℕ)*h))^2 * (k (j+1)/(4*(t*(r0+(j+1:ℕ)*h))^2))^2/((r0+(j+1:ℕ)*h)/R))/2 =
      ∑ j ∈ Ico i (n-1), (s*k j^2*(h/(2*(r0+j*h)^3)) + s*k (j+1)^2*(h/(2*(r0+(j+1:ℕ)*h)^3)))/2 := by
    rw [Finset.mul_sum]
    refine Finset.sum_congr rfl fun j _ => ?_
    have p1 := hpos j
    have p2 := hpos (j+1)
    have e : (r0+(j+1:ℕ)*h)/R - (r0+j*h)/R = h/R := by rw [hnext]; ring
    rw [e, hst]
    generalize r0 + (j:ℝ)*h = p at *
    generalize r0 + ((j+1:ℕ):ℝ)*h = q at *
    field_simp
    ring
  have disc : ctRot n k (fun j => t * rcyl n (fun j => r0 + j*h) R j) i =
      ∑ j ∈ Ico (i+1) (n-1), s*k (j+1)^2*((1/((r0+(j+1:ℕ)*h) - h/2)^2 - 1/((r0+(j+1:ℕ)*h)+h/2)^2)/4) := by
    unfold ctRot
    refine Finset.sum_congr rfl fun j hj => ?_
    have hj := Finset.mem_Ico.1 hj
    beta_reduce
    rw [hrc j (by omega), hrc (j+1) (by omega), hst, show r0 + (j:ℝ)*h + h/2 = r0 + ((j+1:ℕ):ℝ)*h - h/2 by rw [hnext]; ring]
    have p1 : 0 < r0 + ((j+1:ℕ):ℝ)*h - h/2 := by rw [hnext]; linarith [hpos j]
    have p2 : 0 < r0 + ((j+1:ℕ):ℝ)*h + h/2 := by rw [hnext]; linarith [hpos j]
    generalize r0 + ((j+1:ℕ):ℝ)*h - h/2 = p at *
    generalize r0 + ((j+1:ℕ):ℝ)*h + h/2 = q at *
    field_simp
    ring
  unfold ctEff
  rw [cont, disc]
  have hB0 : 0 ≤ s*K^2*(h/(r0+i*h)^3) := by have := hpos i; positivity
  by_cases hl : i = n - 1
  · have e1 : Ico i (n-1) = ∅ := by rw [hl]; simp
    have e2 : Ico (i+1) (n-1) = ∅ := Finset.Ico_eq_empty (by omega)
    rw [e1, e2, Finset.sum_empty, Finset.sum_empty, sub_zero, sub_zero]
    beta_reduce
    rw [kj, abs_neg]
    linarith
  · obtain ⟨m, hm⟩ : ∃ m, n - 1 = i + 1 + m := ⟨n - 1 - (i+1), by omega⟩
    have := rot_diff r0 h s K k i m h0 hh hs (fun j hj => hK j (by omega))
    rw [hm]
    beta_reduce
    generalize ∑ j ∈ Ico i (i+1+m), (s*k j^2*(h/(2*(r0+j*h)^3)) + s*k (j+1)^2*(h/(2*(r0+(j+1:ℕ)*h)^3)))/2 = T at *
    generalize ∑ j ∈ Ico (i+1) (i+1+m), s*k (j+1)^2*((1/((r0+(j+1:ℕ)*h) - h/2)^2 - 1/((r0+(j+1:ℕ)*h)+h/2)^2)/4) = D at *
    rw [show ctKJ (k i) (t * rcyl n (fun j => r0 + j*h) R i) - D - (k i * (1 + k i/(4*(t*(r0+i*h))^2)) - T) =
      (ctKJ (k i) (t * rcyl n (fun j => r0 + j*h) R i) - k i * (1 + k i/(4*(t*(r0+i*h))^2))) + (T - D) by ring, kj]
    refine (abs_add_le _ _).trans ?_
    rw [abs_neg]
    linarith

/-- C134: for equally spaced stations the default discrete solver (`WakeVorticityFromCirculation_Discr`) and the
continuous one (`WakeVorticityFromCirculation_Cont`) return, for the same circulation, axial inductions that differ at
every station by at most `0.9·K²·(h/r)/λ²`, with `h` the spacing, `λ=Ωr/U0` the local speed ratio, `K` the largest
dimensionless circulation: the two agree in the limit of fine stations, for any number of stations. -/
theorem C134_swirl (n : ℕ) (G : ℕ → ℝ) (r0 h R U0 Ω K : ℝ) (bTan : Bool) (hn : 2 ≤ n) (h0 : 0 < r0) (hh : 0 < h)
    (hR : R ≠ 0) (hU : U0 ≠ 0) (hΩ : Ω ≠ 0) (hK : ∀ i < n, |Ω * G i / (π * U0^2)| ≤ K) :
    let r := fun j : ℕ => r0 + j * h
    ∃ w ad ac, wakeVorticityDiscr (farr n r) (farr n G) (.fin R) (.fin U0) (.fin Ω) (.fin 1) true bTan true none = .ok w ∧
      w.misc.a = farr n ad ∧
      (wakeVorticityCont (farr n r) (farr n G) (.fin R) (.fin U0) (.fin Ω) true true).ind.a = farr n ac ∧
      ∀ i < n, |ad i - ac i| ≤ 0.9 * K^2 * (U0 / (Ω * r i))^2 * (h / r i) := by
  intro r
  have hpos : ∀ j : ℕ, 0 < r j := fun j => by simp only [r]; positivity
  obtain ⟨w, hw, ha⟩ := C27_default_cylinders n r G R U0 Ω 1 bTan (by omega) hU hΩ (hpos 0)
    (fun i j hij _ => by have : (i:ℝ) < j := by exact_mod_cast hij
                         simp only [r]; nlinarith) (by omega)
  obtain ⟨a, ap, eff, e1, -, -, e4, e5, e6, -⟩ := C104_swirl n r G R U0 Ω (by omega) hR hU hΩ (fun i _ => (hpos i).ne')
  refine ⟨w, _, a, hw, ha, e1, fun i hi => ?_⟩
  rw [e6 i hi, e5 i hi]
  refine (aOfCt_lipschitz _ _).trans ?_
  have hk : (fun j => 1 * G j * Ω / (π * U0^2)) = fun j => Ω * G j / (π * U0^2) := by funext j; ring
  have hl : (fun j => Ω * rcyl n r R j / U0) = fun j => (Ω/U0) * rcyl n r R j := by funext j; ring
  have ht : Ω/U0 ≠ 0 := div_ne_zero hΩ hU
  have key := eff_diff n i r0 h R (1/(Ω/U0)^2) K (fun j => Ω * G j / (π * U0^2)) (Ω/U0) hi hn h0 hh ht hR rfl
    (fun j hj => by beta_reduce; rw [← sq_abs]; exact pow_le_pow_left₀ (abs_nonneg _) (hK j hj) 2)
  have hsum : ∑ j ∈ Ico i (n-1), (r (j+1)/R - r j/R) * ((Ω * r j / U0)^2 * ap j^2/(r j/R) + (Ω * r (j+1) / U0)^2 * ap (j+1)^2/(r (j+1)/R))/2 =
      ∑ j ∈ Ico i (n-1), ((r0+(j+1:ℕ)*h)/R - (r0+j*h)/R) * ((Ω/U0*(r0+j*h))^2 * (Ω * G j / (π * U0^2)/(4*(Ω/U0*(r0+j*h))^2))^2/((r0+j*h)/R) +
          (Ω/U0*(r0+(j+1:ℕ)*h))^2 * (Ω * G (j+1) / (π * U0^2)/(4*(Ω/U0*(r0+(j+1:ℕ)*h))^2))^2/((r0+(j+1:ℕ)*h)/R))/2 := by
    refine Finset.sum_congr rfl fun j hj => ?_
    have hj := Finset.mem_Ico.1 hj
    rw [e4 j (by omega), e4 (j+1) (by omega)]
    simp only [r]
    rw [mul_div_right_comm Ω (r0 + (j:ℝ)*h) U0, mul_div_right_comm Ω (r0 + ((j+1:ℕ):ℝ)*h) U0]
  have hap : ap i = Ω * G i / (π * U0^2)/(4*(Ω/U0*(r0+i*h))^2) := by
    rw [e4 i hi]
    simp only [r]
    rw [mul_div_right_comm Ω (r0 + (i:ℝ)*h) U0]
  rw [hk, hl, hsum, hap]
  refine (mul_le_mul_of_nonneg_left key (by norm_num)).trans ?_
  have p := hpos i
  have e : 1/(Ω/U0)^2*K^2*(h/(r0+i*h)^3) = K^2 * (U0 / (Ω * r i))^2 * (h / r i) := by
    simp only [r] at p ⊢
    generalize r0 + (i:ℝ)*h = q at *
    field_simp
  rw [e]
  have : 0 ≤ K^2 * (U0 / (Ω * r i))^2 * (h / r i) := by positivity
  linarith


/-- the axial induction increases strictly with the effective thrust -/
theorem aOfCt_strict (x y : ℝ) (h : x < y) : aOfCt x < aOfCt y := by
  rcases le_total y Ctc with hy | hy
  · obtain ⟨a1, a2, a3⟩ := aOfCt_low x (h.le.trans hy)
    obtain ⟨b1, b2, b3⟩ := aOfCt_low y hy
    rw [a1, b1]
    nlinarith
  · rcases le_total Ctc x with hx | hx
    · rw [aOfCt_high x hx, aOfCt_high y hy]; unfold ac; norm_num; linarith
    · rcases h.le.lt_or_eq with h | h
      · rcases hx.lt_or_eq with hx | hx
        · have h1 : aOfCt x < aOfCt Ctc := by
            obtain ⟨a1, a2, a3⟩ := aOfCt_low x hx.le
            obtain ⟨b1, b2, b3⟩ := aOfCt_low Ctc le_rfl
            rw [a1, b1]
            nlinarith
          have h2 : aOfCt Ctc ≤ aOfCt y := by
            rw [aOfCt_high Ctc le_rfl, aOfCt_high y hy]; unfold ac; norm_num; linarith
          exact h1.trans_le h2
        · rw [aOfCt_high x hx.ge, aOfCt_high y hy]; unfold ac; norm_num; linarith
      · linarith

/-- C134: the two solvers are not interchangeable: at the outermost station the continuous one always gives the larger
axial induction, whenever the circulation there is not zero (for every increasing set of stations). -/
theorem C134_tip (n : ℕ) (r G : ℕ → ℝ) (R U0 Ω : ℝ) (bTan : Bool) (hn : 2 ≤ n) (h0 : 0 < r 0)
    (hinc : ∀ i j, i < j → j < n → r i < r j) (hR : R ≠ 0) (hU : U0 ≠ 0) (hΩ : Ω ≠ 0) (hG : G (n-1) ≠ 0) :
    ∃ w ad ac, wakeVorticityDiscr (farr n r) (farr n G) (.fin R) (.fin U0) (.fin Ω) (.fin 1) true bTan true none = .ok w ∧
      w.misc.a = farr n ad ∧
      (wakeVorticityCont (farr n r) (farr n G) (.fin R) (.fin U0) (.fin Ω) true true).ind.a = farr n ac ∧
      ad (n-1) < ac (n-1) := by
  have hpos : ∀ j < n, 0 < r j := fun j hj => by
    rcases Nat.eq_zero_or_pos j with rfl | hj0
    · exact h0
    · exact h0.trans (hinc 0 j hj0 hj)
  obtain ⟨w, hw, ha⟩ := C27_default_cylinders n r G R U0 Ω 1 bTan (by omega) hU hΩ h0 hinc (by omega)
  obtain ⟨a, ap, eff, e1, -, -, e4, e5, e6, -⟩ := C104_swirl n r G R U0 Ω (by omega) hR hU hΩ (fun i hi => (hpos i hi).ne')
  refine ⟨w, _, a, hw, ha, e1, ?_⟩
  have hl : n - 1 < n := by omega
  rw [e6 _ hl, e5 _ hl, Finset.Ico_self, Finset.sum_empty, mul_zero, sub_zero]
  apply aOfCt_strict
  unfold ctEff ctRot ctKJ
  rw [Finset.Ico_eq_empty (by omega), Finset.sum_empty, sub_zero, e4 _ hl]
  beta_reduce
  unfold rcyl
  rw [if_neg (by omega), if_pos rfl]
  have p1 := hpos _ hl
  have p2 : r (n-2) < r (n-1) := hinc _ _ (by omega) hl
  obtain ⟨d, hd⟩ : ∃ d, d = (r (n-1) - r (n-2))/2 := ⟨_, rfl⟩
  have hd0 : 0 < d := by rw [hd]; linarith
  rw [← hd]
  generalize r (n-1) = q at *
  generalize G (n-1) = g at *
  have hpi := pi_pos
  have hk : 1 * g * Ω / (π * U0^2) = Ω * g / (π * U0^2) := by ring
  rw [hk]
  have hk0 : Ω * g / (π * U0^2) ≠ 0 := by positivity
  generalize Ω * g / (π * U0^2) = k at *
  have e : k * (1 + k/(4*(Ω*q/U0)^2)) - k * (1 + k/(4*(Ω*(q+d)/U0)^2)) = k^2*U0^2*(d*(2*q+d))/(4*Ω^2*q^2*(q+d)^2) := by
    have : 0 < q + d := by linarith
    field_simp
    ring
  have : 0 < k^2*U0^2*(d*(2*q+d))/(4*Ω^2*q^2*(q+d)^2) := by positivity
  linarith

/-- C134 (no swirl, no tangential induction in the convection): below the critical thrust the two solvers agree exactly,
whatever the spacing of the stations and of the cylinders: both give the momentum-theory induction of the local circulation. -/
theorem C134_no_swirl (n : ℕ) (r G : ℕ → ℝ) (R U0 Ω : ℝ) (hi : Bool) (hn : 0 < n) (h0 : 0 < r 0)
    (hinc : ∀ i j, i < j → j < n → r i < r j) (hR : n = 1 → r 0 ≤ R) (hU : U0 ≠ 0) (hΩ : Ω ≠ 0)
    (hk : ∀ i < n, Ω * G i / (π * U0^2) ≤ Ctc) :
    ∃ w, wakeVorticityDiscr (farr n r) (farr n G) (.fin R) (.fin U0) (.fin Ω) (.fin 1) false false hi none = .ok w ∧
      w.misc.a = (wakeVorticityCont (farr n r) (farr n G) (.fin R) (.fin U0) (.fin Ω) false true).ind.a ∧
      w.misc.a = farr n fun i => (1 - √(1 - Ω * G i / (π * U0^2)))/2 := by
  obtain ⟨h1, h2, h3⟩ := rcyl_ok n r R hn h0 hinc hR
  have hkk : ∀ i, kOf (1 * G i) U0 Ω = Ω * G i / (π * U0^2) := fun i => by unfold kOf; ring
  have hC : Ctc = 0.8976 := by unfold Ctc ac; norm_num
  obtain ⟨h, e, -⟩ := discr_eval_noswirl n r G (rcyl n r R) (fun i => if i < n then √(1 - Ω * G i / (π * U0^2)) else 1) (.fin R) U0 Ω 1 false hi hn hU hΩ
    (fun i hi => (h2 i hi).ne') h3 (by simp) (by
      intro i hi'
      rw [hkk, hkk]
      refine ⟨fun ⟨_, h⟩ => absurd (hk i hi') (not_le.2 h), fun _ => ?_⟩
      have hap : apOpt false n (fun i => 1 * G i) (rcyl n r R) Ω i = 0 := rfl
      have e : (if i + 1 < n then √(1 - Ω * G (i+1) / (π * U0^2)) else 1)^2 -
          (Ω * G i / (π * U0^2) - (if i = n - 1 then 0 else Ω * G (i+1) / (π * U0^2))) * (1 + 0) = 1 - Ω * G i / (π * U0^2) := by
        by_cases hl : i = n - 1
        · rw [if_neg (by omega), if_pos hl]; ring
        · rw [if_pos (by omega), if_neg hl, sq_sqrt (by have := hk (i+1) (by omega); linarith)]; ring
      rw [hap]
      beta_reduce
      rw [e, if_pos hi']
      exact ⟨by have := hk i hi'; linarith, rfl⟩)
  refine ⟨_, (discr_default n r _ R _ _ _ false false hi hn).trans e, ?_, ?_⟩
  · rw [(C104_no_swirl n r G R U0 Ω hn hU hΩ h0.ne').1]
    refine arr_congr n _ _ fun i hi' => congrArg Num.fin ?_
    beta_reduce
    rw [if_pos hi', (aOfCt_low _ (hk i hi')).1]
  · refine arr_congr n _ _ fun i hi' => congrArg Num.fin ?_
    beta_reduce
    rw [if_pos hi']

/-- ten equally spaced stations with a circulation that varies along the blade meet the hypotheses -/
example : let G : ℕ → ℝ := fun j => 0.1 * (j:ℝ)
    (2 ≤ 10 ∧ (0:ℝ) < 0.05 ∧ (0:ℝ) < 0.1 ∧ G (10-1) ≠ 0) ∧ (∀ i < 10, |(1:ℝ) * G i / (π * 1^2)| ≤ 0.3) ∧
      ∀ i < 10, (1:ℝ) * G i / (π * 1^2) ≤ Ctc := by
  intro G
  have hb : ∀ i < 10, 0 ≤ (1:ℝ) * G i / (π * 1^2) ∧ (1:ℝ) * G i / (π * 1^2) ≤ 0.3 := by
    intro i hi
    have hi : (i:ℝ) ≤ 9 := by exact_mod_cast (by omega : i ≤ 9)
    have := pi_gt_three
    have := pi_pos
    simp only [G]
    refine ⟨by positivity, ?_⟩
    rw [div_le_iff₀ (by positivity)]
    nlinarith
  refine ⟨⟨by norm_num, by norm_num, by norm_num, by simp only [G]; norm_num⟩, fun i hi => ?_, fun i hi => ?_⟩
  · rw [abs_of_nonneg (hb i hi).1]; exact (hb i hi).2
  · have : Ctc = 0.8976 := by unfold Ctc ac; norm_num
    rw [this]; linarith [(hb i hi).2]

end
end Wiz
