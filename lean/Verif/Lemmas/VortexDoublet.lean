import Verif.Model.VortexDoublet
import Verif.Spec.Doublet
import Verif.Lemmas.Geometry
import Verif.Lemmas.LineIntegrals
import Verif.Lemmas.Polar
import Mathlib.Tactic.NormNum.NatFactorial

namespace Wiz
open Classical MeasureTheory Set

theorem rpow_three_half {n : ℝ} (hn : 0 ≤ n) : (n^2 : ℝ) ^ (3/2 : ℝ) = n^3 := by
  rw [← Real.rpow_natCast n 2, ← Real.rpow_mul hn]
  norm_num
theorem rpow_half {n : ℝ} (hn : 0 ≤ n) : (n^2 : ℝ) ^ (1/2 : ℝ) = n := by
  rw [← Real.rpow_natCast n 2, ← Real.rpow_mul hn]
  norm_num
theorem rpow_five_third {n : ℝ} (hn : 0 ≤ n) : (n^3 : ℝ) ^ (5/3 : ℝ) = n^5 := by
  rw [← Real.rpow_natCast n 3, ← Real.rpow_mul hn]
  norm_num

/-- `(|r|²)**(3/2)` as computed by the code -/
theorem num_rpow_three_half {n : ℝ} (hn : 0 ≤ n) : Num.rpow (.fin (n^2)) (3/2) = .fin (n^3) := by
  rcases hn.eq_or_lt with h | h
  · subst h; simp [Num.rpow]
  · rw [Num.rpow_fin _ (by positivity), rpow_three_half hn]
theorem num_rpow_half {n : ℝ} (hn : 0 < n) : Num.rpow (.fin (n^2)) (1/2) = .fin n := by
  rw [Num.rpow_fin _ (by positivity), rpow_half hn.le]
theorem num_rpow_five_third {n : ℝ} (hn : 0 < n) : Num.rpow (.fin (n^3)) (5/3) = .fin (n^5) := by
  rw [Num.rpow_fin _ (by positivity), rpow_five_third hn.le]

theorem norm_sq' (v : V3 ℝ) : V3.norm v ^ 2 = v.x^2 + v.y^2 + v.z^2 := by
  rw [norm_sq]; simp [V3.dot]; ring
theorem norm_nonneg' (a : V3 ℝ) : 0 ≤ V3.norm a := Real.sqrt_nonneg _

theorem doubletU_eval (p m x0 : V3 ℝ) :
    doubletU p (V3.fin m) x0 =
      if V3.norm (p - x0) ^ 3 < 1e-8 then 0 else V3.fin (Spec.doubletField m x0 p) := by
  have hpi : (4 * Real.pi) ≠ 0 := by have := Real.pi_pos; positivity
  have hn := norm_nonneg' (p - x0)
  have hs : Num.rpow ((Num.fin p.x - Num.fin x0.x)^2 + (Num.fin p.y - Num.fin x0.y)^2
      + (Num.fin p.z - Num.fin x0.z)^2) (3/2) = .fin (V3.norm (p - x0) ^ 3) := by
    simp only [Num.fin_sub, Num.fin_pow, Num.fin_add]
    rw [← num_rpow_three_half hn, norm_sq']; rfl
  unfold doubletU
  simp only [hs, Num.lt_fin]
  split_ifs with h
  · rfl
  · have hpos : 0 < V3.norm (p - x0) := by
      rcases hn.eq_or_lt with h0 | h0
      · rw [← h0] at h; norm_num at h
      · exact h0
    rw [num_rpow_five_third hpos]
    simp only [Spec.doubletField]
    generalize hN : V3.norm (p - x0) = N at *
    have h5 : N^5 ≠ 0 := by positivity
    have h3 : N^3 ≠ 0 := by positivity
    ext <;> simp only [V3.fin_x, V3.fin_y, V3.fin_z, Num.one_def, Num.ofNat_def, Num.fin_div hpi,
      Num.fin_mul, Num.fin_add, Num.fin_sub, Num.fin_div h5, Num.fin_div h3, Num.fin_inj, V3.smul_x, V3.smul_y,
      V3.smul_z, V3.sub_x, V3.sub_y, V3.sub_z, V3.dot] <;> field_simp

/-- off-line facts: `a>0`, `c>0`, `-ac ≤ b < ac` unless the point is on the forward line. -/
theorem line_geometry (p : V3 ℝ) (m : ℝ) (h : ¬ (p.y = 0 ∧ p.x = m*p.z ∧ 0 ≤ p.z)) :
    0 < V3.norm p ∧ 0 < Real.sqrt (m^2+1) ∧ -(V3.norm p * Real.sqrt (m^2+1)) ≤ m*p.x + p.z ∧
      m*p.x + p.z < V3.norm p * Real.sqrt (m^2+1) := by
  have hc : 0 < Real.sqrt (m^2+1) := Real.sqrt_pos.mpr (by positivity)
  have hc2 : Real.sqrt (m^2+1)^2 = m^2+1 := Real.sq_sqrt (by positivity)
  have hp : p ≠ 0 := by rintro rfl; exact h (by simp)
  have ha := norm_pos hp
  have ha2 := norm_sq' p
  have hid : (V3.norm p * Real.sqrt (m^2+1))^2 - (m*p.x+p.z)^2 = (p.x - m*p.z)^2 + (m^2+1)*p.y^2 := by
    rw [mul_pow, ha2, hc2]; ring
  have hac : 0 < V3.norm p * Real.sqrt (m^2+1) := by positivity
  generalize V3.norm p * Real.sqrt (m^2+1) = k at *
  refine ⟨ha, hc, ?_, ?_⟩
  · nlinarith [sq_nonneg (p.x - m*p.z), mul_nonneg (by positivity : 0 ≤ m^2+1) (sq_nonneg p.y)]
  · by_contra hle
    push Not at hle
    have h1 := sq_nonneg (p.x - m*p.z)
    have h2 := mul_nonneg (by positivity : 0 ≤ m^2+1) (sq_nonneg p.y)
    have h3 : k^2 ≤ (m*p.x+p.z)^2 := by gcongr
    have hx : p.x - m*p.z = 0 := by
      have : (p.x - m*p.z)^2 = 0 := by linarith
      exact pow_eq_zero_iff (two_ne_zero) |>.mp this
    have hy : p.y = 0 := by
      have h4 : (m^2+1)*p.y^2 = 0 := by linarith
      rcases mul_eq_zero.mp h4 with h5 | h5
      · nlinarith [sq_nonneg m]
      · exact pow_eq_zero_iff (two_ne_zero) |>.mp h5
    have hx' : p.x = m*p.z := by linarith
    apply h
    refine ⟨hy, hx', ?_⟩
    rw [hx'] at hle
    have h6 : k ≤ (m^2+1)*p.z := by linarith
    have h7 : 0 < (m^2+1)*p.z := lt_of_lt_of_le hac h6
    exact (pos_of_mul_pos_right h7 (by positivity)).le

theorem norm_doublet_line (p : V3 ℝ) (m s : ℝ) :
    V3.norm (p - ⟨m*s, 0, s⟩) = LineInt.q (V3.norm p) (m*p.x+p.z) (Real.sqrt (m^2+1)) s := by
  rw [norm_eq_sqrt_dot]
  unfold LineInt.q LineInt.Q
  rw [norm_sq', Real.sq_sqrt (by positivity)]
  congr 1
  simp [V3.dot]; ring

/-- the three components of the integrand of a doublet line, expanded in powers of `s` -/
theorem doublet_integrand (p : V3 ℝ) (K m s : ℝ) :
    Spec.doubletField ⟨0, 0, K⟩ ⟨m*s, 0, s⟩ p =
      let q := LineInt.q (V3.norm p) (m*p.x+p.z) (Real.sqrt (m^2+1)) s
      let k := K/(4*Real.pi)
      ⟨k*(p.x*p.z)*(3/q^5) + -k*(m*p.z+p.x)*(3*s/q^5) + k*m*(3*s^2/q^5) + 0*(1/q^3),
       k*(p.y*p.z)*(3/q^5) + -k*p.y*(3*s/q^5) + 0*(3*s^2/q^5) + 0*(1/q^3),
       k*p.z^2*(3/q^5) + -k*(2*p.z)*(3*s/q^5) + k*(3*s^2/q^5) + -k*(1/q^3)⟩ := by
  simp only [Spec.doubletField, norm_doublet_line]
  ext <;> simp only [V3.smul_x, V3.smul_y, V3.smul_z, V3.sub_x, V3.sub_y, V3.sub_z, V3.dot] <;> ring

/-- closed form of the semi-infinite doublet line -/
theorem doublet_line_integral (p : V3 ℝ) (K m : ℝ) (h : ¬ (p.y = 0 ∧ p.x = m*p.z ∧ 0 ≤ p.z)) :
    Spec.vint (Ioi 0) (fun s => Spec.doubletField ⟨0, 0, K⟩ ⟨m*s, 0, s⟩ p) =
      let a := V3.norm p
      let b := m*p.x + p.z
      let c := Real.sqrt (m^2+1)
      let k := K/(4*Real.pi)
      let i30 := 1/(a*(a*c-b))
      let ti50 := (2*a*c-b)/(a^3*(a*c-b)^2)
      let ti51 := 1/(a*(a*c-b)^2)
      let ti52 := 1/(c*(a*c-b)^2)
      ⟨k * (p.x*p.z*ti50 + m*ti52 - (m*p.z+p.x)*ti51), k * (p.y*p.z*ti50 - p.y*ti51),
       k * (p.z^2*ti50 + ti52 - 2*p.z*ti51 - i30)⟩ := by
  obtain ⟨ha, hc, h1, h2⟩ := line_geometry p m h
  simp only [doublet_integrand, Spec.vint, LineInt.int_comb ha hc h1 h2]
  ext <;> simp only <;> ring

/-- evaluation of the semi-infinite doublet line model -/
theorem doubletLineU_eval (p : V3 ℝ) (K m : ℝ)
    (h : ¬ (|p.y| < 1e-8 ∧ |p.x - m*p.z| < 1e-8 ∧ p.z ≥ 0)) :
    doubletLineU p (.fin K) m none =
      V3.fin (Spec.vint (Ioi 0) (fun s => Spec.doubletField ⟨0, 0, K⟩ ⟨m*s, 0, s⟩ p)) := by
  have h' : ¬ (p.y = 0 ∧ p.x = m*p.z ∧ 0 ≤ p.z) := by
    rintro ⟨e1, e2, e3⟩
    apply h
    rw [e1, e2]
    norm_num
    exact e3
  obtain ⟨ha, hc, h1, h2⟩ := line_geometry p m h'
  have hpi : (4 * Real.pi) ≠ 0 := by have := Real.pi_pos; positivity
  rw [doublet_line_integral p K m h']
  have hg : ¬ (|p.y| < 1e-8 ∧ |p.x - m*p.z| < 1e-8 ∧ p.z ≥ 0 ∧ (∀ l ∈ (none : Option ℝ), p.z ≤ l)) := by
    rintro ⟨x1, x2, x3, _⟩; exact h ⟨x1, x2, x3⟩
  unfold doubletLineU
  rw [if_neg hg]
  have e1 : Num.sqrt (Num.fin p.x ^ 2 + Num.fin p.y ^ 2 + Num.fin p.z ^ 2) = Num.fin (V3.norm p) := normN_fin p
  have e2 : Num.sqrt (Num.fin m ^ 2 + 1) = Num.fin (Real.sqrt (m^2+1)) := by
    simp only [Num.one_def, Num.fin_pow, Num.fin_add]
    exact Num.sqrt_fin (by positivity)
  simp only [e1, e2]
  simp only [doubletLineIntegrals, I30, tI50, tI51, tI52, Num.one_def, Num.ofNat_def, Num.fin_mul,
    Num.fin_add, Num.fin_sub, Num.fin_pow]
  have hd : V3.norm p * Real.sqrt (m^2+1) - (m*p.x+p.z) ≠ 0 := by linarith
  generalize V3.norm p * Real.sqrt (m^2+1) - (m*p.x+p.z) = d at *
  generalize V3.norm p = a at *
  generalize Real.sqrt (m^2+1) = c at *
  have n1 : a*d ≠ 0 := by positivity
  have n2 : a^3*d^2 ≠ 0 := by positivity
  have n3 : a*d^2 ≠ 0 := by positivity
  have n4 : c*d^2 ≠ 0 := by positivity
  rw [Num.fin_div n1, Num.fin_div n2, Num.fin_div n3, Num.fin_div n4, Num.fin_div hpi]
  rfl

/-! ### finite lines -/
section finite
variable {a b c : ℝ}

/-- the spurious term of the code's `3 I50` primitive -/
noncomputable def i50err (a b c L : ℝ) : ℝ :=
  c^2*(b^2+a^2*c^2)/(a^2*c^2-b^2)^2*L/LineInt.q a b c L^3

theorem quad_num (a b c x : ℝ) :
    (Num.fin a)^2 - 2*Num.fin b*Num.fin x + (Num.fin c)^2*(Num.fin x)^2 = .fin (LineInt.Q a b c x) := by
  simp only [Num.ofNat_def, Num.fin_pow, Num.fin_mul, Num.fin_sub, Num.fin_add]; rfl

section
variable (hc : 0 < c) (hD : 0 < a^2*c^2 - b^2)
include hc hD

theorem i30norm_eval (x : ℝ) : i30indefNorm (.fin a) (.fin b) (.fin c) (.fin x) =
    .fin ((-b/(a^2*c^2-b^2) + c^2/(a^2*c^2-b^2)*x)/LineInt.q a b c x) := by
  have hQ := LineInt.Q_pos hc hD x
  have hq := LineInt.q_pos hQ
  unfold i30indefNorm
  rw [quad_num, Num.sqrt_fin hQ.le, show Real.sqrt (LineInt.Q a b c x) = LineInt.q a b c x from rfl]
  simp only [Num.fin_pow, Num.fin_mul, Num.fin_sub]
  have hD' : b^2 - a^2*c^2 ≠ 0 := by linarith
  rw [Num.fin_div (mul_ne_zero hD' hq.ne')]
  rw [Num.fin_inj]
  have e : b^2 - a^2*c^2 = -(a^2*c^2-b^2) := by ring
  rw [e]
  generalize a^2*c^2-b^2 = D at *
  field_simp
  ring

theorem cubic_eval (n0 n1 n2 n3 x : ℝ) :
    Num.fin (n0 + n1*x + n2*x^2 + n3*x^3) /
      (((Num.fin b)^2 - (Num.fin a)^2*(Num.fin c)^2)^2 * Num.rpow (.fin (LineInt.Q a b c x)) (3/2))
    = .fin ((n0/(a^2*c^2-b^2)^2 + n1/(a^2*c^2-b^2)^2*x + n2/(a^2*c^2-b^2)^2*x^2
        + n3/(a^2*c^2-b^2)^2*x^3)/LineInt.q a b c x^3) := by
  have hQ := LineInt.Q_pos hc hD x
  have hq := LineInt.q_pos hQ
  have e : LineInt.Q a b c x = LineInt.q a b c x^2 := (Real.sq_sqrt hQ.le).symm
  rw [e, num_rpow_three_half hq.le]
  simp only [Num.fin_pow, Num.fin_mul, Num.fin_sub]
  have e2 : (b^2 - a^2*c^2)^2 = (a^2*c^2-b^2)^2 := by ring
  rw [e2, Num.fin_div (by positivity), Num.fin_inj]
  generalize a^2*c^2-b^2 = D at *
  field_simp

theorem i50norm_eval (x : ℝ) : i50indefNorm (.fin a) (.fin b) (.fin c) (.fin x) =
    .fin ((b*(b^2-3*a^2*c^2)/(a^2*c^2-b^2)^2 + 3*c^2*(b^2+a^2*c^2)/(a^2*c^2-b^2)^2*x
      + -6*b*c^4/(a^2*c^2-b^2)^2*x^2 + 2*c^6/(a^2*c^2-b^2)^2*x^3)/LineInt.q a b c x^3 - i50err a b c x) := by
  have h := cubic_eval hc hD (b*(b^2-3*a^2*c^2)) (2*c^2*(b^2+a^2*c^2)) (-6*b*c^4) (2*c^6) x
  unfold i50indefNorm
  rw [quad_num, ← show Num.fin (b*(b^2-3*a^2*c^2) + 2*c^2*(b^2+a^2*c^2)*x + (-6*b*c^4)*x^2 + 2*c^6*x^3) =
    (Num.fin b*((Num.fin b)^2 - 3*(Num.fin a)^2*(Num.fin c)^2)
      + 2*(Num.fin c)^2*((Num.fin b)^2 + (Num.fin a)^2*(Num.fin c)^2)*Num.fin x
      - 6*Num.fin b*(Num.fin c)^4*(Num.fin x)^2 + 2*(Num.fin c)^6*(Num.fin x)^3) by
      simp only [Num.ofNat_def, Num.fin_pow, Num.fin_mul, Num.fin_sub, Num.fin_add, Num.fin_inj]; ring, h, Num.fin_inj]
  unfold i50err
  ring

theorem i51norm_eval (x : ℝ) : i51indefNorm (.fin a) (.fin b) (.fin c) (.fin x) =
    .fin ((-a^2*(b^2+a^2*c^2)/(a^2*c^2-b^2)^2 + 3*b*(b^2+a^2*c^2)/(a^2*c^2-b^2)^2*x
      + -6*b^2*c^2/(a^2*c^2-b^2)^2*x^2 + 2*b*c^4/(a^2*c^2-b^2)^2*x^3)/LineInt.q a b c x^3) := by
  have h := cubic_eval hc hD (-a^2*(b^2+a^2*c^2)) (3*b*(b^2+a^2*c^2)) (-6*b^2*c^2) (2*b*c^4) x
  unfold i51indefNorm
  rw [quad_num, ← h]
  congr 1
  simp only [Num.ofNat_def, Num.fin_pow, Num.fin_mul, Num.fin_sub, Num.fin_add, Num.fin_neg, Num.fin_inj]
  ring

theorem i52norm_eval (x : ℝ) : i52indefNorm (.fin a) (.fin b) (.fin c) (.fin x) =
    .fin ((-2*a^4*b/(a^2*c^2-b^2)^2 + 6*a^2*b^2/(a^2*c^2-b^2)^2*x
      + -3*b*(b^2+a^2*c^2)/(a^2*c^2-b^2)^2*x^2 + c^2*(b^2+a^2*c^2)/(a^2*c^2-b^2)^2*x^3)/LineInt.q a b c x^3) := by
  have h := cubic_eval hc hD (-2*a^4*b) (6*a^2*b^2) (-3*b*(b^2+a^2*c^2)) (c^2*(b^2+a^2*c^2)) x
  unfold i52indefNorm
  rw [quad_num, ← h]
  congr 1
  simp only [Num.ofNat_def, Num.fin_pow, Num.fin_mul, Num.fin_sub, Num.fin_add, Num.fin_neg, Num.fin_inj]
  ring
end

/-- finite integrals, regular branch: three are exact, `3 I50` misses `i50err` -/
theorem finite_regular (hc : 0 < c) (hD : 1e-8 ≤ a^2*c^2 - b^2) (L : ℝ) :
    integralsDLfinite (.fin a) (.fin b) (.fin c) (.fin L) =
      (.fin (∫ s in (0:ℝ)..L, 1/LineInt.q a b c s^3),
       .fin ((∫ s in (0:ℝ)..L, 3/LineInt.q a b c s^5) - i50err a b c L),
       .fin (∫ s in (0:ℝ)..L, 3*s/LineInt.q a b c s^5),
       .fin (∫ s in (0:ℝ)..L, 3*s^2/LineInt.q a b c s^5)) := by
  have hD0 : 0 < a^2*c^2 - b^2 := lt_of_lt_of_le (by norm_num) hD
  unfold integralsDLfinite
  have hb : ¬ (Num.abs ((Num.fin b)^2 - (Num.fin a)^2*(Num.fin c)^2) < .fin (1e-8)) := by
    simp only [Num.fin_pow, Num.fin_mul, Num.fin_sub, Num.abs_fin, Num.lt_fin, not_lt]
    rw [abs_sub_comm]
    exact hD.trans (le_abs_self _)
  rw [if_neg hb]
  simp only [Num.zero_def, i30norm_eval hc hD0, i50norm_eval hc hD0, i51norm_eval hc hD0, i52norm_eval hc hD0,
    Num.fin_sub]
  rw [LineInt.fin_int (LineInt.prim30 hc hD0) (LineInt.cont30 hc hD0),
    LineInt.fin_int (LineInt.prim50 hc hD0) (LineInt.cont50 hc hD0),
    LineInt.fin_int (LineInt.prim51 hc hD0) (LineInt.cont51 hc hD0),
    LineInt.fin_int (LineInt.prim52 hc hD0) (LineInt.cont52 hc hD0)]
  have h0 : i50err a b c 0 = 0 := by unfold i50err; simp
  rw [h0]
  simp only [Prod.mk.injEq, Num.fin_inj, true_and, and_true]
  ring

/-- FTC for a quadratic over a power of an affine function positive on `[0,L]` -/
theorem affine_ftc {L w1 : ℝ} (hL : 0 ≤ L) (ha : 0 < a) (hw : 0 < a + w1*L) (p0 p1 p2 : ℝ) (n : ℕ) (g : ℝ → ℝ)
    (hg : Continuous g)
    (e : ∀ s, ((p1 + 2*p2*s)*(a+w1*s) - (p0+p1*s+p2*s^2)*((n+1)*w1)) = g s) :
    ∫ s in (0:ℝ)..L, g s/(a+w1*s)^(n+2) = (p0+p1*L+p2*L^2)/(a+w1*L)^(n+1) - p0/a^(n+1) := by
  have pos : ∀ s ∈ uIcc (0:ℝ) L, 0 < a + w1*s := by
    intro s hs
    rw [uIcc_of_le hL] at hs
    rcases le_or_gt 0 w1 with h | h
    · have := mul_nonneg h hs.1; linarith
    · have := mul_le_mul_of_nonpos_left hs.2 h.le; linarith
  have hd : ∀ s ∈ uIcc (0:ℝ) L, HasDerivAt (fun s => (p0 + p1*s + p2*s^2)/(a + w1*s)^(n+1)) (g s/(a+w1*s)^(n+2)) s := by
    intro s hs
    refine HasDerivAt.congr_deriv (LineInt.quad_deriv a w1 s p0 p1 p2 n (pos s hs).ne') ?_
    rw [e]
  have hi : IntervalIntegrable (fun s => g s/(a+w1*s)^(n+2)) volume 0 L := by
    apply ContinuousOn.intervalIntegrable
    refine hg.continuousOn.div (by fun_prop) ?_
    intro s hs
    exact pow_ne_zero _ (pos s hs).ne'
  rw [intervalIntegral.integral_eq_sub_of_hasDerivAt hd hi]
  simp

theorem q_sing {σ : ℝ} (hσ : σ = 1 ∨ σ = -1) (s : ℝ) (h : 0 < a - σ*c*s) :
    LineInt.q a (σ*(a*c)) c s = a + -(σ*c)*s := by
  unfold LineInt.q LineInt.Q
  have : σ^2 = 1 := by rcases hσ with h | h <;> rw [h] <;> norm_num
  rw [show a^2 - 2*(σ*(a*c))*s + c^2*s^2 = (a - σ*c*s)^2 by linear_combination (-(c^2*s^2))*this, Real.sqrt_sq h.le]
  ring

/-- finite integrals, point exactly on the axis of the line, outside the line -/
theorem finite_singular {σ L : ℝ} (hσ : σ = 1 ∨ σ = -1) (ha : 0 < a) (hc : 0 < c) (hL : 0 ≤ L)
    (hw : 0 < a - σ*c*L) :
    integralsDLfinite (.fin a) (.fin (σ*(a*c))) (.fin c) (.fin L) =
      (.fin (∫ s in (0:ℝ)..L, 1/LineInt.q a (σ*(a*c)) c s^3),
       .fin (∫ s in (0:ℝ)..L, 3/LineInt.q a (σ*(a*c)) c s^5),
       .fin (∫ s in (0:ℝ)..L, 3*s/LineInt.q a (σ*(a*c)) c s^5),
       .fin (∫ s in (0:ℝ)..L, 3*s^2/LineInt.q a (σ*(a*c)) c s^5)) := by
  have hs2 : σ^2 = 1 := by rcases hσ with h | h <;> rw [h] <;> norm_num
  have hσ0 : σ ≠ 0 := by rcases hσ with h | h <;> rw [h] <;> norm_num
  have hsign : Num.sign (.fin (σ*(a*c))) = .fin σ := by
    have hac := mul_pos ha hc
    rcases hσ with h | h
    · subst h; simp [Num.sign, hac]
    · subst h
      have : ¬ (0 < -1 * (a*c)) := by linarith
      have h2 : -1 * (a*c) < 0 := by linarith
      simp only [Num.sign, this, h2, if_true, if_false]
  unfold integralsDLfinite
  have hb : Num.abs ((Num.fin (σ*(a*c)))^2 - (Num.fin a)^2*(Num.fin c)^2) < .fin (1e-8) := by
    simp only [Num.fin_pow, Num.fin_mul, Num.fin_sub, Num.abs_fin, Num.lt_fin]
    rw [show (σ*(a*c))^2 - a^2*c^2 = 0 by rw [mul_pow, hs2]; ring]
    norm_num
  rw [if_pos hb]
  have pos : ∀ s ∈ uIcc (0:ℝ) L, 0 < a - σ*c*s := by
    intro s hs
    rw [uIcc_of_le hL] at hs
    rcases le_or_gt 0 (σ*c) with h | h
    · have := mul_le_mul_of_nonneg_left hs.2 h; linarith
    · nlinarith [mul_nonneg (neg_nonneg.mpr h.le) hs.1]
  have cong : ∀ (g : ℝ → ℝ) (n : ℕ), ∫ s in (0:ℝ)..L, g s/LineInt.q a (σ*(a*c)) c s^n
      = ∫ s in (0:ℝ)..L, g s/(a + -(σ*c)*s)^n := by
    intro g n
    apply intervalIntegral.integral_congr
    intro s hs
    simp only [q_sing hσ s (pos s hs)]
  have hw' : 0 < a + -(σ*c)*L := by linarith
  rw [cong (fun _ => 1), cong (fun _ => 3), cong (fun s => 3*s), cong (fun s => 3*s^2)]
  rw [affine_ftc hL ha hw' (σ/(2*c)) 0 0 1 (fun _ => 1) (by fun_prop)
      (by intro s; rcases hσ with h | h <;> subst h <;> push_cast <;> field_simp <;> ring),
    affine_ftc hL ha hw' (3*σ/(4*c)) 0 0 3 (fun _ => 3) (by fun_prop)
      (by intro s; rcases hσ with h | h <;> subst h <;> push_cast <;> field_simp <;> ring),
    affine_ftc hL ha hw' (-(3*a)/(12*c^2)) (3*σ*4*c/(12*c^2)) 0 3 (fun s => 3*s) (by fun_prop)
      (by intro s; rcases hσ with h | h <;> subst h <;> push_cast <;> field_simp <;> ring),
    affine_ftc hL ha hw' (3*σ*a^2/(12*c^3)) (-(3*4*a*c)/(12*c^3)) (3*σ*6*c^2/(12*c^3)) 3 (fun s => 3*s^2) (by fun_prop)
      (by intro s; rcases hσ with h | h <;> subst h <;> push_cast <;> field_simp <;> ring)]
  have e0 : ∀ x, a - σ*c*x = a + -(σ*c)*x := fun x => by ring
  have n1 : ∀ x k : ℝ, 0 < k → 0 < a - σ*c*x → ∀ n : ℕ, k*(a - σ*c*x)^n ≠ 0 := by
    intro x k hk h n; positivity
  have w0 : 0 < a - σ*c*0 := by simpa using ha
  simp only [i30indefSing, i50indefSing, i51indefSing, i52indefSing, hsign, Num.zero_def, Num.ofNat_def, Num.fin_mul,
    Num.fin_sub, Num.fin_pow, Num.fin_add, Num.fin_neg]
  rw [Num.fin_div (n1 L (2*c) (by positivity) hw 2), Num.fin_div (n1 0 (2*c) (by positivity) w0 2),
    Num.fin_div (n1 L (4*c) (by positivity) hw 4), Num.fin_div (n1 0 (4*c) (by positivity) w0 4),
    Num.fin_div (n1 L (12*c^2) (by positivity) hw 4), Num.fin_div (n1 0 (12*c^2) (by positivity) w0 4),
    Num.fin_div (n1 L (12*c^3) (by positivity) hw 4), Num.fin_div (n1 0 (12*c^3) (by positivity) w0 4)]
  simp only [Num.fin_sub, mul_zero, sub_zero, e0, add_zero, Prod.mk.injEq, Num.fin_inj, Nat.reduceAdd]
  generalize a + -(σ*c)*L = w at *
  refine ⟨?_, ?_, ?_, ?_⟩
  · field_simp; ring
  · field_simp; ring
  · field_simp; ring
  · rcases hσ with h | h <;> subst h <;> field_simp <;> ring

end finite

theorem D_line (p : V3 ℝ) (m : ℝ) :
    V3.norm p^2 * Real.sqrt (m^2+1)^2 - (m*p.x+p.z)^2 = (p.x - m*p.z)^2 + (m^2+1)*p.y^2 := by
  rw [norm_sq', Real.sq_sqrt (by positivity)]; ring

theorem doubletLineU_finite_eval (p : V3 ℝ) (K m L : ℝ) (hL : 0 ≤ L)
    (hD : 1e-8 ≤ (p.x - m*p.z)^2 + (m^2+1)*p.y^2)
    (h : ¬ (|p.y| < 1e-8 ∧ |p.x - m*p.z| < 1e-8 ∧ p.z ≥ 0 ∧ p.z ≤ L)) :
    doubletLineU p (.fin K) m (some L) =
      V3.fin (Spec.vint (Ioc 0 L) (fun s => Spec.doubletField ⟨0, 0, K⟩ ⟨m*s, 0, s⟩ p)
        - V3.smul (K/(4*Real.pi) * p.z * i50err (V3.norm p) (m*p.x+p.z) (Real.sqrt (m^2+1)) L) p) := by
  have hc : 0 < Real.sqrt (m^2+1) := Real.sqrt_pos.mpr (by positivity)
  have hpi : (4 * Real.pi) ≠ 0 := by have := Real.pi_pos; positivity
  rw [← D_line] at hD
  have hD0 : 0 < V3.norm p^2 * Real.sqrt (m^2+1)^2 - (m*p.x+p.z)^2 := lt_of_lt_of_le (by norm_num) hD
  have hg : ¬ (|p.y| < 1e-8 ∧ |p.x - m*p.z| < 1e-8 ∧ p.z ≥ 0 ∧ (∀ l ∈ (some L : Option ℝ), p.z ≤ l)) := by
    rintro ⟨x1, x2, x3, x4⟩; exact h ⟨x1, x2, x3, x4 L rfl⟩
  unfold doubletLineU
  rw [if_neg hg]
  have e1 : Num.sqrt (Num.fin p.x ^ 2 + Num.fin p.y ^ 2 + Num.fin p.z ^ 2) = Num.fin (V3.norm p) := normN_fin p
  have e2 : Num.sqrt (Num.fin m ^ 2 + 1) = Num.fin (Real.sqrt (m^2+1)) := by
    simp only [Num.one_def, Num.fin_pow, Num.fin_add]
    exact Num.sqrt_fin (by positivity)
  have e3 : Num.fin m * Num.fin p.x + Num.fin p.z = Num.fin (m*p.x+p.z) := rfl
  simp only [e1, e2, e3, doubletLineIntegrals, finite_regular hc hD L]
  simp only [doublet_integrand, Spec.vint, ← intervalIntegral.integral_of_le hL]
  have i0 := (LineInt.cont50 hc hD0).intervalIntegrable (μ := volume) 0 L
  have i1 := (LineInt.cont51 hc hD0).intervalIntegrable (μ := volume) 0 L
  have i2 := (LineInt.cont52 hc hD0).intervalIntegrable (μ := volume) 0 L
  have i3 := (LineInt.cont30 hc hD0).intervalIntegrable (μ := volume) 0 L
  have comb : ∀ k0 k1 k2 k3 : ℝ, ∫ s in (0:ℝ)..L,
      (k0*(3/LineInt.q (V3.norm p) (m*p.x+p.z) (Real.sqrt (m^2+1)) s^5)
        + k1*(3*s/LineInt.q (V3.norm p) (m*p.x+p.z) (Real.sqrt (m^2+1)) s^5)
        + k2*(3*s^2/LineInt.q (V3.norm p) (m*p.x+p.z) (Real.sqrt (m^2+1)) s^5)
        + k3*(1/LineInt.q (V3.norm p) (m*p.x+p.z) (Real.sqrt (m^2+1)) s^3))
      = k0*(∫ s in (0:ℝ)..L, 3/LineInt.q (V3.norm p) (m*p.x+p.z) (Real.sqrt (m^2+1)) s^5)
        + k1*(∫ s in (0:ℝ)..L, 3*s/LineInt.q (V3.norm p) (m*p.x+p.z) (Real.sqrt (m^2+1)) s^5)
        + k2*(∫ s in (0:ℝ)..L, 3*s^2/LineInt.q (V3.norm p) (m*p.x+p.z) (Real.sqrt (m^2+1)) s^5)
        + k3*(∫ s in (0:ℝ)..L, 1/LineInt.q (V3.norm p) (m*p.x+p.z) (Real.sqrt (m^2+1)) s^3) := by
    intro k0 k1 k2 k3
    rw [intervalIntegral.integral_add (((i0.const_mul k0).add (i1.const_mul k1)).add (i2.const_mul k2)) (i3.const_mul k3),
      intervalIntegral.integral_add ((i0.const_mul k0).add (i1.const_mul k1)) (i2.const_mul k2),
      intervalIntegral.integral_add (i0.const_mul k0) (i1.const_mul k1)]
    simp only [intervalIntegral.integral_const_mul]
  simp only [comb]
  ext <;> simp only [V3.fin_x, V3.fin_y, V3.fin_z, V3.sub_x, V3.sub_y, V3.sub_z, V3.smul_x, V3.smul_y, V3.smul_z,
    Num.ofNat_def, Num.fin_mul, Num.fin_add, Num.fin_sub, Num.fin_pow, Num.fin_div hpi, Num.fin_inj] <;> ring

/-- the semi-infinite straight line is a point source -/
theorem doublet_line_straight (p : V3 ℝ) (K : ℝ) (h : ¬ (p.x = 0 ∧ p.y = 0 ∧ 0 ≤ p.z)) :
    Spec.vint (Ioi 0) (fun s => Spec.doubletField ⟨0, 0, K⟩ ⟨0*s, 0, s⟩ p) =
      V3.smul (-(K/(4*Real.pi)) / V3.norm p^3) p := by
  have h' : ¬ (p.y = 0 ∧ p.x = 0*p.z ∧ 0 ≤ p.z) := by
    rintro ⟨e1, e2, e3⟩; exact h ⟨by simpa using e2, e1, e3⟩
  obtain ⟨ha, hc, h1, h2⟩ := line_geometry p 0 h'
  rw [doublet_line_integral p K 0 h']
  simp only [zero_mul, zero_add, ne_eq, OfNat.ofNat_ne_zero, not_false_eq_true, zero_pow, Real.sqrt_one, mul_one] at *
  have hd : V3.norm p - p.z ≠ 0 := by linarith
  generalize V3.norm p = a at *
  obtain ⟨d, hd'⟩ : ∃ d, d = a - p.z := ⟨_, rfl⟩
  have hz : p.z = a - d := by linarith
  rw [← hd'] at hd ⊢
  ext
  · simp only [V3.smul_x, hz]; field_simp; ring
  · simp only [V3.smul_y, hz]; field_simp; ring
  · simp only [V3.smul_z, hz]; field_simp; ring

end Wiz
