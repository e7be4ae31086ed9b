import Verif.Lemmas.TrapzError
import Verif.Props.VortexDoublet
/-! # C107: the reference quadratures of the doublet-line integrals (`I30_num`, `I50_num`, `I51_num`, `I52_num`) -/
namespace Wiz
open Real MeasureTheory Set Filter Topology

theorem rpow_halves {t : ℝ} (h : 0 < t) (k : ℕ) : t ^ ((k:ℝ)/2) = √t ^ k := by
  rw [sqrt_eq_rpow, ← rpow_natCast, ← rpow_mul h.le]; congr 1; ring

theorem num_node {t : ℝ} (h : 0 < t) (a : ℝ) :
    Num.fin a / Num.rpow (.fin t) (3/2) = .fin (a / √t^3) ∧ Num.fin a / Num.rpow (.fin t) (5/2) = .fin (a / √t^5) := by
  have hs := sqrt_pos.mpr h
  have e3 : t ^ ((3:ℝ)/2) = √t^3 := by have := rpow_halves h 3; simpa using this
  have e5 : t ^ ((5:ℝ)/2) = √t^5 := by have := rpow_halves h 5; simpa using this
  rw [Num.rpow_fin _ h, Num.rpow_fin _ h, e3, e5, Num.fin_div (by positivity), Num.fin_div (by positivity)]
  exact ⟨rfl, rfl⟩

theorem node_eq (p : V3 ℝ) (m s : ℝ) :
    √((p.x-m*s)^2 + p.y^2 + (p.z-s)^2) = LineInt.q (V3.norm p) (m*p.x+p.z) (√(m^2+1)) s := by
  rw [← norm_doublet_line]; unfold V3.norm; simp

/-- the four quadratures with real numbers -/
theorem inum_eval (p : V3 ℝ) (m : ℝ) (h : ¬ (p.y = 0 ∧ p.x = m*p.z ∧ 0 ≤ p.z)) {Z : ℝ} (hZ : 0 ≤ Z) {n : ℕ} (hn : 0 < n) :
    I30num p.x p.y p.z m (n+1) Z = .fin (panels Z n fun s => 1/√((p.x-m*s)^2 + p.y^2 + (p.z-s)^2)^3) ∧
    I50num p.x p.y p.z m (n+1) Z = .fin (panels Z n fun s => 1/√((p.x-m*s)^2 + p.y^2 + (p.z-s)^2)^5) ∧
    I51num p.x p.y p.z m (n+1) Z = .fin (panels Z n fun s => s/√((p.x-m*s)^2 + p.y^2 + (p.z-s)^2)^5) ∧
    I52num p.x p.y p.z m (n+1) Z = .fin (panels Z n fun s => s^2/√((p.x-m*s)^2 + p.y^2 + (p.z-s)^2)^5) := by
  have hpos : ∀ s ∈ Icc (0:ℝ) Z, 0 < (p.x-m*s)^2 + p.y^2 + (p.z-s)^2 := by
    intro s hs
    by_contra hcon
    have h1 : (p.x-m*s)^2 = 0 := by nlinarith [sq_nonneg (p.x-m*s), sq_nonneg p.y, sq_nonneg (p.z-s)]
    have h2 : p.y^2 = 0 := by nlinarith [sq_nonneg (p.x-m*s), sq_nonneg p.y, sq_nonneg (p.z-s)]
    have h3 : (p.z-s)^2 = 0 := by nlinarith [sq_nonneg (p.x-m*s), sq_nonneg p.y, sq_nonneg (p.z-s)]
    have e3 : p.z = s := by have := pow_eq_zero_iff (two_ne_zero) |>.mp h3; linarith
    have e1 : p.x = m*s := by have := pow_eq_zero_iff (two_ne_zero) |>.mp h1; linarith
    exact h ⟨pow_eq_zero_iff (two_ne_zero) |>.mp h2, by rw [e1, e3], by rw [e3]; exact hs.1⟩
  unfold I30num I50num I51num I52num
  refine ⟨trapz_panels hZ hn _ _ ?_, trapz_panels hZ hn _ _ ?_, trapz_panels hZ hn _ _ ?_, trapz_panels hZ hn _ _ ?_⟩
  · intro s hs; exact (num_node (hpos s hs) 1).1
  · intro s hs; exact (num_node (hpos s hs) 1).2
  · intro s hs; exact (num_node (hpos s hs) s).2
  · intro s hs; rw [Num.fin_pow]; exact (num_node (hpos s hs) _).2

/-- C107: at every point off the half line, the four reference quadratures are real numbers; as the number of points grows they
converge to the integrals over `[0,zmax]`, and as `zmax` grows these converge to the closed forms used by `doublet_line_u`
(`I30`, `tI50/3`, `tI51/3`, `tI52/3` at `a=|p|`, `b=mx+z`, `c=√(m²+1)`). -/
theorem C107_converges (p : V3 ℝ) (m : ℝ) (h : ¬ (p.y = 0 ∧ p.x = m*p.z ∧ 0 ≤ p.z)) :
    ∃ (A B C D : ℝ → ℕ → ℝ) (a b c d : ℝ → ℝ) (i30 i50 i51 i52 : ℝ),
      (∀ Z, 0 ≤ Z → ∀ n : ℕ, 0 < n → I30num p.x p.y p.z m (n+1) Z = .fin (A Z n) ∧ I50num p.x p.y p.z m (n+1) Z = .fin (B Z n) ∧
        I51num p.x p.y p.z m (n+1) Z = .fin (C Z n) ∧ I52num p.x p.y p.z m (n+1) Z = .fin (D Z n)) ∧
      (∀ Z, 0 < Z → Tendsto (A Z) atTop (𝓝 (a Z)) ∧ Tendsto (B Z) atTop (𝓝 (b Z)) ∧ Tendsto (C Z) atTop (𝓝 (c Z)) ∧ Tendsto (D Z) atTop (𝓝 (d Z))) ∧
      Tendsto a atTop (𝓝 i30) ∧ Tendsto b atTop (𝓝 i50) ∧ Tendsto c atTop (𝓝 i51) ∧ Tendsto d atTop (𝓝 i52) ∧
      I30 (.fin (V3.norm p)) (.fin (m*p.x + p.z)) (.fin √(m^2+1)) = .fin i30 ∧
      tI50 (.fin (V3.norm p)) (.fin (m*p.x + p.z)) (.fin √(m^2+1)) = .fin (3*i50) ∧
      tI51 (.fin (V3.norm p)) (.fin (m*p.x + p.z)) (.fin √(m^2+1)) = .fin (3*i51) ∧
      tI52 (.fin (V3.norm p)) (.fin (m*p.x + p.z)) (.fin √(m^2+1)) = .fin (3*i52) := by
  obtain ⟨ha, hc, h1, h2⟩ := line_geometry p m h
  obtain ⟨e1, e2, e3, e4, i1, i2, i3, i4⟩ := C56_improper_integrals _ _ _ ha hc h1 h2
  have hq : ∀ s, √((p.x-m*s)^2 + p.y^2 + (p.z-s)^2) = √(V3.norm p^2 - 2*(m*p.x+p.z)*s + √(m^2+1)^2*s^2) := node_eq p m
  have hne : ∀ s, 0 ≤ s → √((p.x-m*s)^2 + p.y^2 + (p.z-s)^2) ≠ 0 := by
    intro s hs h0
    rw [sqrt_eq_zero (by positivity)] at h0
    have g1 : (p.x-m*s)^2 = 0 := by nlinarith [sq_nonneg (p.x-m*s), sq_nonneg p.y, sq_nonneg (p.z-s)]
    have g2 : p.y^2 = 0 := by nlinarith [sq_nonneg (p.x-m*s), sq_nonneg p.y, sq_nonneg (p.z-s)]
    have g3 : (p.z-s)^2 = 0 := by nlinarith [sq_nonneg (p.x-m*s), sq_nonneg p.y, sq_nonneg (p.z-s)]
    have e3 : p.z = s := by have := pow_eq_zero_iff (two_ne_zero) |>.mp g3; linarith
    have e1 : p.x = m*s := by have := pow_eq_zero_iff (two_ne_zero) |>.mp g1; linarith
    exact h ⟨pow_eq_zero_iff (two_ne_zero) |>.mp g2, by rw [e1, e3], by rw [e3]; exact hs⟩
  have cont : ∀ (f : ℝ → ℝ) (k : ℕ) (Z : ℝ), Continuous f → ContinuousOn (fun s => f s/√((p.x-m*s)^2 + p.y^2 + (p.z-s)^2)^k) (Icc 0 Z) :=
    fun f k Z hf => hf.continuousOn.div (by fun_prop) (fun s hs => pow_ne_zero _ (hne s hs.1))
  refine ⟨_, _, _, _, _, _, _, _, ∫ s in Ioi (0:ℝ), 1/√((p.x-m*s)^2 + p.y^2 + (p.z-s)^2)^3, ∫ s in Ioi (0:ℝ), 1/√((p.x-m*s)^2 + p.y^2 + (p.z-s)^2)^5,
    ∫ s in Ioi (0:ℝ), s/√((p.x-m*s)^2 + p.y^2 + (p.z-s)^2)^5, ∫ s in Ioi (0:ℝ), s^2/√((p.x-m*s)^2 + p.y^2 + (p.z-s)^2)^5,
    fun Z hZ n hn => inum_eval p m h hZ hn, fun Z hZ => ⟨panels_tendsto_on hZ _ (cont _ 3 Z continuous_const), panels_tendsto_on hZ _ (cont _ 5 Z continuous_const),
      panels_tendsto_on hZ _ (cont (fun s => s) 5 Z continuous_id), panels_tendsto_on hZ _ (cont (fun s => s^2) 5 Z (by fun_prop))⟩, ?_⟩
  simp only [hq] at *
  have j2 : IntegrableOn (fun s => 1/√(V3.norm p^2 - 2*(m*p.x+p.z)*s + √(m^2+1)^2*s^2)^5) (Ioi 0) :=
    (i2.const_mul (1/3)).congr (ae_of_all _ fun s => by simp only; ring)
  have j3 : IntegrableOn (fun s => s/√(V3.norm p^2 - 2*(m*p.x+p.z)*s + √(m^2+1)^2*s^2)^5) (Ioi 0) :=
    (i3.const_mul (1/3)).congr (ae_of_all _ fun s => by simp only; ring)
  have j4 : IntegrableOn (fun s => s^2/√(V3.norm p^2 - 2*(m*p.x+p.z)*s + √(m^2+1)^2*s^2)^5) (Ioi 0) :=
    (i4.const_mul (1/3)).congr (ae_of_all _ fun s => by simp only; ring)
  refine ⟨intervalIntegral_tendsto_integral_Ioi 0 i1 tendsto_id, intervalIntegral_tendsto_integral_Ioi 0 j2 tendsto_id,
    intervalIntegral_tendsto_integral_Ioi 0 j3 tendsto_id, intervalIntegral_tendsto_integral_Ioi 0 j4 tendsto_id, e1, ?_, ?_, ?_⟩
  · rw [e2, ← integral_const_mul]; congr 2; funext s; ring
  · rw [e3, ← integral_const_mul]; congr 2; funext s; ring
  · rw [e4, ← integral_const_mul]; congr 2; funext s; ring

theorem qpow_deriv {a b c s : ℝ} (hc : 0 < c) (hD : 0 < a^2*c^2 - b^2) (k : ℕ) :
    HasDerivAt (fun s => 1/LineInt.q a b c s^(k+1)) (-((k+1)*(c^2*s-b)/LineInt.q a b c s^(k+3))) s ∧
    HasDerivAt (fun s => -((k+1)*(c^2*s-b)/LineInt.q a b c s^(k+3)))
      (((k+1)*(k+3)*(c^2*s-b)^2 - (k+1)*c^2*LineInt.q a b c s^2)/LineInt.q a b c s^(k+5)) s := by
  have hQ := LineInt.Q_pos hc hD s
  have hq := LineInt.q_pos hQ
  have d := LineInt.q_hasDeriv hQ
  constructor
  · refine ((d.pow (k+1)).fun_inv (by simp only [Pi.pow_apply]; positivity) |>.congr_of_eventuallyEq ?_).congr_deriv ?_
    · exact Filter.Eventually.of_forall fun s => by simp
    · simp only [Pi.pow_apply, Nat.add_sub_cancel]
      push_cast
      generalize LineInt.q a b c s = w at *
      field_simp
      ring
  · have e1 : HasDerivAt (fun s => (k+1)*(c^2*s-b)) ((k+1)*c^2) s := by
      refine ((((hasDerivAt_id s).const_mul (c^2)).sub_const b).const_mul ((k:ℝ)+1)).congr_deriv ?_
      ring
    refine ((e1.fun_div (d.pow (k+3)) (by simp only [Pi.pow_apply]; positivity)).neg).congr_deriv ?_
    simp only [Pi.pow_apply]
    rw [show k + 3 - 1 = k + 2 by omega]
    push_cast
    generalize LineInt.q a b c s = w at *
    field_simp
    ring

theorem qpow_bound {a b c s d : ℝ} (hc : 0 < c) (hD : 0 < a^2*c^2 - b^2) (hd : 0 < d) (hdq : d ≤ LineInt.q a b c s) (k : ℕ) :
    |((k+1)*(k+3)*(c^2*s-b)^2 - (k+1)*c^2*LineInt.q a b c s^2)/LineInt.q a b c s^(k+5)| ≤ (k+1)*(k+2)*c^2/d^(k+3) := by
  have hQ := LineInt.Q_pos hc hD s
  have hq := LineInt.q_pos hQ
  have hq2 := LineInt.q_sq hQ.le
  have hw : (c^2*s-b)^2 ≤ c^2*LineInt.q a b c s^2 := by rw [hq2]; nlinarith
  generalize LineInt.q a b c s = w at *
  rw [abs_div, abs_of_pos (pow_pos hq (k+5))]
  have hnum : |((k:ℝ)+1)*(k+3)*(c^2*s-b)^2 - (k+1)*c^2*w^2| ≤ (k+1)*(k+2)*c^2*w^2 := by
    have hk : (0:ℝ) ≤ k := Nat.cast_nonneg k
    have h0 := sq_nonneg (c^2*s-b)
    generalize (c^2*s-b)^2 = v at *
    have hcw : 0 ≤ c^2*w^2 := by positivity
    generalize hu : c^2*w^2 = u at *
    rw [show ((k:ℝ)+1)*c^2*w^2 = (k+1)*u by rw [← hu]; ring, show ((k:ℝ)+1)*(k+2)*c^2*w^2 = (k+1)*(k+2)*u by rw [← hu]; ring, abs_le]
    have h1 : 0 ≤ ((k:ℝ)+1)*(k+3)*v := by positivity
    have h2 : ((k:ℝ)+1)*(k+3)*v ≤ (k+1)*(k+3)*u := by gcongr
    constructor
    · nlinarith [mul_nonneg hk hcw, mul_nonneg (mul_nonneg hk hk) hcw]
    · nlinarith
  calc |((k:ℝ)+1)*(k+3)*(c^2*s-b)^2 - (k+1)*c^2*w^2|/w^(k+5) ≤ (k+1)*(k+2)*c^2*w^2/w^(k+5) := by gcongr
    _ = (k+1)*(k+2)*c^2/w^(k+3) := by
        rw [show k + 5 = (k+3) + 2 by ring, pow_add]; field_simp
    _ ≤ _ := by gcongr

/-- C107, accuracy: at distance at least `d` from the (infinite) line, with `n+1` points the first two quadratures are within
`(1+m²) zmax³/(n² d⁵)` and `5(1+m²) zmax³/(2 n² d⁷)` of the integrals they approximate. -/
theorem C107_error (p : V3 ℝ) (m d Z : ℝ) (n : ℕ) (hd : 0 < d) (hZ : 0 ≤ Z) (hn : 0 < n) (h : ∀ s : ℝ, d ≤ V3.norm (p - ⟨m*s, 0, s⟩)) :
    ∃ A B : ℝ, I30num p.x p.y p.z m (n+1) Z = .fin A ∧ I50num p.x p.y p.z m (n+1) Z = .fin B ∧
      |A - ∫ s in (0:ℝ)..Z, 1/V3.norm (p - ⟨m*s, 0, s⟩)^3| ≤ (1+m^2) * Z^3/(n^2 * d^5) ∧
      |B - ∫ s in (0:ℝ)..Z, 1/V3.norm (p - ⟨m*s, 0, s⟩)^5| ≤ 5 * (1+m^2) * Z^3/(2 * n^2 * d^7) := by
  have hoff : ¬ (p.y = 0 ∧ p.x = m*p.z ∧ 0 ≤ p.z) := by
    rintro ⟨g1, g2, -⟩
    have := h p.z
    rw [show p - ⟨m*p.z, 0, p.z⟩ = (0 : V3 ℝ) by ext <;> simp [g1, g2]] at this
    unfold V3.norm at this
    norm_num at this
    linarith
  have hc : 0 < √(m^2+1) := sqrt_pos.mpr (by positivity)
  have hc2 : √(m^2+1)^2 = m^2+1 := sq_sqrt (by positivity)
  have hD : 0 < V3.norm p^2*√(m^2+1)^2 - (m*p.x+p.z)^2 := by
    rw [D_line p m]
    by_contra hcon
    have g1 : (p.x-m*p.z)^2 = 0 := by nlinarith [sq_nonneg (p.x-m*p.z), sq_nonneg p.y, mul_nonneg (sq_nonneg m) (sq_nonneg p.y)]
    have g2 : p.y^2 = 0 := by nlinarith [sq_nonneg (p.x-m*p.z), sq_nonneg p.y, mul_nonneg (sq_nonneg m) (sq_nonneg p.y)]
    have := h p.z
    have e1 : p.x - m*p.z = 0 := pow_eq_zero_iff (two_ne_zero) |>.mp g1
    have e2 : p.y = 0 := pow_eq_zero_iff (two_ne_zero) |>.mp g2
    rw [show p - ⟨m*p.z, 0, p.z⟩ = (0 : V3 ℝ) by ext <;> simp [e1, e2]] at this
    unfold V3.norm at this
    norm_num at this
    linarith
  obtain ⟨f1, f2, -, -⟩ := inum_eval p m hoff hZ hn
  simp only [node_eq] at f1 f2
  refine ⟨_, _, f1, f2, ?_, ?_⟩
  · have hq : ∀ s, d ≤ LineInt.q (V3.norm p) (m*p.x+p.z) (√(m^2+1)) s := fun s => by rw [← norm_doublet_line]; exact h s
    have hq0 : ∀ s, LineInt.q (V3.norm p) (m*p.x+p.z) (√(m^2+1)) s ≠ 0 := fun s => (hd.trans_le (hq s)).ne'
    have e := panels_error hZ hn (fun x _ => (qpow_deriv (s := x) hc hD 2).1) (fun x _ => (qpow_deriv (s := x) hc hD 2).2)
      (by
        refine ContinuousOn.div (by have := LineInt.q_continuous (a := V3.norm p) (b := m*p.x+p.z) (c := √(m^2+1)); fun_prop)
          (by have := LineInt.q_continuous (a := V3.norm p) (b := m*p.x+p.z) (c := √(m^2+1)); fun_prop) (fun s _ => pow_ne_zero _ (hq0 s)))
      (fun x _ => qpow_bound hc hD hd (hq x) 2)
    simp only [norm_doublet_line]
    refine e.trans (le_of_eq ?_)
    rw [hc2]
    have : (0:ℝ) < n := by exact_mod_cast hn
    norm_num
    field_simp
    ring
  · have hq : ∀ s, d ≤ LineInt.q (V3.norm p) (m*p.x+p.z) (√(m^2+1)) s := fun s => by rw [← norm_doublet_line]; exact h s
    have hq0 : ∀ s, LineInt.q (V3.norm p) (m*p.x+p.z) (√(m^2+1)) s ≠ 0 := fun s => (hd.trans_le (hq s)).ne'
    have e := panels_error hZ hn (fun x _ => (qpow_deriv (s := x) hc hD 4).1) (fun x _ => (qpow_deriv (s := x) hc hD 4).2)
      (by
        refine ContinuousOn.div (by have := LineInt.q_continuous (a := V3.norm p) (b := m*p.x+p.z) (c := √(m^2+1)); fun_prop)
          (by have := LineInt.q_continuous (a := V3.norm p) (b := m*p.x+p.z) (c := √(m^2+1)); fun_prop) (fun s _ => pow_ne_zero _ (hq0 s)))
      (fun x _ => qpow_bound hc hD hd (hq x) 4)
    simp only [norm_doublet_line]
    refine e.trans (le_of_eq ?_)
    rw [hc2]
    have : (0:ℝ) < n := by exact_mod_cast hn
    norm_num
    field_simp
    ring

/-- a point beside a line with `tan χ = 1/2`, at distance at least 1 -/
example : ∀ s : ℝ, (1:ℝ) ≤ V3.norm ((⟨1, 1, 0⟩ : V3 ℝ) - ⟨1/2*s, 0, s⟩) := by
  intro s
  unfold V3.norm
  rw [Real.one_le_sqrt]
  simp only [V3.sub_x, V3.sub_y, V3.sub_z]
  nlinarith [sq_nonneg (1-1/2*s), sq_nonneg s]

end Wiz
