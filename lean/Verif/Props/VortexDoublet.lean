import Verif.Lemmas.VortexDoublet

/-!
# Properties C55–C59, C75: doublets
-/
namespace Wiz
open Classical MeasureTheory Set Filter Topology

/-! ## C55 -/

/-- C55 (1/5): outside the ball `|r|³ < 1e-8` the velocity is the doublet field; inside it is 0. -/
theorem C55_field (p m x0 : V3 ℝ) :
    (1e-8 ≤ V3.norm (p - x0) ^ 3 → doubletU p (V3.fin m) x0 = V3.fin (Spec.doubletField m x0 p)) ∧
    (V3.norm (p - x0) ^ 3 < 1e-8 → doubletU p (V3.fin m) x0 = V3.fin 0) := by
  rw [doubletU_eval]
  constructor
  · intro h; rw [if_neg (not_lt.mpr h)]
  · intro h; rw [if_pos h]; rfl

/-- C55 (2/5): linear in the moment. -/
theorem C55_linear (p m1 m2 x0 : V3 ℝ) (k : ℝ) :
    doubletU p (V3.fin (V3.smul k m1 + m2)) x0 =
      V3.smul (.fin k) (doubletU p (V3.fin m1) x0) + doubletU p (V3.fin m2) x0 := by
  simp only [doubletU_eval]
  split_ifs
  · ext <;> simp
  · simp only [Spec.doubletField]
    ext <;> simp [V3.dot] <;> ring

/-- C55 (3/5): invariant under a joint translation of the point and the doublet. -/
theorem C55_translation (p m x0 d : V3 ℝ) :
    doubletU (p + d) (V3.fin m) (x0 + d) = doubletU p (V3.fin m) x0 := by
  have h : p + d - (x0 + d) = p - x0 := by ext <;> simp
  simp only [doubletU_eval, Spec.doubletField, h]

/-- C55 (4/5): even in the position relative to the doublet. -/
theorem C55_even (r m x0 : V3 ℝ) :
    doubletU (x0 + r) (V3.fin m) x0 = doubletU (x0 - r) (V3.fin m) x0 := by
  have h1 : x0 + r - x0 = r := by ext <;> simp
  have h2 : x0 - r - x0 = -r := by ext <;> simp
  have h3 : V3.norm (-r) = V3.norm r := by simp [V3.norm]
  simp only [doubletU_eval, Spec.doubletField, h1, h2, h3]
  split_ifs
  · rfl
  · ext <;> simp [V3.dot] <;> ring

/-- C55 (5/5): the polar routine raises for `r<0`, and otherwise returns the radial and axial
components, in every meridian plane, of the Cartesian routine. -/
theorem C55_polar (r z mz z0 psi : ℝ) :
    (r < 0 → ∃ e, doubletUPolar r z (.fin mz) z0 = .error e) ∧
    (0 ≤ r → ∃ ur uz : ℝ, doubletUPolar r z (.fin mz) z0 = .ok (.fin ur, .fin uz) ∧
      doubletU ⟨r * Real.cos psi, r * Real.sin psi, z⟩ (V3.fin ⟨0, 0, mz⟩) ⟨0, 0, z0⟩ =
        V3.fin ⟨ur * Real.cos psi, ur * Real.sin psi, uz⟩) := by
  constructor
  · intro h; exact ⟨_, by unfold doubletUPolar; rw [if_pos h]⟩
  · intro h
    have hpi : (4 * Real.pi) ≠ 0 := by have := Real.pi_pos; positivity
    have hN : (⟨r * Real.cos psi, r * Real.sin psi, z⟩ : V3 ℝ) - ⟨0, 0, z0⟩ =
        ⟨r * Real.cos psi, r * Real.sin psi, z - z0⟩ := by ext <;> simp
    have hn : V3.norm ⟨r * Real.cos psi, r * Real.sin psi, z - z0⟩ = Real.sqrt (r^2 + (z-z0)^2) := by
      unfold V3.norm
      congr 1
      have := Real.sin_sq_add_cos_sq psi
      linear_combination r^2 * this
    rw [doubletU_eval]
    simp only [Spec.doubletField, hN, hn]
    set n := Real.sqrt (r^2 + (z-z0)^2) with hndef
    have hn0 : 0 ≤ n := Real.sqrt_nonneg _
    have hnn : r^2 + (z-z0)^2 = n^2 := (Real.sq_sqrt (by positivity)).symm
    unfold doubletUPolar
    rw [if_neg (not_lt.mpr h)]
    simp only [Num.fin_sub, Num.fin_pow, Num.fin_add, hnn, num_rpow_three_half hn0, Num.lt_fin]
    by_cases hs : n^3 < 1e-8
    · simp only [hs, if_true]
      exact ⟨0, 0, rfl, by ext <;> simp⟩
    · have hnp : 0 < n := by
        rcases hn0.eq_or_lt with h0 | h0
        · rw [← h0] at hs; norm_num at hs
        · exact h0
      have h5 : n^5 ≠ 0 := by positivity
      have h3 : n^3 ≠ 0 := by positivity
      simp only [hs, if_false, num_rpow_five_third hnp, Num.ofNat_def, Num.one_def, Num.fin_mul, Num.fin_div hpi,
        Num.fin_div h5, Num.fin_div h3, Num.fin_sub]
      refine ⟨_, _, rfl, ?_⟩
      ext <;> simp [V3.dot] <;> field_simp

/-- a point outside the singular ball (hypothesis of C55). -/
example : 1e-8 ≤ V3.norm ((⟨3, 0, 4⟩ : V3 ℝ) - ⟨0, 0, 0⟩) ^ 3 := by
  have : V3.norm ((⟨3, 0, 4⟩ : V3 ℝ) - ⟨0, 0, 0⟩) = 5 := by
    unfold V3.norm; norm_num
    rw [show (25:ℝ) = 5^2 by norm_num, Real.sqrt_sq (by norm_num)]
  rw [this]; norm_num

/-! ## C56 -/

/-- C56: for `a,c>0` and `-ac ≤ b < ac` the four routines return the improper integrals
`∫ 1/Q^(3/2)`, `3∫ 1/Q^(5/2)`, `3∫ s/Q^(5/2)`, `3∫ s²/Q^(5/2)` over `[0,∞)`,
`Q = a² - 2bs + c²s²` (all four integrands being integrable). -/
theorem C56_improper_integrals (a b c : ℝ) (ha : 0 < a) (hc : 0 < c) (h1 : -(a*c) ≤ b) (h2 : b < a*c) :
    I30 (.fin a) (.fin b) (.fin c) =
      .fin (∫ s in Ioi (0:ℝ), 1 / Real.sqrt (a^2 - 2*b*s + c^2*s^2) ^ 3) ∧
    tI50 (.fin a) (.fin b) (.fin c) =
      .fin (∫ s in Ioi (0:ℝ), 3 / Real.sqrt (a^2 - 2*b*s + c^2*s^2) ^ 5) ∧
    tI51 (.fin a) (.fin b) (.fin c) =
      .fin (∫ s in Ioi (0:ℝ), 3 * s / Real.sqrt (a^2 - 2*b*s + c^2*s^2) ^ 5) ∧
    tI52 (.fin a) (.fin b) (.fin c) =
      .fin (∫ s in Ioi (0:ℝ), 3 * s^2 / Real.sqrt (a^2 - 2*b*s + c^2*s^2) ^ 5) ∧
    IntegrableOn (fun s => 1 / Real.sqrt (a^2 - 2*b*s + c^2*s^2) ^ 3) (Ioi 0) ∧
    IntegrableOn (fun s => 3 / Real.sqrt (a^2 - 2*b*s + c^2*s^2) ^ 5) (Ioi 0) ∧
    IntegrableOn (fun s => 3 * s / Real.sqrt (a^2 - 2*b*s + c^2*s^2) ^ 5) (Ioi 0) ∧
    IntegrableOn (fun s => 3 * s^2 / Real.sqrt (a^2 - 2*b*s + c^2*s^2) ^ 5) (Ioi 0) := by
  have hd : a*c - b ≠ 0 := by linarith
  refine ⟨?_, ?_, ?_, ?_, LineInt.integrable30g ha hc h1 h2, LineInt.integrable50g ha hc h1 h2,
    LineInt.integrable51g ha hc h1 h2, LineInt.integrable52g ha hc h1 h2⟩
  · refine Eq.trans ?_ (congrArg Num.fin (LineInt.int30g ha hc h1 h2).symm)
    simp only [I30, Num.one_def, Num.fin_mul, Num.fin_sub]
    exact Num.fin_div (by positivity)
  · refine Eq.trans ?_ (congrArg Num.fin (LineInt.int50g ha hc h1 h2).symm)
    simp only [tI50, Num.ofNat_def, Num.fin_mul, Num.fin_sub, Num.fin_pow]
    exact Num.fin_div (by positivity)
  · refine Eq.trans ?_ (congrArg Num.fin (LineInt.int51g ha hc h1 h2).symm)
    simp only [tI51, Num.one_def, Num.fin_mul, Num.fin_sub, Num.fin_pow]
    exact Num.fin_div (by positivity)
  · refine Eq.trans ?_ (congrArg Num.fin (LineInt.int52g ha hc h1 h2).symm)
    simp only [tI52, Num.one_def, Num.fin_mul, Num.fin_sub, Num.fin_pow]
    exact Num.fin_div (by positivity)

/-- hypotheses of C56: a point beside the line and a point straight behind it. -/
example : (0:ℝ) < 5 ∧ (0:ℝ) < 1 ∧ -(5*1 : ℝ) ≤ 4 ∧ (4:ℝ) < 5*1 ∧ -(5*1 : ℝ) ≤ -5 ∧ (-5:ℝ) < 5*1 := by norm_num

/-! ## C57 -/

/-- C57 (partial, regular branch): three of the four finite integrals are exact; the second
one (`3 I50`) is *not*: it differs from `3∫₀ᴸ Q^(-5/2)` by exactly the stated term, because the
primitive in the code has `2*c**2*(b**2+a**2*c**2)*x` where `3*c**2*...` is needed. -/
theorem C57_finite_partial (a b c L : ℝ) (hc : 0 < c) (hD : 1e-8 ≤ a^2*c^2 - b^2) :
    integralsDLfinite (.fin a) (.fin b) (.fin c) (.fin L) =
      (.fin (∫ s in (0:ℝ)..L, 1 / Real.sqrt (a^2 - 2*b*s + c^2*s^2) ^ 3),
       .fin ((∫ s in (0:ℝ)..L, 3 / Real.sqrt (a^2 - 2*b*s + c^2*s^2) ^ 5)
          - c^2*(b^2+a^2*c^2)/(a^2*c^2-b^2)^2*L/Real.sqrt (a^2 - 2*b*L + c^2*L^2) ^ 3),
       .fin (∫ s in (0:ℝ)..L, 3 * s / Real.sqrt (a^2 - 2*b*s + c^2*s^2) ^ 5),
       .fin (∫ s in (0:ℝ)..L, 3 * s^2 / Real.sqrt (a^2 - 2*b*s + c^2*s^2) ^ 5)) :=
  finite_regular hc hD L

/-- C57 refuted: already for `a=c=L=1`, `b=0` (a point at distance 1 beside the start of a
straight line of length 1) the second returned integral is not `3∫₀¹ Q^(-5/2)`. -/
theorem C57_refuted :
    (integralsDLfinite (.fin 1) (.fin 0) (.fin 1) (.fin 1)).2.1 ≠
      .fin (∫ s in (0:ℝ)..1, 3 / Real.sqrt (1^2 - 2*0*s + 1^2*s^2) ^ 5) := by
  rw [C57_finite_partial 1 0 1 1 one_pos (by norm_num)]
  simp only [ne_eq, Num.fin_inj]
  intro h
  have h2 : (1:ℝ)^2*(0^2+1^2*1^2)/(1^2*1^2-0^2)^2*1/Real.sqrt (1^2 - 2*0*1 + 1^2*1^2) ^ 3 = 0 := by linarith
  have h3 : 0 < Real.sqrt ((1:ℝ)^2 - 2*0*1 + 1^2*1^2) := Real.sqrt_pos.mpr (by norm_num)
  have h4 : (0:ℝ) < (1:ℝ)^2*(0^2+1^2*1^2)/(1^2*1^2-0^2)^2*1/Real.sqrt (1^2 - 2*0*1 + 1^2*1^2) ^ 3 :=
    div_pos (by norm_num) (by positivity)
  exact h4.ne' h2

/-- C57 (singular branch): on the axis of the line but not on it (`b = σ a c`, `σ = ±1`,
beyond the end if `σ = 1`) all four integrals are exact. -/
theorem C57_on_axis (a c σ L : ℝ) (hσ : σ = 1 ∨ σ = -1) (ha : 0 < a) (hc : 0 < c) (hL : 0 ≤ L)
    (hw : 0 < a - σ*c*L) :
    integralsDLfinite (.fin a) (.fin (σ*(a*c))) (.fin c) (.fin L) =
      (.fin (∫ s in (0:ℝ)..L, 1 / Real.sqrt (a^2 - 2*(σ*(a*c))*s + c^2*s^2) ^ 3),
       .fin (∫ s in (0:ℝ)..L, 3 / Real.sqrt (a^2 - 2*(σ*(a*c))*s + c^2*s^2) ^ 5),
       .fin (∫ s in (0:ℝ)..L, 3 * s / Real.sqrt (a^2 - 2*(σ*(a*c))*s + c^2*s^2) ^ 5),
       .fin (∫ s in (0:ℝ)..L, 3 * s^2 / Real.sqrt (a^2 - 2*(σ*(a*c))*s + c^2*s^2) ^ 5)) :=
  finite_singular hσ ha hc hL hw

/-- hypotheses of C57_on_axis: one point beyond the end, one behind the start. -/
example : (0:ℝ) < 2 - 1*1*1 ∧ (0:ℝ) < 2 - (-1)*1*1 := by norm_num

/-- C57 (limit): in the regular branch the four finite values (the wrong one included) tend to
the four semi-infinite values as the line gets longer. -/
theorem C57_limit (a b c : ℝ) (ha : 0 < a) (hc : 0 < c) (h1 : -(a*c) < b) (h2 : b < a*c)
    (hD : 1e-8 ≤ a^2*c^2 - b^2) :
    ∃ f30 f50 f51 f52 : ℝ → ℝ, ∃ l30 l50 l51 l52 : ℝ,
      (∀ L, integralsDLfinite (.fin a) (.fin b) (.fin c) (.fin L)
        = (.fin (f30 L), .fin (f50 L), .fin (f51 L), .fin (f52 L))) ∧
      I30 (.fin a) (.fin b) (.fin c) = .fin l30 ∧ tI50 (.fin a) (.fin b) (.fin c) = .fin l50 ∧
      tI51 (.fin a) (.fin b) (.fin c) = .fin l51 ∧ tI52 (.fin a) (.fin b) (.fin c) = .fin l52 ∧
      Tendsto f30 atTop (𝓝 l30) ∧ Tendsto f50 atTop (𝓝 l50) ∧
      Tendsto f51 atTop (𝓝 l51) ∧ Tendsto f52 atTop (𝓝 l52) := by
  obtain ⟨e1, e2, e3, e4, i1, i2, i3, i4⟩ := C56_improper_integrals a b c ha hc h1.le h2
  refine ⟨_, _, _, _, _, _, _, _, fun L => C57_finite_partial a b c L hc hD, e1, e2, e3, e4,
    intervalIntegral_tendsto_integral_Ioi 0 i1 tendsto_id, ?_,
    intervalIntegral_tendsto_integral_Ioi 0 i3 tendsto_id, intervalIntegral_tendsto_integral_Ioi 0 i4 tendsto_id⟩
  have ht := intervalIntegral_tendsto_integral_Ioi 0 i2 tendsto_id
  have hz : Tendsto (fun L => c^2*(b^2+a^2*c^2)/(a^2*c^2-b^2)^2*L/Real.sqrt (a^2 - 2*b*L + c^2*L^2) ^ 3) atTop (𝓝 0) := by
    have h := LineInt.cubic_tendsto (a := a) (b := b) hc 0 (c^2*(b^2+a^2*c^2)/(a^2*c^2-b^2)^2) 0 0
    rw [zero_div] at h
    refine h.congr ?_
    intro L
    simp [LineInt.q, LineInt.Q]
  have := ht.sub hz
  rwa [sub_zero] at this

/-- hypotheses of C57_finite_partial and C57_limit. -/
example : (0:ℝ) < 5 ∧ (0:ℝ) < 1 ∧ -(5*1:ℝ) < 4 ∧ (4:ℝ) < 5*1 ∧ (1e-8:ℝ) ≤ 5^2*1^2 - 4^2 := by norm_num

/-! ## C58 -/

/-- C58 (semi-infinite): off the (slightly thickened) line the velocity is the superposition of
the point doublets `(0,0,K ds)` at `(m s, 0, s)`, `s>0`; on the line it is forced to 0. -/
theorem C58_semi_infinite (p : V3 ℝ) (K m : ℝ) :
    (¬ (|p.y| < 1e-8 ∧ |p.x - m*p.z| < 1e-8 ∧ 0 ≤ p.z) →
      doubletLineU p (.fin K) m none =
        V3.fin (Spec.vint (Ioi 0) (fun s => Spec.doubletField ⟨0, 0, K⟩ ⟨m*s, 0, s⟩ p))) ∧
    ((|p.y| < 1e-8 ∧ |p.x - m*p.z| < 1e-8 ∧ 0 ≤ p.z) → doubletLineU p (.fin K) m none = V3.fin 0) := by
  constructor
  · intro h; exact doubletLineU_eval p K m h
  · rintro ⟨h1, h2, h3⟩
    unfold doubletLineU
    rw [if_pos ⟨h1, h2, h3, by simp⟩]
    rfl

/-- C58 (finite, partial): off the line and away from its axis the finite-line velocity is the
superposition of point doublets over `[0,L]` *minus* a spurious velocity, along the position
vector, caused by the wrong primitive of C57 (it vanishes in the plane `z=0`). -/
theorem C58_finite_partial (p : V3 ℝ) (K m L : ℝ) (hL : 0 ≤ L)
    (hD : 1e-8 ≤ (p.x - m*p.z)^2 + (m^2+1)*p.y^2)
    (h : ¬ (|p.y| < 1e-8 ∧ |p.x - m*p.z| < 1e-8 ∧ p.z ≥ 0 ∧ p.z ≤ L)) :
    ∃ err : ℝ, doubletLineU p (.fin K) m (some L) =
      V3.fin (Spec.vint (Ioc 0 L) (fun s => Spec.doubletField ⟨0, 0, K⟩ ⟨m*s, 0, s⟩ p)
        - V3.smul (K/(4*Real.pi) * p.z * err) p) ∧
      err * (((p.x - m*p.z)^2 + (m^2+1)*p.y^2)^2 * V3.norm (p - ⟨m*L, 0, L⟩) ^ 3)
        = (m^2+1)*((m*p.x+p.z)^2 + V3.norm p^2*(m^2+1))*L := by
  refine ⟨_, doubletLineU_finite_eval p K m L hL hD h, ?_⟩
  have hc : 0 < Real.sqrt (m^2+1) := Real.sqrt_pos.mpr (by positivity)
  have hD' := D_line p m
  rw [norm_doublet_line]
  have hD0 : 0 < V3.norm p^2 * Real.sqrt (m^2+1)^2 - (m*p.x+p.z)^2 := by
    rw [hD']; exact lt_of_lt_of_le (by norm_num) hD
  have hq := (LineInt.q_pos (LineInt.Q_pos hc hD0 L)).ne'
  unfold i50err
  rw [← hD', Real.sq_sqrt (by positivity : 0 ≤ m^2+1)] at *
  generalize LineInt.q (V3.norm p) (m*p.x+p.z) (Real.sqrt (m^2+1)) L = q at *
  generalize hDD : V3.norm p^2*(m^2+1) - (m*p.x+p.z)^2 = D at *
  have hDn := hD0.ne'
  field_simp

/-- hypotheses of C58_finite_partial. -/
example : (0:ℝ) ≤ 10 ∧ (1e-8:ℝ) ≤ (3 - 0.3*1)^2 + (0.3^2+1)*1^2 ∧ ¬ (|(1:ℝ)| < 1e-8) := by
  norm_num

/-- C58 refuted for finite lines: at `(1,0,1)`, for the straight line of length 1 and unit
intensity, the returned velocity is not the superposition of the point doublets. -/
theorem C58_finite_refuted :
    doubletLineU ⟨1, 0, 1⟩ (.fin 1) 0 (some 1) ≠
      V3.fin (Spec.vint (Ioc 0 1) (fun s => Spec.doubletField ⟨0, 0, 1⟩ ⟨0*s, 0, s⟩ ⟨1, 0, 1⟩)) := by
  obtain ⟨err, h1, h2⟩ := C58_finite_partial ⟨1, 0, 1⟩ 1 0 1 (by norm_num) (by norm_num) (by norm_num)
  rw [h1]
  intro h
  have hx := congrArg V3.x h
  simp only [V3.fin_x, V3.sub_x, V3.smul_x, Num.fin_inj] at hx
  have herr : err = 0 := by
    have hpi := Real.pi_pos
    have h3 : 1/(4*Real.pi) * 1 * err * 1 = 0 := by linarith
    have : 1/(4*Real.pi) ≠ 0 := by positivity
    simpa [Real.pi_ne_zero] using h3
  rw [herr] at h2
  have hn := norm_sq' (⟨1, 0, 1⟩ : V3 ℝ)
  rw [hn] at h2
  norm_num at h2

/-! ## C59 -/

/-- C59: the straight semi-infinite doublet line (the 'VD' model) is the point source
`-K (x,y,z)/(4π|x|³)` at every point off the line. -/
theorem C59_point_source (p : V3 ℝ) (K : ℝ) (h : ¬ (|p.y| < 1e-8 ∧ |p.x| < 1e-8 ∧ 0 ≤ p.z)) :
    doubletLineU p (.fin K) 0 none = V3.fin (V3.smul (-(K/(4*Real.pi)) / V3.norm p^3) p) := by
  have h' : ¬ (|p.y| < 1e-8 ∧ |p.x - 0*p.z| < 1e-8 ∧ p.z ≥ 0) := by simpa using h
  rw [doubletLineU_eval p K 0 h', doublet_line_straight]
  rintro ⟨e1, e2, e3⟩
  apply h
  rw [e1, e2]
  exact ⟨by norm_num, by norm_num, e3⟩

/-- C59 (polar): where `r ≥ 1e-8` and `|z| ≥ 1e-8` the polar routine returns the radial and
axial components of the same point source. -/
theorem C59_polar (r z K : ℝ) (hr : 1e-8 ≤ r) (hz : 1e-8 ≤ |z|) :
    doubletLinePolarU r z (.fin K) =
      .ok (.fin (-(K/(4*Real.pi)) * r / Real.sqrt (r^2+z^2)^3), .fin (-(K/(4*Real.pi)) * z / Real.sqrt (r^2+z^2)^3)) := by
  have hpi : (4 * Real.pi) ≠ 0 := by have := Real.pi_pos; positivity
  have hr0 : 0 < r := lt_of_lt_of_le (by norm_num) hr
  have hn : 0 < Real.sqrt (r^2+z^2) := Real.sqrt_pos.mpr (by positivity)
  have hn2 : r^2 + z^2 = Real.sqrt (r^2+z^2)^2 := (Real.sq_sqrt (by positivity)).symm
  have a1 : ¬ |z| < 1e-8 := not_lt.mpr hz
  have a2 : ¬ |r| < 1e-8 := by rw [abs_of_pos hr0]; exact not_lt.mpr hr
  unfold doubletLinePolarU
  rw [if_neg (not_lt.mpr hr0.le)]
  simp only [a1, a2, false_and, not_false_eq_true, and_self, if_true, if_false, Num.fin_pow, Num.fin_add]
  generalize Real.sqrt (r^2+z^2) = n at *
  rw [hn2, num_rpow_three_half hn.le, num_rpow_half hn]
  have h3 : n^3 ≠ 0 := by positivity
  have h2 : r^2 ≠ 0 := by positivity
  simp only [Num.one_def, Num.fin_div hpi, Num.fin_mul, Num.fin_neg, Num.fin_div h3, Num.fin_div hn.ne', Num.fin_div h2,
    Num.fin_sub, Except.ok.injEq, Prod.mk.injEq, Num.fin_inj]
  constructor
  · ring
  · have hrr : r^2 = n^2 - z^2 := by linarith
    have : n^2 - z^2 ≠ 0 := by rw [← hrr]; exact h2
    field_simp
    rw [hrr]
    ring

/-- C59 (polar, masks): the points missed by every mask (`r` or `|z|` exactly `1e-8`, the other
coordinate below the threshold) and the downstream axis get velocity zero; `r<0` raises. -/
theorem C59_polar_masks (r z K : ℝ) :
    (r < 0 → ∃ e, doubletLinePolarU r z (.fin K) = .error e) ∧
    (0 ≤ r → r < 1e-8 → -1e-8 ≤ z → doubletLinePolarU r z (.fin K) = .ok (.fin 0, .fin 0)) ∧
    (r = 1e-8 → |z| < 1e-8 → doubletLinePolarU r z (.fin K) = .ok (.fin 0, .fin 0)) ∧
    (0 ≤ r → r < 1e-8 → z < -1e-8 → doubletLinePolarU r z (.fin K) = .ok (.fin 0, .fin (K/(4*Real.pi)/(r^2+z^2)))) ∧
    (1e-8 < r → |z| < 1e-8 → doubletLinePolarU r z (.fin K) =
      .ok (.fin (-(K/(4*Real.pi)) * r / Real.sqrt (r^2+z^2)^3), .fin 0)) := by
  have hpi : (4 * Real.pi) ≠ 0 := by have := Real.pi_pos; positivity
  refine ⟨fun h => ⟨_, by unfold doubletLinePolarU; rw [if_pos h]⟩, ?_, ?_, ?_, ?_⟩
  · intro h0 h1 h2
    have a2 : |r| < 1e-8 := by rw [abs_of_nonneg h0]; exact h1
    have a3 : ¬ |r| > 1e-8 := by rw [abs_of_nonneg h0]; exact not_lt.mpr h1.le
    have a4 : ¬ z < -1e-8 := not_lt.mpr h2
    unfold doubletLinePolarU
    rw [if_neg (not_lt.mpr h0)]
    simp [a2, a3, a4]
  · intro h0 h1
    have hr : |r| = 1e-8 := by rw [h0]; norm_num
    have hr0 : ¬ r < 0 := by rw [h0]; norm_num
    unfold doubletLinePolarU
    rw [if_neg hr0]
    simp [h1, hr]
  · intro h0 h1 h2
    have a2 : |r| < 1e-8 := by rw [abs_of_nonneg h0]; exact h1
    have a3 : ¬ |r| > 1e-8 := by rw [abs_of_nonneg h0]; exact not_lt.mpr h1.le
    have a5 : ¬ z > 1e-8 := by
      intro h; have : (1e-8:ℝ) < -1e-8 := h.trans h2; norm_num at this
    have a6 : ¬ |z| < 1e-8 := by
      rw [abs_of_neg (h2.trans (by norm_num))]; linarith
    have hz : z ≠ 0 := by intro h; rw [h] at h2; norm_num at h2
    unfold doubletLinePolarU
    rw [if_neg (not_lt.mpr h0)]
    simp only [a2, a3, a5, a6, h2, not_true_eq_false, and_false, false_and, true_and, and_true, if_true, if_false,
      Num.fin_pow, Num.fin_add, Num.fin_div hpi, Num.one_def, Num.fin_mul]
    rw [Num.fin_div (by positivity)]
    simp
  · intro h0 h1
    have hr0 : 0 < r := lt_trans (by norm_num) h0
    have a2 : ¬ |r| < 1e-8 := by rw [abs_of_pos hr0]; exact not_lt.mpr h0.le
    have a3 : |r| > 1e-8 := by rw [abs_of_pos hr0]; exact h0
    have hn : 0 < Real.sqrt (r^2+z^2) := Real.sqrt_pos.mpr (by positivity)
    have hn2 : r^2 + z^2 = Real.sqrt (r^2+z^2)^2 := (Real.sq_sqrt (by positivity)).symm
    unfold doubletLinePolarU
    rw [if_neg (not_lt.mpr hr0.le)]
    simp only [a2, a3, h1, not_true_eq_false, and_false, false_and, true_and, and_true, if_true, if_false,
      Num.fin_pow, Num.fin_add, Num.fin_div hpi, Num.one_def, Num.fin_mul]
    generalize Real.sqrt (r^2+z^2) = n at *
    have h3 : n^3 ≠ 0 := by positivity
    rw [hn2, num_rpow_three_half hn.le]
    simp only [Num.fin_neg, Num.fin_mul, Num.fin_div h3, Num.zero_def, Except.ok.injEq, Prod.mk.injEq, Num.fin_inj, and_true]
    ring

/-- hypotheses of C59. -/
example : ¬ (|(0:ℝ)| < 1e-8 ∧ |(3:ℝ)| < 1e-8 ∧ (0:ℝ) ≤ 4) ∧ (1e-8:ℝ) ≤ 3 ∧ (1e-8:ℝ) ≤ |4| := by norm_num

end Wiz
