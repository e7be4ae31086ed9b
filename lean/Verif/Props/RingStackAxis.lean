import Verif.Props.RingStack

/-! # C99 for points near the axes of the rings, where the code uses the axis value -/
namespace Wiz
open MeasureTheory Set Filter Topology

/-- difference of the inverse cubes of two nearby distances -/
theorem inv_cube_close {a b δ : ℝ} (ha : 0 < a) (hb : 0 < b) (hab : 0.99*a^2 ≤ b^2) (hba : b^2 ≤ 1.01*a^2) (hd : |a^2 - b^2| ≤ δ) :
    |1/b^3 - 1/a^3| ≤ 1.6*δ/a^5 ∧ 1/b^3 ≤ 1.04/a^3 := by
  have h1 : 0.99 * a ≤ b := by
    by_contra h; push Not at h
    norm_num at *
    nlinarith
  have h2 : b ≤ 1.01*a := by
    by_contra h; push Not at h
    norm_num at *
    nlinarith
  have hδ : 0 ≤ δ := (abs_nonneg _).trans hd
  have h3 : (0.99*a)^3 ≤ b^3 := by gcongr
  have h7 : 1/b^3 ≤ 1.04/a^3 := by
    rw [div_le_div_iff₀ (by positivity) (by positivity)]
    have : 0 < a^3 := by positivity
    norm_num at h3 ⊢
    nlinarith
  refine ⟨?_, h7⟩
  have h5 : |a - b| ≤ δ / (1.99*a) := by
    rw [le_div_iff₀ (by positivity)]
    have e : |a^2 - b^2| = |a - b| * (a + b) := by
      rw [show a^2 - b^2 = (a-b)*(a+b) by ring, abs_mul, abs_of_pos (show 0 < a + b by positivity)]
    rw [e] at hd
    have := abs_nonneg (a - b)
    norm_num at h1 ⊢
    nlinarith
  have e : 1/b^3 - 1/a^3 = (a - b) * (a^2 + a*b + b^2) * (1/b^3) * (1/a^3) := by field_simp; ring
  rw [e, abs_mul, abs_mul, abs_mul, abs_of_pos (show 0 < a^2 + a*b + b^2 by positivity), abs_of_pos (show 0 < 1/b^3 by positivity), abs_of_pos (show 0 < 1/a^3 by positivity)]
  have h8 : a^2 + a*b + b^2 ≤ 3.04*a^2 := by norm_num at *; nlinarith
  calc |a-b| * (a^2+a*b+b^2) * (1/b^3) * (1/a^3) ≤ δ/(1.99*a) * (3.04*a^2) * (1.04/a^3) * (1/a^3) := by gcongr
    _ = (3.04*1.04/1.99) * δ / a^5 := by field_simp
    _ ≤ 1.6*δ/a^5 := by gcongr; norm_num

/-- near the axis the field of a ring differs little from its value on the axis -/
theorem ringField_near_axis (R : ℝ) (hR : 0 < R) (q : V3 ℝ) (hq : √(q.x^2 + q.y^2) ≤ 1e-7 * R) (π' : V3 ℝ → ℝ)
    (hπ : π' = V3.x ∨ π' = V3.y ∨ π' = V3.z) :
    |π' (Spec.ringField 1 R ⟨0, 0, q.z⟩) - π' (Spec.ringField 1 R q)| ≤ 2.5e-7 * (R/(R^2 + q.z^2)) := by
  set ρ := √(q.x^2 + q.y^2) with hρ
  have hρ0 : 0 ≤ ρ := Real.sqrt_nonneg _
  have hρ2 : ρ^2 = q.x^2 + q.y^2 := Real.sq_sqrt (by positivity)
  set a := √(R^2 + q.z^2) with ha
  have ha2 : a^2 = R^2 + q.z^2 := Real.sq_sqrt (by positivity)
  have hap : 0 < a := Real.sqrt_pos.mpr (by positivity)
  have hRa : R ≤ a := Real.le_sqrt_of_sq_le (by nlinarith [sq_nonneg q.z])
  have hza : |q.z| ≤ a := Real.abs_le_sqrt (by nlinarith [sq_nonneg R])
  have hdot : ∀ θ, |q.x * Real.cos θ + q.y * Real.sin θ| ≤ ρ := by
    intro θ
    apply Real.abs_le_sqrt
    have := Real.sin_sq_add_cos_sq θ
    nlinarith [sq_nonneg (q.x * Real.sin θ - q.y * Real.cos θ)]
  -- distances
  have hd : ∀ θ, ∃ b, 0 < b ∧ V3.norm (q - ⟨R * Real.cos θ, R * Real.sin θ, 0⟩) = b ∧
      V3.norm ((⟨0, 0, q.z⟩ : V3 ℝ) - ⟨R * Real.cos θ, R * Real.sin θ, 0⟩) = a ∧
      |1/b^3 - 1/a^3| ≤ 1.6*(2.1*R*ρ)/a^5 ∧ 1/b^3 ≤ 1.04/a^3 := by
    intro θ
    have hcs := Real.sin_sq_add_cos_sq θ
    have e1 : V3.norm ((⟨0, 0, q.z⟩ : V3 ℝ) - ⟨R * Real.cos θ, R * Real.sin θ, 0⟩) = a := by
      unfold V3.norm
      simp only [V3.sub_x, V3.sub_y, V3.sub_z]
      rw [ha]
      congr 1
      linear_combination R^2 * hcs
    have e2 : V3.norm (q - ⟨R * Real.cos θ, R * Real.sin θ, 0⟩) ^ 2 = a^2 + ρ^2 - 2*R*(q.x * Real.cos θ + q.y * Real.sin θ) := by
      rw [norm_sq', ha2, hρ2]
      simp only [V3.sub_x, V3.sub_y, V3.sub_z]
      linear_combination R^2 * hcs
    have hk := abs_le.mp (hdot θ)
    have hb0 : 0 ≤ V3.norm (q - ⟨R * Real.cos θ, R * Real.sin θ, 0⟩) := Real.sqrt_nonneg _
    generalize V3.norm (q - ⟨R * Real.cos θ, R * Real.sin θ, 0⟩) = b at *
    generalize q.x * Real.cos θ + q.y * Real.sin θ = t at *
    have hRρ : R * ρ ≤ 1e-7 * a^2 := by norm_num at hq ⊢; nlinarith
    have hρρ : ρ^2 ≤ 0.1 * (R * ρ) := by norm_num at hq ⊢; nlinarith
    have hRt : |R * t| ≤ R * ρ := by
      rw [abs_mul, abs_of_pos hR]
      exact mul_le_mul_of_nonneg_left (abs_le.mpr hk) hR.le
    have hRt := abs_le.mp hRt
    have hb2 : 0.99 * a^2 ≤ b^2 := by rw [e2]; norm_num at *; nlinarith [sq_nonneg ρ]
    have hbp : 0 < b := lt_of_le_of_ne hb0 (fun h => by rw [← h] at hb2; norm_num at hb2; nlinarith [sq_nonneg a])
    refine ⟨b, hbp, rfl, e1, ?_⟩
    apply inv_cube_close hap hbp hb2
    · rw [e2]; norm_num at *; nlinarith [sq_nonneg ρ]
    · rw [e2, abs_le]
      norm_num at *
      constructor <;> nlinarith [sq_nonneg ρ]
  have hz2 : R * ρ / a^3 ≤ 1e-7 * (R/(R^2+q.z^2)) := by
    rw [← ha2]
    calc R * ρ / a^3 ≤ R * (1e-7 * a) / a^3 := by
          gcongr
          exact hq.trans (by gcongr)
      _ = 1e-7 * (R/a^2) := by field_simp
  -- pointwise bound of the integrand
  have hpt : ∀ θ, |π' (Spec.bsKernel ⟨R * Real.cos θ, R * Real.sin θ, 0⟩ ⟨-R * Real.sin θ, R * Real.cos θ, 0⟩ ⟨0, 0, q.z⟩)
      - π' (Spec.bsKernel ⟨R * Real.cos θ, R * Real.sin θ, 0⟩ ⟨-R * Real.sin θ, R * Real.cos θ, 0⟩ q)| ≤ 1/(4*Real.pi) * (5 * (1e-7 * (R/(R^2+q.z^2)))) := by
    intro θ
    obtain ⟨b, hbp, e1, e2, h1, h2⟩ := hd θ
    have hcs := Real.sin_sq_add_cos_sq θ
    have gen : ∀ N0 N1 : ℝ, |N0| ≤ R * a → |N0 - N1| ≤ R * ρ →
        |1/(4*Real.pi) * (1/a^3) * N0 - 1/(4*Real.pi) * (1/b^3) * N1| ≤ 1/(4*Real.pi) * (5 * (1e-7 * (R/(R^2+q.z^2)))) := by
      intro N0 N1 hN0 hN1
      have e : 1/(4*Real.pi) * (1/a^3) * N0 - 1/(4*Real.pi) * (1/b^3) * N1 = 1/(4*Real.pi) * ((N0 - N1) * (1/b^3) + (-(1/b^3 - 1/a^3)) * N0) := by ring
      rw [e, abs_mul, abs_of_pos (show 0 < 1/(4*Real.pi) by positivity)]
      refine mul_le_mul_of_nonneg_left ?_ (by positivity)
      refine (abs_add_le _ _).trans ?_
      rw [abs_mul, abs_mul, abs_neg, abs_of_pos (show 0 < 1/b^3 by positivity)]
      calc |N0 - N1| * (1/b^3) + |1/b^3 - 1/a^3| * |N0| ≤ (R * ρ) * (1.04/a^3) + 1.6*(2.1*R*ρ)/a^5 * (R * a) := by gcongr
        _ = 1.04 * (R*ρ/a^3) + 3.36 * (R*ρ/a^3) * (R/a) := by field_simp; ring
        _ ≤ 1.04 * (R*ρ/a^3) + 3.36 * (R*ρ/a^3) * 1 := by
          gcongr
          rw [div_le_one hap]; exact hRa
        _ ≤ 5 * (R*ρ/a^3) := by
          have : 0 ≤ R*ρ/a^3 := by positivity
          norm_num; linarith
        _ ≤ _ := by gcongr
    have hz0 : |R * Real.cos θ * q.z| ≤ R * a := by
      rw [abs_mul, abs_mul, abs_of_pos hR]
      have := Real.abs_cos_le_one θ
      calc R * |Real.cos θ| * |q.z| ≤ R * 1 * a := by gcongr
        _ = _ := by ring
    have hz1 : |R * Real.sin θ * q.z| ≤ R * a := by
      rw [abs_mul, abs_mul, abs_of_pos hR]
      have := Real.abs_sin_le_one θ
      calc R * |Real.sin θ| * |q.z| ≤ R * 1 * a := by gcongr
        _ = _ := by ring
    rcases hπ with rfl | rfl | rfl
    · simp only [Spec.bsKernel, V3.smul_x, e1, e2]
      apply gen <;> simp only [V3.cross, V3.sub_x, V3.sub_y, V3.sub_z]
      · convert hz0 using 2; ring
      · rw [show R * Real.cos θ * (q.z - 0) - 0 * (0 - R * Real.sin θ) - (R * Real.cos θ * (q.z - 0) - 0 * (q.y - R * Real.sin θ)) = 0 by ring, abs_zero]
        positivity
    · simp only [Spec.bsKernel, V3.smul_y, e1, e2]
      apply gen <;> simp only [V3.cross, V3.sub_x, V3.sub_y, V3.sub_z]
      · convert hz1 using 2; ring
      · rw [show 0 * (0 - R * Real.cos θ) - -R * Real.sin θ * (q.z - 0) - (0 * (q.x - R * Real.cos θ) - -R * Real.sin θ * (q.z - 0)) = 0 by ring, abs_zero]
        positivity
    · simp only [Spec.bsKernel, V3.smul_z, e1, e2]
      apply gen <;> simp only [V3.cross, V3.sub_x, V3.sub_y, V3.sub_z]
      · rw [show -R * Real.sin θ * (0 - R * Real.sin θ) - R * Real.cos θ * (0 - R * Real.cos θ) = R^2 * (Real.sin θ^2 + Real.cos θ^2) by ring, hcs, mul_one, abs_of_pos (by positivity)]
        nlinarith
      · rw [show -R * Real.sin θ * (0 - R * Real.sin θ) - R * Real.cos θ * (0 - R * Real.cos θ) - (-R * Real.sin θ * (q.y - R * Real.sin θ) - R * Real.cos θ * (q.x - R * Real.cos θ))
          = R * (q.x * Real.cos θ + q.y * Real.sin θ) by ring, abs_mul, abs_of_pos hR]
        exact mul_le_mul_of_nonneg_left (hdot θ) hR.le
  -- integrability
  have hnorm : ∀ p : V3 ℝ, (∀ θ, V3.norm (p - ⟨R * Real.cos θ, R * Real.sin θ, 0⟩) ≠ 0) →
      Continuous fun θ => π' (Spec.bsKernel ⟨R * Real.cos θ, R * Real.sin θ, 0⟩ ⟨-R * Real.sin θ, R * Real.cos θ, 0⟩ p) := by
    intro p hp
    have hc : Continuous fun θ => 1 / (4 * Real.pi) * (1 / V3.norm (p - ⟨R * Real.cos θ, R * Real.sin θ, 0⟩) ^ 3) := by
      apply Continuous.mul continuous_const
      apply Continuous.div continuous_const
      · apply Continuous.pow
        unfold V3.norm
        simp only [V3.sub_x, V3.sub_y, V3.sub_z]
        fun_prop
      · exact fun θ => pow_ne_zero 3 (hp θ)
    rcases hπ with rfl | rfl | rfl
    · refine hc.mul (g := fun θ => (V3.cross ⟨-R * Real.sin θ, R * Real.cos θ, 0⟩ (p - ⟨R * Real.cos θ, R * Real.sin θ, 0⟩)).x) ?_
      simp only [V3.cross, V3.sub_x, V3.sub_y, V3.sub_z]; fun_prop
    · refine hc.mul (g := fun θ => (V3.cross ⟨-R * Real.sin θ, R * Real.cos θ, 0⟩ (p - ⟨R * Real.cos θ, R * Real.sin θ, 0⟩)).y) ?_
      simp only [V3.cross, V3.sub_x, V3.sub_y, V3.sub_z]; fun_prop
    · refine hc.mul (g := fun θ => (V3.cross ⟨-R * Real.sin θ, R * Real.cos θ, 0⟩ (p - ⟨R * Real.cos θ, R * Real.sin θ, 0⟩)).z) ?_
      simp only [V3.cross, V3.sub_x, V3.sub_y, V3.sub_z]; fun_prop
  have c0 := hnorm ⟨0, 0, q.z⟩ (fun θ => by obtain ⟨b, hb, e1, e2, -⟩ := hd θ; rw [e2]; exact hap.ne')
  have c1 := hnorm q (fun θ => by obtain ⟨b, hb, e1, e2, -⟩ := hd θ; rw [e1]; exact hb.ne')
  have hint : ∀ p : V3 ℝ, π' (Spec.ringField 1 R p) = ∫ θ in Ioc 0 (2*Real.pi), π' (Spec.bsKernel ⟨R * Real.cos θ, R * Real.sin θ, 0⟩ ⟨-R * Real.sin θ, R * Real.cos θ, 0⟩ p) := by
    intro p
    unfold Spec.ringField Spec.biotSavart Spec.vint
    rcases hπ with rfl | rfl | rfl <;> simp [V3.smul]
  rw [hint, hint, ← integral_sub (c0.integrableOn_Ioc) (c1.integrableOn_Ioc)]
  have hb := norm_setIntegral_le_of_norm_le_const (μ := volume) (s := Ioc 0 (2*Real.pi)) (C := 1/(4*Real.pi) * (5 * (1e-7 * (R/(R^2+q.z^2)))))
    (f := fun θ => π' (Spec.bsKernel ⟨R * Real.cos θ, R * Real.sin θ, 0⟩ ⟨-R * Real.sin θ, R * Real.cos θ, 0⟩ ⟨0, 0, q.z⟩)
      - π' (Spec.bsKernel ⟨R * Real.cos θ, R * Real.sin θ, 0⟩ ⟨-R * Real.sin θ, R * Real.cos θ, 0⟩ q))
    (by rw [Real.volume_Ioc]; exact ENNReal.ofReal_lt_top) (fun θ _ => hpt θ)
  rw [Real.norm_eq_abs] at hb
  refine hb.trans (le_of_eq ?_)
  rw [Measure.real, Real.volume_Ioc, sub_zero, ENNReal.toReal_ofReal (by positivity)]
  have := Real.pi_pos
  field_simp
  norm_num

/-- C99 without the condition on the axes: rings whose axis passes within `1e-7 R` of the point contribute their axis value,
so the stack converges to the field of the skewed cylinder up to an error of at most `1e-6 |gamma_t|/cos(chi)`. -/
theorem C99_cutoff (γ R χ : ℝ) (hR : 0 < R) (hχ : 0 < Real.cos χ) (P : V3 ℝ)
    (hoff : ∀ θ s, 0 ≤ s → P ≠ Spec.wakePoint R (Real.tan χ) θ s)
    (hcut : ∀ s ≥ 0, 1e-7 * R ≤ |√((P.x - Real.tan χ * s)^2 + P.y^2) - R| ∨ 1e-7 ≤ |P.z - s|) :
    ∀ ε > 0, ∃ L0 > 0, ∀ L ≥ L0, ∃ N0, ∀ n ≥ N0, ∃ rings u, ringStack γ R χ L n = .ok rings ∧
      ringsU P rings 0 = V3.fin u ∧
      |u.x - (Spec.skewTangField γ R (Real.tan χ) P).x| < ε + 1e-6 * |γ| / Real.cos χ ∧
      |u.y - (Spec.skewTangField γ R (Real.tan χ) P).y| < ε + 1e-6 * |γ| / Real.cos χ ∧
      |u.z - (Spec.skewTangField γ R (Real.tan χ) P).z| < ε + 1e-6 * |γ| / Real.cos χ := by
  intro ε hε
  obtain ⟨L0, hL0, h⟩ := stack_field γ R (Real.tan χ) P hoff (ε/2) (by linarith)
  refine ⟨L0, hL0, fun L hL => ?_⟩
  obtain ⟨N0, hN⟩ := h L hL
  have hsec : Real.sqrt (1 + Real.tan χ ^ 2) = 1 / Real.cos χ := by
    rw [← Real.inv_sqrt_one_add_tan_sq hχ, one_div, inv_inv]
  have hLp : 0 < L := lt_of_lt_of_le hL0 hL
  -- the sum of the errors
  set g : ℝ → ℝ := fun s => R/(R^2 + (P.z - s)^2) with hg
  have hgc : Continuous g := by
    rw [hg]
    exact Continuous.div continuous_const (by fun_prop) (fun s => by positivity)
  have hgint : ∫ s in (0:ℝ)..L, g s ≤ Real.pi := by
    have hder : ∀ s : ℝ, HasDerivAt (fun s => -Real.arctan ((P.z - s)/R)) (g s) s := by
      intro s
      have h1 : HasDerivAt (fun s => (P.z - s)/R) (-1/R) s := by
        have := ((hasDerivAt_id s).const_sub P.z).div_const R
        simpa using this
      refine HasDerivAt.congr_deriv (h1.arctan.neg) ?_
      rw [hg]
      field_simp
    rw [intervalIntegral.integral_eq_sub_of_hasDerivAt (fun s _ => hder s) (hgc.intervalIntegrable _ _)]
    have a1 := Real.arctan_lt_pi_div_two ((P.z - 0)/R)
    have a2 := Real.neg_pi_div_two_lt_arctan ((P.z - L)/R)
    linarith
  have hsum := closed_sum_tendsto g 0 L hLp hgc.continuousOn
  simp only [sub_zero, zero_add] at hsum
  have hK : 0 < |γ| / Real.cos χ + 1 := by positivity
  obtain ⟨N1, hN1⟩ := (Metric.tendsto_atTop.mp hsum) (ε/2/(|γ| / Real.cos χ + 1)) (by positivity)
  refine ⟨max (max N0 N1) 1 + 1, fun n hn => ?_⟩
  obtain ⟨k, rfl⟩ : ∃ k, n = k + 1 := ⟨n - 1, by omega⟩
  have hk : 0 < k := by have := le_max_right (max N0 N1) 1; omega
  have hk' : N0 ≤ k := by have := le_max_left (max N0 N1) 1; have := le_max_left N0 N1; omega
  have hk1 : N1 ≤ k := by have := le_max_left (max N0 N1) 1; have := le_max_right N0 N1; omega
  have hkr : (0:ℝ) < k := by exact_mod_cast hk
  set Γ := γ * (L/k * Real.sqrt (1 + Real.tan χ ^ 2)) with hΓ
  have hΓa : |Γ| = |γ| / Real.cos χ * (L/k) := by
    rw [hΓ, hsec, abs_mul, abs_of_pos (show 0 < L/k * (1/Real.cos χ) by positivity)]; ring
  have hv : ∀ i : ℕ, ∃ w, ringU (P - ⟨Real.tan χ * (i * (L/k)), 0, i * (L/k)⟩) (γ * (L/k / Real.cos χ)) R 0 = V3.fin w ∧
      ∀ π' : V3 ℝ → ℝ, π' = V3.x ∨ π' = V3.y ∨ π' = V3.z →
        |π' w - π' (Spec.ringField Γ R (P - ⟨Real.tan χ * (i * (L/k)), 0, i * (L/k)⟩))| ≤ 2.5e-7 * (|γ| / Real.cos χ) * (L/k * g (i * (L/k))) := by
    intro i
    have eG : γ * (L/k / Real.cos χ) = Γ := by rw [hΓ, hsec, mul_one_div]
    rw [eG]
    have h2 := hcut (i * (L/k)) (by positivity)
    have ex : (P - (⟨Real.tan χ * (i * (L/k)), 0, i * (L/k)⟩ : V3 ℝ)) = ⟨P.x - Real.tan χ * (i * (L/k)), P.y, P.z - i * (L/k)⟩ := by
      ext <;> simp
    rw [ex]
    have hgp : 0 ≤ g (i * (L/k)) := by rw [hg]; positivity
    rcases lt_or_ge (√((P.x - Real.tan χ * (i * (L/k)))^2 + P.y^2)) (1e-7 * R) with h1 | h1
    · refine ⟨_, (C52_axis _ _ R 0 "" hR h1).1, fun π' hπ => ?_⟩
      have hlin : ∀ (a : ℝ) (v : V3 ℝ), π' (V3.smul a v) = a * π' v := by
        rcases hπ with rfl | rfl | rfl <;> intros <;> rfl
      have s1 := fun q => ringField_smul Γ 1 R q
      simp only [mul_one] at s1
      rw [s1, s1, hlin, hlin, ← mul_sub, abs_mul, hΓa]
      have := ringField_near_axis R hR ⟨P.x - Real.tan χ * (i * (L/k)), P.y, P.z - i * (L/k)⟩ h1.le π' hπ
      calc _ ≤ |γ| / Real.cos χ * (L/k) * (2.5e-7 * (R/(R^2 + (P.z - i * (L/k))^2))) := by gcongr
        _ = _ := by rw [hg]; ring
    · refine ⟨_, C52_biot_savart _ _ R 0 hR h1 h2, fun π' _ => ?_⟩
      rw [sub_self, abs_zero]
      positivity
  choose w hw hwe using hv
  have hs1 := hN1 k hk1
  rw [Real.dist_eq] at hs1
  have hs2 : ∑ i ∈ Finset.range (k+1), L/k * g (i * (L/k)) < Real.pi + ε/2/(|γ| / Real.cos χ + 1) := by
    rw [abs_lt] at hs1; linarith
  have comp : ∀ π' : V3 ℝ → ℝ, π' = V3.x ∨ π' = V3.y ∨ π' = V3.z →
      |∑ i ∈ Finset.range (k+1), π' (w i) - π' (Spec.skewTangField γ R (Real.tan χ) P)| < ε + 1e-6 * |γ| / Real.cos χ := by
    intro π' hπ
    have h1 := hN k hk' π' hπ
    have h2 : |∑ i ∈ Finset.range (k+1), π' (w i) - ∑ i ∈ Finset.range (k+1), π' (Spec.ringField Γ R (P - ⟨Real.tan χ * (i * (L/k)), 0, i * (L/k)⟩))|
        ≤ 2.5e-7 * (|γ| / Real.cos χ) * ∑ i ∈ Finset.range (k+1), L/k * g (i * (L/k)) := by
      rw [← Finset.sum_sub_distrib, Finset.mul_sum]
      exact (Finset.abs_sum_le_sum_abs _ _).trans (Finset.sum_le_sum fun i _ => hwe i π' hπ)
    have h3 : 2.5e-7 * (|γ| / Real.cos χ) * ∑ i ∈ Finset.range (k+1), L/k * g (i * (L/k)) ≤ 1e-6 * |γ| / Real.cos χ + ε/2 := by
      have hq : 0 ≤ |γ| / Real.cos χ := by positivity
      have e1 : 1e-6 * |γ| / Real.cos χ = 1e-6 * (|γ| / Real.cos χ) := by ring
      rw [e1]
      generalize |γ| / Real.cos χ = q at *
      have hpi := Real.pi_le_four
      have e2 : q * (ε/2/(q+1)) ≤ ε/2 := by
        rw [mul_div_assoc', div_le_iff₀ hK]
        nlinarith
      have e3 : q * ∑ i ∈ Finset.range (k+1), L/k * g (i * (L/k)) ≤ q * (4 + ε/2/(q+1)) :=
        mul_le_mul_of_nonneg_left (by linarith) hq
      norm_num at *
      nlinarith
    rw [abs_lt] at h1
    rw [abs_le] at h2
    rw [abs_lt]
    constructor <;> linarith
  refine ⟨_, ⟨∑ i ∈ Finset.range (k+1), (w i).x, ∑ i ∈ Finset.range (k+1), (w i).y, ∑ i ∈ Finset.range (k+1), (w i).z⟩,
    ringStack_ok γ R χ L k hk, ?_, comp V3.x (Or.inl rfl), comp V3.y (Or.inr (Or.inl rfl)), comp V3.z (Or.inr (Or.inr rfl))⟩
  rw [C53_full_sum _ _ (by intro c hc; rw [List.mem_map] at hc; obtain ⟨i, -, rfl⟩ := hc; exact hR), List.map_map]
  rw [show ((fun c : RingSpec => ringU (P - c.pos) c.Gamma c.R 0) ∘ fun i : ℕ => (⟨γ * (L/k / Real.cos χ), R, ⟨Real.tan χ * (i * (L/k)), 0, i * (L/k)⟩⟩ : RingSpec)) =
    fun i : ℕ => V3.fin (w i) from funext hw]
  exact fin_list_sum _ _

/-- the point on the wake axis two radii downstream (skew 45 degrees), which some rings' axes pass exactly and others nearly,
meets the conditions -/
example : (∀ θ s, 0 ≤ s → (⟨2, 0, 2⟩ : V3 ℝ) ≠ Spec.wakePoint 1 (Real.tan (Real.pi/4)) θ s) ∧
    ∀ s ≥ 0, 1e-7 * 1 ≤ |√((2 - Real.tan (Real.pi/4) * s)^2 + 0^2) - 1| ∨ 1e-7 ≤ |2 - s| := by
  rw [Real.tan_pi_div_four]
  refine ⟨fun θ s hs => ?_, fun s hs => ?_⟩
  · have := offWake_axis 1 1 2 one_pos θ s hs
    simpa using this
  · by_cases h : 1e-7 ≤ |2 - s|
    · exact Or.inr h
    · left
      push Not at h
      rw [one_mul, zero_pow two_ne_zero, add_zero, Real.sqrt_sq_eq_abs, mul_one, abs_of_neg (by norm_num at h ⊢; linarith)]
      norm_num at h ⊢; linarith
end Wiz
