import Verif.Spec.SolidAngle
import Verif.Lemmas.CylinderIntegral
/-! Solid angle of the rotor disk and axial velocity of the straight cylinder. -/
namespace Wiz
open Spec Real MeasureTheory Set Filter Topology intervalIntegral

theorem saDist_pos {h : ℝ} (hh : 0 < h) (r ρ θ : ℝ) : 0 < dist2 r h ρ θ := by
  have : dist2 r h ρ θ = (r - ρ*cos θ)^2 + (ρ*sin θ)^2 + h^2 := by
    unfold dist2; linear_combination (-ρ^2) * sin_sq_add_cos_sq θ
  rw [this]; positivity

theorem rect_swap {f : ℝ → ℝ → ℝ} (hf : Continuous (Function.uncurry f)) {a b c d : ℝ} (hab : a ≤ b) (hcd : c ≤ d) :
    ∫ x in a..b, ∫ y in c..d, f x y = ∫ y in c..d, ∫ x in a..b, f x y := by
  simp only [integral_of_le hab, integral_of_le hcd]
  apply integral_integral_swap
  rw [Measure.prod_restrict]
  exact (hf.continuousOn.integrableOn_compact (isCompact_Icc.prod isCompact_Icc)).mono_set
    (prod_mono Ioc_subset_Icc_self Ioc_subset_Icc_self)

/-- the wake integral upstream of the rotor plane, also on the line of the filament -/
theorem wake_up {D h : ℝ} (hD : 0 ≤ D) (hh : 0 < h) :
    ∫ s in Ioi (0:ℝ), 1 / √(D + (-h - s)^2) ^ 3 = 1/(√(D + h^2) * (√(D + h^2) + h)) := by
  have hp : ∀ s, 0 ≤ s → 0 < D + (-h-s)^2 := fun s hs => by
    have : 0 < (h+s)^2 := by positivity
    nlinarith
  have hd : ∀ s ∈ Ici (0:ℝ), HasDerivAt (fun s => -(1/(√(D + (-h-s)^2) * (√(D + (-h-s)^2) + (h + s))))) (1 / √(D + (-h - s)^2) ^ 3) s := by
    intro s hs
    have h0 := hp s hs
    have h1 : HasDerivAt (fun s => D + (-h-s)^2) (2*(h+s)) s := by
      have := (((hasDerivAt_id s).const_sub (-h)).fun_pow 2).const_add D
      refine this.congr_deriv ?_
      simp; ring
    have h2 := h1.sqrt h0.ne'
    have hw := sqrt_pos.mpr h0
    have hx : 0 < h + s := add_pos_of_pos_of_nonneg hh hs
    have h3 := ((h2.fun_mul (h2.fun_add ((hasDerivAt_id s).const_add h))).fun_inv (by simp only [id]; positivity)).fun_neg
    simp only [one_div]
    refine h3.congr_deriv ?_
    simp only [id]
    generalize √(D + (-h-s)^2) = w at *
    generalize h + s = x at *
    field_simp
    ring
  have hlim : Tendsto (fun s => -(1/(√(D + (-h-s)^2) * (√(D + (-h-s)^2) + (h + s))))) atTop (𝓝 0) := by
    rw [← neg_zero]
    apply Tendsto.neg
    have h1 : Tendsto (fun s : ℝ => h + s) atTop atTop := tendsto_atTop_add_const_left _ _ tendsto_id
    have h2 : Tendsto (fun s => √(D + (-h-s)^2) * (√(D + (-h-s)^2) + (h + s))) atTop atTop := by
      have h3 : Tendsto (fun s : ℝ => √(D + (-h-s)^2)) atTop atTop := by
        refine tendsto_atTop_mono' _ ?_ h1
        filter_upwards [eventually_ge_atTop 0] with s hs
        apply le_sqrt_of_sq_le; nlinarith
      refine h3.atTop_mul_atTop₀ (tendsto_atTop_mono' _ ?_ h3)
      filter_upwards [eventually_ge_atTop 0] with s hs
      linarith
    simp only [one_div]
    exact h2.inv_tendsto_atTop
  have hint : IntegrableOn (fun s => 1 / √(D + (-h - s)^2) ^ 3) (Ioi 0) := by
    apply integrableOn_Ioi_deriv_of_nonneg' hd _ hlim
    intro s hs; positivity
  rw [integral_Ioi_of_hasDerivAt_of_tendsto' hd hint hlim]
  simp

/-- the angular integral of the axial velocity upstream -/
noncomputable def saK (r h ρ : ℝ) : ℝ :=
  ∫ θ in (0:ℝ)..(2*π), ρ*(ρ - r*cos θ) / (√(dist2 r h ρ θ) * (√(dist2 r h ρ θ) + h))

theorem sa_cont {r h : ℝ} (hh : 0 < h) {f : ℝ × ℝ → ℝ} (hf : Continuous f) (a : ℕ) :
    Continuous fun q : ℝ × ℝ => f q / (√(dist2 r h q.1 q.2)^a * (√(dist2 r h q.1 q.2) * (√(dist2 r h q.1 q.2) + h))^2) := by
  have hw : ∀ q : ℝ × ℝ, 0 < √(dist2 r h q.1 q.2) := fun q => sqrt_pos.mpr (saDist_pos hh _ _ _)
  apply hf.div
  · unfold dist2; fun_prop
  · intro q; have := hw q; positivity

theorem sa_drho {r h : ℝ} (hh : 0 < h) (ρ θ : ℝ) :
    HasDerivAt (fun ρ => ρ*(ρ - r*cos θ) / (√(dist2 r h ρ θ) * (√(dist2 r h ρ θ) + h)))
      (ρ*h/√(dist2 r h ρ θ)^3 - (r*cos θ/(√(dist2 r h ρ θ) * (√(dist2 r h ρ θ) + h))
        - r*sin θ*(2*√(dist2 r h ρ θ)+h)*(r*ρ*sin θ/√(dist2 r h ρ θ))/(√(dist2 r h ρ θ) * (√(dist2 r h ρ θ) + h))^2)) ρ := by
  have h0 := saDist_pos hh r ρ θ
  have h1 : HasDerivAt (fun ρ => dist2 r h ρ θ) (2*(ρ - r*cos θ)) ρ := by
    unfold dist2
    have := ((((hasDerivAt_id ρ).fun_pow 2).const_add (r^2)).add_const (h^2)).fun_sub (((hasDerivAt_id ρ).const_mul (2*r)).mul_const (cos θ))
    simp only [id] at this
    refine this.congr_deriv ?_
    simp; ring
  have h2 := h1.sqrt h0.ne'
  have hw := sqrt_pos.mpr h0
  have h3 := ((hasDerivAt_id ρ).fun_mul ((hasDerivAt_id ρ).sub_const (r*cos θ))).fun_div (h2.fun_mul (h2.add_const h)) (by positivity)
  simp only [id] at h3
  refine h3.congr_deriv ?_
  have hsq : √(dist2 r h ρ θ)^2 = dist2 r h ρ θ := sq_sqrt h0.le
  have hc : r^2*sin θ^2 = √(dist2 r h ρ θ)^2 - h^2 - (ρ - r*cos θ)^2 := by
    rw [hsq]; unfold dist2; linear_combination r^2 * sin_sq_add_cos_sq θ
  clear h1 h2 h3
  generalize √(dist2 r h ρ θ) = w at *
  generalize cos θ = c at *
  have e : r*sin θ*(2*w+h)*(r*ρ*sin θ/w) = (2*w+h)*(ρ/w)*(r^2*sin θ^2) := by ring
  rw [e, hc]
  have : w + h ≠ 0 := by positivity
  field_simp
  ring

theorem sa_dtheta {r h : ℝ} (hh : 0 < h) (ρ θ : ℝ) :
    HasDerivAt (fun θ => r*sin θ / (√(dist2 r h ρ θ) * (√(dist2 r h ρ θ) + h)))
      (r*cos θ/(√(dist2 r h ρ θ) * (√(dist2 r h ρ θ) + h))
        - r*sin θ*(2*√(dist2 r h ρ θ)+h)*(r*ρ*sin θ/√(dist2 r h ρ θ))/(√(dist2 r h ρ θ) * (√(dist2 r h ρ θ) + h))^2) θ := by
  have h0 := saDist_pos hh r ρ θ
  have h1 : HasDerivAt (fun θ => dist2 r h ρ θ) (2*(r*ρ*sin θ)) θ := by
    unfold dist2
    have := ((hasDerivAt_cos θ).const_mul (2*r*ρ)).const_sub (r^2+ρ^2+h^2)
    refine this.congr_deriv ?_
    ring
  have h2 := h1.sqrt h0.ne'
  have hw := sqrt_pos.mpr h0
  have h3 := ((hasDerivAt_sin θ).const_mul r).fun_div (h2.fun_mul (h2.add_const h)) (by positivity)
  refine h3.congr_deriv ?_
  clear h1 h2 h3
  generalize √(dist2 r h ρ θ) = w at *
  have : w + h ≠ 0 := by positivity
  field_simp
  ring

theorem saK_eq {r h R : ℝ} (hh : 0 < h) (hR : 0 ≤ R) :
    saK r h R = ∫ ρ in (0:ℝ)..R, ∫ θ in (0:ℝ)..(2*π), ρ*h/√(dist2 r h ρ θ)^3 := by
  have hw : ∀ ρ θ, 0 < √(dist2 r h ρ θ) := fun ρ θ => sqrt_pos.mpr (saDist_pos hh _ _ _)
  have hwc : Continuous fun q : ℝ × ℝ => √(dist2 r h q.1 q.2) := by unfold dist2; fun_prop
  have c1 : Continuous fun q : ℝ × ℝ => q.1*h/√(dist2 r h q.1 q.2)^3 :=
    Continuous.div (by fun_prop) (hwc.pow 3) fun q => by have := hw q.1 q.2; positivity
  have c2 : Continuous fun q : ℝ × ℝ => r*cos q.2/(√(dist2 r h q.1 q.2) * (√(dist2 r h q.1 q.2) + h))
        - r*sin q.2*(2*√(dist2 r h q.1 q.2)+h)*(r*q.1*sin q.2/√(dist2 r h q.1 q.2))/(√(dist2 r h q.1 q.2) * (√(dist2 r h q.1 q.2) + h))^2 := by
    apply Continuous.sub
    · exact Continuous.div (by fun_prop) (by fun_prop) fun q => by have := hw q.1 q.2; positivity
    · refine Continuous.div (Continuous.mul (by fun_prop) (Continuous.div (by fun_prop) hwc fun q => (hw _ _).ne')) (by fun_prop) fun q => by have := hw q.1 q.2; positivity
  have c3 := c1.fun_sub c2
  have h1 : saK r h R = ∫ θ in (0:ℝ)..(2*π), ∫ ρ in (0:ℝ)..R, (ρ*h/√(dist2 r h ρ θ)^3 - (r*cos θ/(√(dist2 r h ρ θ) * (√(dist2 r h ρ θ) + h))
        - r*sin θ*(2*√(dist2 r h ρ θ)+h)*(r*ρ*sin θ/√(dist2 r h ρ θ))/(√(dist2 r h ρ θ) * (√(dist2 r h ρ θ) + h))^2)) := by
    unfold saK
    apply integral_congr
    intro θ _
    beta_reduce
    rw [integral_eq_sub_of_hasDerivAt (fun ρ _ => sa_drho hh ρ θ)]
    · simp
    · exact (c3.comp (by fun_prop : Continuous fun ρ : ℝ => (ρ, θ))).intervalIntegrable _ _
  rw [h1, ← rect_swap (f := fun ρ θ => (ρ*h/√(dist2 r h ρ θ)^3 - (r*cos θ/(√(dist2 r h ρ θ) * (√(dist2 r h ρ θ) + h))
        - r*sin θ*(2*√(dist2 r h ρ θ)+h)*(r*ρ*sin θ/√(dist2 r h ρ θ))/(√(dist2 r h ρ θ) * (√(dist2 r h ρ θ) + h))^2))) c3 hR (by positivity)]
  apply integral_congr
  intro ρ _
  beta_reduce
  have i1 := (c1.comp (by fun_prop : Continuous fun θ : ℝ => (ρ, θ))).intervalIntegrable (μ := volume) 0 (2*π)
  have i2 := (c2.comp (by fun_prop : Continuous fun θ : ℝ => (ρ, θ))).intervalIntegrable (μ := volume) 0 (2*π)
  simp only [Function.comp_def] at i1 i2
  rw [intervalIntegral.integral_sub i1 i2, integral_eq_sub_of_hasDerivAt (fun θ _ => sa_dtheta hh ρ θ) i2]
  simp

theorem sa_inner_pos {r h ρ : ℝ} (hh : 0 < h) (hρ : 0 < ρ) : 0 < ∫ θ in (0:ℝ)..(2*π), ρ*h/√(dist2 r h ρ θ)^3 := by
  have hw : ∀ θ, 0 < √(dist2 r h ρ θ) := fun θ => sqrt_pos.mpr (saDist_pos hh _ _ _)
  apply intervalIntegral_pos_of_pos
  · apply Continuous.intervalIntegrable
    exact Continuous.div (by fun_prop) (by unfold dist2; fun_prop) fun θ => by have := hw θ; positivity
  · intro θ; have := hw θ; positivity
  · positivity

theorem sa_inner_cont {r h : ℝ} (hh : 0 < h) : Continuous fun ρ => ∫ θ in (0:ℝ)..(2*π), ρ*h/√(dist2 r h ρ θ)^3 := by
  have hw : ∀ ρ θ, 0 < √(dist2 r h ρ θ) := fun ρ θ => sqrt_pos.mpr (saDist_pos hh _ _ _)
  have hwc : Continuous fun q : ℝ × ℝ => √(dist2 r h q.1 q.2) := by unfold dist2; fun_prop
  apply continuous_parametric_intervalIntegral_of_continuous'
  exact Continuous.div (by fun_prop) (hwc.pow 3) fun q => by have := hw q.1 q.2; positivity

theorem saK_strictMono {r h a b : ℝ} (hh : 0 < h) (ha : 0 ≤ a) (hab : a < b) : saK r h a < saK r h b := by
  rw [saK_eq hh ha, saK_eq hh (ha.trans hab.le)]
  have hc := sa_inner_cont (r := r) hh
  rw [← integral_add_adjacent_intervals (hc.intervalIntegrable 0 a) (hc.intervalIntegrable a b)]
  have : 0 < ∫ ρ in a..b, ∫ θ in (0:ℝ)..(2*π), ρ*h/√(dist2 r h ρ θ)^3 := by
    apply intervalIntegral_pos_of_pos_on (hc.intervalIntegrable a b) _ hab
    intro ρ hρ; exact sa_inner_pos hh (lt_of_le_of_lt ha hρ.1)
  linarith

theorem saK_zero (r h : ℝ) : saK r h 0 = 0 := by simp [saK]

theorem saK_upper {r h ρ : ℝ} (hh : 0 < h) (hr : 0 ≤ r) (hρ : r < ρ) : saK r h ρ ≤ 2*π * (ρ*(ρ+r)/(ρ-r)^2) := by
  have hρ0 : 0 < ρ := lt_of_le_of_lt hr hρ
  have hw : ∀ θ, 0 < √(dist2 r h ρ θ) := fun θ => sqrt_pos.mpr (saDist_pos hh _ _ _)
  have : saK r h ρ ≤ ∫ θ in (0:ℝ)..(2*π), ρ*(ρ+r)/(ρ-r)^2 := by
    unfold saK
    apply integral_mono_on (by positivity)
    · apply Continuous.intervalIntegrable
      exact Continuous.div (by fun_prop) (by unfold dist2; fun_prop) fun θ => by have := hw θ; positivity
    · exact continuous_const.intervalIntegrable _ _
    · intro θ _
      have hw' := hw θ
      have hd : (ρ-r)^2 ≤ √(dist2 r h ρ θ)^2 := by
        rw [sq_sqrt (saDist_pos hh _ _ _).le]; unfold dist2
        have := mul_le_mul_of_nonneg_left (cos_le_one θ) (mul_nonneg hr hρ0.le)
        nlinarith [sq_nonneg h]
      have hs : 0 < (ρ - r)^2 := by have : 0 < ρ - r := by linarith
                                    positivity
      have hn : ρ*(ρ - r*cos θ) ≤ ρ*(ρ+r) := by
        apply mul_le_mul_of_nonneg_left _ hρ0.le
        nlinarith [neg_one_le_cos θ]
      apply div_le_div₀ (by positivity) hn hs
      nlinarith
  refine this.trans (le_of_eq ?_)
  simp; ring

theorem saK_bounds {r h R : ℝ} (hh : 0 < h) (hr : 0 ≤ r) (hR : 0 < R) : 0 < saK r h R ∧ saK r h R < 2*π := by
  constructor
  · have := saK_strictMono (r := r) hh le_rfl hR
    rwa [saK_zero] at this
  · refine lt_of_lt_of_le (saK_strictMono hh hR.le (lt_add_one R)) ?_
    have hlim : Tendsto (fun ρ => 2*π * (ρ*(ρ+r)/(ρ-r)^2)) atTop (𝓝 (2*π*((1+r*0)/(1-r*0)^2))) := by
      have hi : Tendsto (fun ρ : ℝ => ρ⁻¹) atTop (𝓝 0) := tendsto_inv_atTop_zero
      have h1 : Tendsto (fun ρ : ℝ => 2*π * ((1+r*ρ⁻¹)/(1-r*ρ⁻¹)^2)) atTop (𝓝 (2*π*((1+r*0)/(1-r*0)^2))) := by
        apply Tendsto.const_mul
        apply Tendsto.div
        · exact (hi.const_mul r).const_add 1
        · exact ((hi.const_mul r).const_sub 1).pow 2
        · norm_num
      refine h1.congr' ?_
      filter_upwards [eventually_gt_atTop r, eventually_gt_atTop 0] with ρ h1 h2
      have : ρ - r ≠ 0 := by linarith
      congr 1
      field_simp
    rw [show 2*π*((1+r*0)/(1-r*0)^2) = 2*π by norm_num] at hlim
    refine ge_of_tendsto hlim ?_
    filter_upwards [eventually_gt_atTop r, eventually_gt_atTop (R+1)] with ρ h1 h2
    exact (saK_strictMono hh (by linarith) h2).le.trans (saK_upper hh hr h1)

theorem solidAngle_eq (R r z ψ : ℝ) (hz : z ≠ 0) (hR : 0 ≤ R) :
    diskSolidAngle R ⟨r*cos ψ, r*sin ψ, z⟩ = saK r |z| R := by
  rw [saK_eq (abs_pos.mpr hz) hR]
  unfold diskSolidAngle
  apply integral_congr
  intro ρ _
  beta_reduce
  have h := shift_integral (fun θ => ρ*|z|/√(dist2 r |z| ρ θ)^3) (fun θ => by simp [dist2]) ψ
  rw [← h]
  apply integral_congr
  intro θ _
  have : V3.norm ((⟨r*cos ψ, r*sin ψ, z⟩ : V3 ℝ) - ⟨ρ*cos θ, ρ*sin θ, 0⟩) = √(dist2 r |z| ρ (θ - ψ)) := by
    unfold V3.norm dist2
    congr 1
    simp only [V3.sub_x, V3.sub_y, V3.sub_z, sq_abs, cos_sub]
    linear_combination r^2 * sin_sq_add_cos_sq ψ + ρ^2 * sin_sq_add_cos_sq θ
  simp only [this]
  ring

/-- axial velocity upstream of the rotor plane -/
theorem cylinder_up_z (γ R r z ψ : ℝ) (hr : 0 ≤ r) (hR : 0 < R) (hz : z < 0) :
    (cylinderField γ R ⟨r*cos ψ, r*sin ψ, z⟩).z = γ/(4*π) * saK r (-z) R := by
  obtain ⟨c, hc, hlow⟩ := dist2_lower (z := z) hr hR (Or.inr hz)
  have B2 : ∀ s > 0, ∀ θ, |(R^2 - r*R*cos θ) * (1 / √(dist2 r (z-s) R θ)^3)| ≤ ((R^2 + r*R) * (1/√c^3)) * (1 + (z-s)^2)⁻¹ := by
    intro s hs θ
    rw [abs_mul, mul_assoc (R^2 + r*R)]
    have h1 := (kernel_bounds hc (hlow s hs θ)).1
    have h2 : |R^2 - r*R*cos θ| ≤ R^2 + r*R := by
      have h3 := cos_le_one θ
      have h4 := neg_one_le_cos θ
      have h5 := mul_nonneg hr hR.le
      rw [abs_le]; constructor <;> nlinarith
    gcongr
  have M2 : Measurable (Function.uncurry fun s θ => (R^2 - r*R*cos θ) * (1 / √(dist2 r (z-s) R θ)^3)) := by
    unfold dist2; simp only [Function.uncurry_def]; fun_prop
  have S2 := sheet_swap M2 _ z B2
  have hring : ∀ s ∈ Ioi (0:ℝ), (ringField γ R ((⟨r * cos ψ, r * sin ψ, z⟩ : V3 ℝ) - ⟨0, 0, s⟩)).z =
      γ/(4*π) * ∫ θ in (0:ℝ)..(2*π), (R^2 - r*R*cos θ) * (1 / √(dist2 r (z-s) R θ)^3) := by
    intro s hs
    have hne : ¬ (r = R ∧ z - s = 0) := fun h => by have := h.2; have : 0 < s := hs; linarith
    have : ((⟨r * cos ψ, r * sin ψ, z⟩ : V3 ℝ) - ⟨0, 0, s⟩) = ⟨r * cos ψ, r * sin ψ, z - s⟩ := by
      ext <;> simp
    rw [this, ringField_reduce γ R r (z-s) ψ hr hR hne]
    have f2 : ∀ θ, (R^2 - r*R*cos θ) * (1 / √(dist2 r (z-s) R θ)^3)
        = R^2 * (1 / √(dist2 r (z-s) R θ)^3) - r*R*(cos θ / √(dist2 r (z-s) R θ)^3) := by
      intro θ; ring
    simp only [f2]
    rw [intervalIntegral.integral_sub (((cont_ring hr hR hne _ continuous_const).const_mul _).intervalIntegrable _ _)
      (((cont_ring hr hR hne _ continuous_cos).const_mul _).intervalIntegrable _ _)]
    simp only [intervalIntegral.integral_const_mul]
  unfold cylinderField vint
  simp only
  rw [setIntegral_congr_fun measurableSet_Ioi hring, MeasureTheory.integral_const_mul, S2]
  congr 1
  unfold saK
  apply integral_congr
  intro θ _
  beta_reduce
  rw [MeasureTheory.integral_const_mul]
  simp only [fun s => dist2_zero r (z-s) R θ]
  have hD : 0 ≤ dist2 r 0 R θ := by
    unfold dist2
    have := mul_le_mul_of_nonneg_left (cos_le_one θ) (mul_nonneg hr hR.le)
    nlinarith [sq_nonneg (r-R)]
  have := wake_up hD (neg_pos.mpr hz)
  rw [neg_neg] at this
  rw [this, ← dist2_zero]
  ring

/-- axial velocity everywhere off the rotor plane and the sheet -/
theorem cylinder_z (γ R r z ψ : ℝ) (hr : 0 < r) (hR : 0 < R) (hz : z ≠ 0) (hne : r ≠ R) :
    (cylinderField γ R ⟨r*cos ψ, r*sin ψ, z⟩).z =
      if z < 0 then γ/(4*π) * diskSolidAngle R ⟨r*cos ψ, r*sin ψ, z⟩
      else (if r < R then γ else 0) - γ/(4*π) * diskSolidAngle R ⟨r*cos ψ, r*sin ψ, z⟩ := by
  rw [solidAngle_eq R r z ψ hz hR.le]
  split_ifs with h1 h2
  · rw [cylinder_up_z γ R r z ψ hr.le hR h1, abs_of_neg h1]
  all_goals
    have h1' : 0 < z := lt_of_le_of_ne (not_lt.mp h1) hz.symm
    have e := cylinder_up_z γ R r (-z) ψ hr.le hR (by linarith)
    rw [neg_neg] at e
    rw [abs_of_pos h1', ← e, cylinderField_eq γ R r z ψ hr hR hne, cylinderField_eq γ R r (-z) ψ hr hR hne]
    simp only
    unfold vcUz
    rw [show vcM R r (-z) = vcM R r z by unfold vcM; rw [neg_sq]]
    unfold vcT
    rw [if_neg hne]
  · rw [if_pos h2]; ring
  · rw [if_neg h2]; ring

theorem cos_int_pos {r z R : ℝ} (hr : 0 < r) (hR : 0 < R) (h : ¬ (r = R ∧ z = 0)) :
    0 < ∫ θ in (0:ℝ)..(2*π), cos θ / √(dist2 r z R θ) := by
  have hp := dist2_pos hr.le hR h
  have hw : ∀ θ, 0 < √(dist2 r z R θ) := fun θ => sqrt_pos.mpr (hp θ)
  have hwc : Continuous fun θ => √(dist2 r z R θ) := by unfold dist2; fun_prop
  have c1 : Continuous fun θ => cos θ / √(dist2 r z R θ) := continuous_cos.div hwc fun θ => (hw θ).ne'
  have c2 : Continuous fun θ => r*R*sin θ^2 / √(dist2 r z R θ)^3 :=
    Continuous.div (by fun_prop) (hwc.pow 3) fun θ => (pow_pos (hw θ) 3).ne'
  have hd : ∀ θ, HasDerivAt (fun θ => sin θ / √(dist2 r z R θ)) (cos θ / √(dist2 r z R θ) - r*R*sin θ^2 / √(dist2 r z R θ)^3) θ := by
    intro θ
    have h1 : HasDerivAt (fun θ => dist2 r z R θ) (2*(r*R*sin θ)) θ := by
      unfold dist2
      have := ((hasDerivAt_cos θ).const_mul (2*r*R)).const_sub (r^2+R^2+z^2)
      refine this.congr_deriv ?_
      ring
    have h2 := h1.sqrt (hp θ).ne'
    refine ((hasDerivAt_sin θ).fun_div h2 (hw θ).ne').congr_deriv ?_
    have := hw θ
    clear h1 h2
    generalize √(dist2 r z R θ) = w at *
    field_simp
  have h0 := integral_eq_sub_of_hasDerivAt (a := 0) (b := 2*π) (fun θ _ => hd θ) ((c1.sub c2).intervalIntegrable _ _)
  rw [intervalIntegral.integral_sub (c1.intervalIntegrable _ _) (c2.intervalIntegrable _ _)] at h0
  simp only [sin_two_pi, sin_zero, zero_div, sub_self] at h0
  have h3 : 0 < ∫ θ in (0:ℝ)..(2*π), r*R*sin θ^2 / √(dist2 r z R θ)^3 := by
    apply integral_pos (by positivity) c2.continuousOn
    · intro θ _; have := hw θ; positivity
    · refine ⟨π/2, ⟨by positivity, by linarith [pi_pos]⟩, ?_⟩
      have := hw (π/2)
      rw [sin_pi_div_two]; positivity
  linarith

theorem vcUr_int (γ R r z : ℝ) (hr : 0 < r) (hR : 0 < R) (h : ¬ (r = R ∧ z = 0)) :
    vcUr γ R r z = -(γ*R/(4*π)) * ∫ θ in (0:ℝ)..(2*π), cos θ / √(dist2 r z R θ) := by
  have hp := dist2_pos hr.le hR h
  have hw : ∀ θ, 0 < √(dist2 r z R θ) := fun θ => sqrt_pos.mpr (hp θ)
  have c0 : Continuous fun θ => √(dist2 r z R θ) := by unfold dist2; fun_prop
  have c1 : Continuous fun θ => 1 / √(dist2 r z R θ) := continuous_const.div c0 fun θ => (hw θ).ne'
  have hp2 : 0 < (r+R)^2+z^2 := by positivity
  have e : ∀ θ, cos θ / √(dist2 r z R θ) = ((r^2+R^2+z^2) * (1/√(dist2 r z R θ)) - √(dist2 r z R θ)) / (2*r*R) := by
    intro θ
    have hq := sq_sqrt (hp θ).le
    have hn : 2*r*R*cos θ = r^2+R^2+z^2 - √(dist2 r z R θ)^2 := by rw [hq]; unfold dist2; ring
    have := hw θ
    generalize √(dist2 r z R θ) = w at *
    field_simp
    linear_combination hn
  simp only [e]
  rw [intervalIntegral.integral_div, intervalIntegral.integral_sub ((c1.const_mul _).intervalIntegrable _ _) (c0.intervalIntegrable _ _),
    intervalIntegral.integral_const_mul, ring_I0 hr.le hR, ring_I1 hr.le hR h]
  have hM := vcM_eq R r z
  have hS : √(vcM R r z) = 2 * √r * √R / √((r+R)^2+z^2) := by
    rw [hM, sqrt_div (by positivity), sqrt_mul (by positivity), sqrt_mul (by norm_num),
      show (4:ℝ) = 2^2 by norm_num, sqrt_sq (by norm_num)]
  have hA : r^2+R^2+z^2 = √((r+R)^2+z^2)^2 - 2*r*R := by rw [sq_sqrt hp2.le]; ring
  have hmm : 4*r*R = vcM R r z * √((r+R)^2+z^2)^2 := by rw [sq_sqrt hp2.le, hM]; field_simp
  have ha := sqrt_pos.mpr hp2
  have hpi := pi_pos
  unfold vcUr
  rw [hA, ← hM, hS, sqrt_div hR.le]
  generalize ellK (vcM R r z) = K
  generalize ellE (vcM R r z) = E
  generalize vcM R r z = m at *
  clear e c0 c1 hw hp
  generalize √((r+R)^2+z^2) = a at *
  have f1 := sq_sqrt hr.le
  have f2 := sq_sqrt hR.le
  have g1 := sqrt_pos.mpr hr
  have g2 := sqrt_pos.mpr hR
  generalize √r = p at *
  generalize √R = q at *
  have h2 : 2*r*R = m*a^2/2 := by linarith
  rw [h2, ← f2]
  have h3 : m = 4*p^2*q^2/a^2 := by rw [f1, f2]; field_simp; linarith
  rw [h3]
  field_simp
  ring

end Wiz
