import Verif.Lemmas.VortexCylinder
import Verif.Lemmas.LineIntegrals
import Verif.Spec.Cylinder
import Mathlib.Analysis.Complex.Poisson
import Mathlib.MeasureTheory.Integral.Prod
import Mathlib.Analysis.SpecialFunctions.ImproperIntegrals
/-! Biot–Savart integral over a semi-infinite cylindrical sheet. -/
namespace Wiz
open Real Spec MeasureTheory intervalIntegral Set

/-- Poisson's integral. -/
theorem poisson_integral {r R : ℝ} (hr : 0 ≤ r) (hrR : r < R) :
    ∫ θ in (0:ℝ)..(2*π), 1 / (r^2 + R^2 - 2*r*R*cos θ) = 2*π/(R^2 - r^2) := by
  have hR : 0 < R := lt_of_le_of_lt hr hrR
  have hw : (r:ℂ) ∈ Metric.ball (0:ℂ) R := by
    rw [mem_ball_zero_iff, Complex.norm_real, Real.norm_of_nonneg hr]; exact hrR
  have h := (diffContOnCl_const (s := Metric.ball (0:ℂ) R) (c := (1:ℂ))).circleAverage_poissonKernel_smul hw
  rw [Real.circleAverage_def] at h
  have hk : ∀ θ : ℝ, (poissonKernel 0 (r:ℂ) • (fun _ => (1:ℂ))) (circleMap 0 R θ)
      = (((R^2 - r^2) * (1 / (r^2 + R^2 - 2*r*R*cos θ)) : ℝ) : ℂ) := by
    intro θ
    have e1 : ‖circleMap 0 R θ‖^2 = R^2 := by rw [norm_circleMap_zero, sq_abs]
    have e2 : ‖circleMap 0 R θ - (r:ℂ)‖^2 = r^2 + R^2 - 2*r*R*cos θ := by
      rw [← Complex.normSq_eq_norm_sq, Complex.normSq_apply]
      have h1 : (circleMap 0 R θ).re = R * cos θ := by simp [circleMap, Complex.exp_re]
      have h2 : (circleMap 0 R θ).im = R * sin θ := by simp [circleMap, Complex.exp_im]
      simp only [Complex.sub_re, Complex.sub_im, h1, h2, Complex.ofReal_re, Complex.ofReal_im]
      linear_combination R^2 * sin_sq_add_cos_sq θ
    simp only [Pi.smul_apply', poissonKernel_def, sub_zero, e1, e2, Complex.norm_real, Real.norm_of_nonneg hr,
      Complex.real_smul, mul_one]
    congr 1; ring
  simp only [hk] at h
  rw [intervalIntegral.integral_ofReal, ← Complex.coe_smul, smul_eq_mul] at h
  have h' : (2*π)⁻¹ * ∫ θ in (0:ℝ)..(2*π), (R^2 - r^2) * (1 / (r^2 + R^2 - 2*r*R*cos θ)) = 1 := by
    exact_mod_cast h
  rw [intervalIntegral.integral_const_mul] at h'
  have hpi := pi_pos
  have hd : R^2 - r^2 ≠ 0 := by nlinarith
  field_simp at h' ⊢
  linarith

theorem poisson_integral' {r R : ℝ} (hr : 0 ≤ r) (hR : 0 ≤ R) (h : r ≠ R) :
    ∫ θ in (0:ℝ)..(2*π), 1 / dist2 r 0 R θ = 2*π/|R^2 - r^2| := by
  unfold dist2
  rcases lt_or_gt_of_ne h with h1 | h1
  · rw [abs_of_pos (by nlinarith), ← poisson_integral hr h1]
    congr 1; ext θ; ring_nf
  · rw [abs_of_neg (by nlinarith), show -(R^2 - r^2) = r^2 - R^2 by ring, ← poisson_integral hR h1]
    congr 1; ext θ; ring_nf

theorem ring_I0 {r z R : ℝ} (hr : 0 ≤ r) (hR : 0 < R) :
    ∫ θ in (0:ℝ)..(2*π), √(dist2 r z R θ)
      = 4 * √((r+R)^2+z^2) * ellE (4*r*R/((r+R)^2+z^2)) := by
  have hp : 0 < (r+R)^2+z^2 := by positivity
  have hc : Continuous fun θ => √(dist2 r z R θ) := by unfold dist2; fun_prop
  have := circle_integral (fun c => √(r^2 + R^2 + z^2 - 2*r*R*c)) hc
  simp only [dist2] at this ⊢
  rw [this]
  simp only [dist2_quarter hr hR, sqrt_mul hp.le]
  unfold ellE
  rw [intervalIntegral.integral_const_mul]
  ring

theorem dist2_zero (r z R θ : ℝ) : dist2 r z R θ = dist2 r 0 R θ + z^2 := by unfold dist2; ring

theorem ring_Pi {r z R : ℝ} (hr : 0 ≤ r) (hR : 0 < R) (h : r ≠ R) :
    ∫ θ in (0:ℝ)..(2*π), 1 / (dist2 r 0 R θ * √(dist2 r z R θ))
      = 4 / ((r+R)^2 * √((r+R)^2+z^2)) * ellPi (4*r*R/(r+R)^2) (4*r*R/((r+R)^2+z^2)) := by
  have hp : 0 < (r+R)^2+z^2 := by positivity
  have hp0 : 0 < (r+R)^2 := by positivity
  have hc : Continuous fun θ => 1 / (dist2 r 0 R θ * √(dist2 r z R θ)) := by
    apply Continuous.div continuous_const
    · unfold dist2; fun_prop
    · intro θ
      have h1 := dist2_pos (z := 0) hr hR (fun h' => h h'.1) θ
      have h2 := sqrt_pos.mpr (dist2_pos (z := z) hr hR (fun h' => h h'.1) θ)
      positivity
  have := circle_integral (fun c => 1 / ((r^2 + R^2 + 0^2 - 2*r*R*c) * √(r^2 + R^2 + z^2 - 2*r*R*c))) hc
  simp only [dist2] at this ⊢
  rw [this]
  simp only [dist2_quarter hr hR, sqrt_mul hp.le]
  unfold ellPi
  simp only [ne_eq, OfNat.ofNat_ne_zero, not_false_eq_true, zero_pow, add_zero]
  rw [← intervalIntegral.integral_const_mul, ← intervalIntegral.integral_const_mul]
  congr 1; ext t
  have h1 : 1 - 4*r*R/(r+R)^2 * sin t ^ 2 ≠ 0 := by
    have := dist2_quarter (z := 0) hr hR t
    simp only [ne_eq, OfNat.ofNat_ne_zero, not_false_eq_true, zero_pow, add_zero] at this
    intro h0
    rw [h0, mul_zero] at this
    have h3 := dist2_pos (z := 0) hr hR (fun h' => h h'.1) (π - 2*t)
    unfold dist2 at h3
    rw [cos_pi_sub, cos_two_mul, cos_sq'] at h3
    nlinarith
  generalize 1 - 4*r*R/(r+R)^2 * sin t ^ 2 = u at *
  generalize √(1 - 4*r*R/((r+R)^2+z^2) * sin t ^ 2) = v
  have := sqrt_pos.mpr hp
  by_cases hv : v = 0
  · simp [hv]
  · field_simp

/-! ### Exchange of the two integrals -/

theorem sheet_integrable {g : ℝ → ℝ → ℝ} (hg : Measurable (Function.uncurry g)) (C z : ℝ)
    (hb : ∀ s > 0, ∀ θ, |g s θ| ≤ C * (1 + (z - s)^2)⁻¹) :
    Integrable (Function.uncurry g) ((volume.restrict (Ioi 0)).prod (volume.restrict (Ioc 0 (2*π)))) := by
  have h1 : Integrable (fun s : ℝ => C * (1 + (z - s)^2)⁻¹) := by
    have := (integrable_inv_one_add_sq.comp_sub_left z).const_mul C
    simpa using this
  have h2 : Integrable (fun p : ℝ × ℝ => (C * (1 + (z - p.1)^2)⁻¹) * 1)
      ((volume.restrict (Ioi 0)).prod (volume.restrict (Ioc 0 (2*π)))) :=
    Integrable.mul_prod h1.restrict (integrable_const 1)
  refine h2.mono' hg.aestronglyMeasurable ?_
  rw [Measure.prod_restrict]
  refine (ae_restrict_iff' (measurableSet_Ioi.prod measurableSet_Ioc)).mpr (Filter.Eventually.of_forall ?_)
  rintro ⟨s, θ⟩ ⟨hs, -⟩
  simpa using hb s hs θ

theorem sheet_swap {g : ℝ → ℝ → ℝ} (hg : Measurable (Function.uncurry g)) (C z : ℝ)
    (hb : ∀ s > 0, ∀ θ, |g s θ| ≤ C * (1 + (z - s)^2)⁻¹) :
    ∫ s in Ioi (0:ℝ), ∫ θ in (0:ℝ)..(2*π), g s θ = ∫ θ in (0:ℝ)..(2*π), ∫ s in Ioi (0:ℝ), g s θ := by
  have h2pi : (0:ℝ) ≤ 2*π := by positivity
  simp only [intervalIntegral.integral_of_le h2pi]
  exact integral_integral_swap (sheet_integrable hg C z hb)

theorem sheet_integrable_theta {g : ℝ → ℝ → ℝ} (hg : Measurable (Function.uncurry g)) (C z : ℝ)
    (hb : ∀ s > 0, ∀ θ, |g s θ| ≤ C * (1 + (z - s)^2)⁻¹) :
    IntegrableOn (fun s => ∫ θ in (0:ℝ)..(2*π), g s θ) (Ioi 0) := by
  have h2pi : (0:ℝ) ≤ 2*π := by positivity
  simp only [intervalIntegral.integral_of_le h2pi]
  exact (sheet_integrable hg C z hb).integral_prod_left

theorem line_integrable {f : ℝ → ℝ} (hf : Measurable f) (C z : ℝ) (hb : ∀ s > 0, |f s| ≤ C * (1 + (z - s)^2)⁻¹) :
    IntegrableOn f (Ioi 0) := by
  have h1 : Integrable (fun s : ℝ => C * (1 + (z - s)^2)⁻¹) := by
    have := (integrable_inv_one_add_sq.comp_sub_left z).const_mul C
    simpa using this
  refine h1.integrableOn.mono' hf.aestronglyMeasurable ?_
  refine (ae_restrict_iff' measurableSet_Ioi).mpr (Filter.Eventually.of_forall ?_)
  intro s hs
  exact hb s hs

/-- lower bound for the distance to the sheet -/
theorem dist2_lower {r z R : ℝ} (hr : 0 ≤ r) (hR : 0 < R) (h : r ≠ R ∨ z < 0) :
    ∃ c > 0, ∀ s > 0, ∀ θ, c * (1 + (z - s)^2) ≤ dist2 r (z - s) R θ := by
  have hd : ∀ s θ, (r-R)^2 + (z-s)^2 ≤ dist2 r (z-s) R θ := by
    intro s θ
    unfold dist2
    have := cos_le_one θ
    nlinarith [mul_nonneg hr hR.le, mul_le_mul_of_nonneg_left this (mul_nonneg hr hR.le)]
  by_cases h1 : r = R
  · have hz : z < 0 := h.resolve_left (fun h' => h' h1)
    refine ⟨min (z^2/2) (1/2), lt_min (by nlinarith) (by norm_num), fun s hs θ => le_trans ?_ (hd s θ)⟩
    have h2 : min (z^2/2) (1/2) ≤ z^2/2 := min_le_left _ _
    have h3 : min (z^2/2) (1/2) ≤ 1/2 := min_le_right _ _
    have h4 : z^2 ≤ (z-s)^2 := by nlinarith
    nlinarith [sq_nonneg (z-s), mul_le_mul_of_nonneg_right h3 (sq_nonneg (z-s)), sq_nonneg (r-R)]
  · have : 0 < (r-R)^2 := by have : r - R ≠ 0 := sub_ne_zero.mpr h1
                             positivity
    refine ⟨min ((r-R)^2) 1, by positivity, fun s hs θ => le_trans ?_ (hd s θ)⟩
    have h2 : min ((r-R)^2) 1 ≤ (r-R)^2 := min_le_left _ _
    have h3 : min ((r-R)^2) 1 ≤ 1 := min_le_right _ _
    nlinarith [mul_le_mul_of_nonneg_right h3 (sq_nonneg (z-s))]

theorem kernel_bounds {c x D : ℝ} (hc : 0 < c) (h : c * (1 + x^2) ≤ D) :
    |1 / √D ^ 3| ≤ 1/√c^3 * (1 + x^2)⁻¹ ∧ |x / √D ^ 3| ≤ 1/√c^3 * (1 + x^2)⁻¹ := by
  have h1 : 0 < 1 + x^2 := by positivity
  have h2 : 0 < c * (1+x^2) := by positivity
  have hD : 0 < D := lt_of_lt_of_le h2 h
  have h3 : √c * √(1+x^2) ≤ √D := by rw [← sqrt_mul hc.le]; exact sqrt_le_sqrt h
  have h4 : 1 ≤ √(1+x^2) := by rw [one_le_sqrt]; nlinarith [sq_nonneg x]
  have h5 : |x| ≤ √(1+x^2) := by rw [← sqrt_sq_eq_abs]; exact sqrt_le_sqrt (by linarith)
  have hs := sqrt_pos.mpr hc
  have hw := sqrt_pos.mpr h1
  have hsq := sq_sqrt h1.le
  have hD3 : √c^3 * √(1+x^2)^3 ≤ √D^3 := by rw [← mul_pow]; exact pow_le_pow_left₀ (by positivity) h3 3
  have hDp : 0 < √D^3 := by have := sqrt_pos.mpr hD; positivity
  have key : ∀ y, 0 ≤ y → y ≤ √(1+x^2) → y / √D^3 ≤ 1/√c^3 * (1+x^2)⁻¹ := by
    intro y hy0 hy
    calc y / √D^3 ≤ √(1+x^2) / (√c^3 * √(1+x^2)^3) := by gcongr
      _ = 1/√c^3 * (1+x^2)⁻¹ := by
        rw [← hsq]
        generalize √(1+x^2) = w at *
        generalize √c = k at *
        rw [sqrt_sq hw.le]
        field_simp
  constructor
  · rw [abs_div, abs_one, abs_of_pos hDp]; exact key 1 zero_le_one h4
  · rw [abs_div, abs_of_pos hDp]; exact key |x| (abs_nonneg x) h5

/-! ### Integration along the wake -/

theorem wake_int1 {D z : ℝ} (hD : 0 < D) :
    ∫ s in Ioi (0:ℝ), 1 / √(D + (z - s)^2) ^ 3 = 1/D * (1 + z/√(D + z^2)) := by
  have ha : 0 < √(D + z^2) := sqrt_pos.mpr (by positivity)
  have hsq : √(D+z^2)^2 = D + z^2 := sq_sqrt (by positivity)
  have h1 : -(√(D+z^2)*1) < z := by
    have : |z| < √(D+z^2) := by rw [← sqrt_sq_eq_abs]; exact sqrt_lt_sqrt (sq_nonneg z) (by linarith)
    rw [abs_lt] at this; linarith [this.1]
  have h2 : z < √(D+z^2)*1 := by
    have : |z| < √(D+z^2) := by rw [← sqrt_sq_eq_abs]; exact sqrt_lt_sqrt (sq_nonneg z) (by linarith)
    rw [abs_lt] at this; linarith [this.2]
  have h := LineInt.int30g ha one_pos h1.le h2
  have e : ∀ s, LineInt.q (√(D+z^2)) z 1 s = √(D + (z-s)^2) := by
    intro s; unfold LineInt.q LineInt.Q; rw [hsq]; congr 1; ring
  simp only [e] at h
  rw [h]
  have h3 : √(D+z^2) - z ≠ 0 := by linarith
  have h4 : √(D+z^2) * 1 - z ≠ 0 := by linarith
  rw [mul_one] at *
  rw [div_eq_iff (mul_ne_zero ha.ne' h3)]
  generalize √(D+z^2) = a at *
  field_simp
  nlinarith

theorem wake_int2 {D z : ℝ} (hD : 0 < D) :
    ∫ s in Ioi (0:ℝ), (z - s) / √(D + (z - s)^2) ^ 3 = -(1/√(D + z^2)) := by
  have hp : ∀ s, 0 < D + (z-s)^2 := fun s => by positivity
  have hder : ∀ s ∈ Ici (0:ℝ), HasDerivAt (fun s => 1/√(D + (z-s)^2)) ((z - s) / √(D + (z - s)^2) ^ 3) s := by
    intro s _
    have h1 : HasDerivAt (fun s => D + (z-s)^2) (-(2*(z-s))) s := by
      have := (((hasDerivAt_id s).const_sub z).pow 2).const_add D
      refine this.congr_deriv ?_
      simp
    have h2 := (h1.sqrt (hp s).ne').inv (sqrt_pos.mpr (hp s)).ne'
    have e : (fun s => 1/√(D + (z-s)^2)) = (fun s => √(D + (z-s)^2))⁻¹ := by ext s; simp
    rw [e]
    refine h2.congr_deriv ?_
    have := sqrt_pos.mpr (hp s)
    generalize √(D + (z-s)^2) = w at *
    field_simp
  have hlim : Filter.Tendsto (fun s => 1/√(D + (z-s)^2)) Filter.atTop (nhds 0) := by
    have := LineInt.affine_tendsto (a := √(D+z^2)) (b := z) (c := 1) one_pos 1 0
    simp only [zero_mul, add_zero, zero_div] at this
    refine this.congr ?_
    intro s
    unfold LineInt.q LineInt.Q
    rw [sq_sqrt (by positivity)]
    congr 2; ring
  have hint : IntegrableOn (fun s => (z - s) / √(D + (z - s)^2) ^ 3) (Ioi 0) := by
    refine line_integrable (by fun_prop) (1/√(min D 1)^3) z ?_
    intro s hs
    refine (kernel_bounds (lt_min hD one_pos) ?_).2
    have h2 : min D 1 ≤ D := min_le_left _ _
    have h3 : min D 1 ≤ 1 := min_le_right _ _
    nlinarith [mul_le_mul_of_nonneg_right h3 (sq_nonneg (z-s))]
  have := integral_Ioi_of_hasDerivAt_of_tendsto' hder hint hlim
  rw [this]; simp

/-- Biot–Savart field of the sheet off the sheet, in polar form. -/
theorem cylinderField_eq (γ R r z ψ : ℝ) (hr : 0 < r) (hR : 0 < R) (h : r ≠ R) :
    cylinderField γ R ⟨r * cos ψ, r * sin ψ, z⟩ =
      ⟨vcUr γ R r z * cos ψ, vcUr γ R r z * sin ψ, vcUz γ R r z (ellPi (vcN R r) (vcM R r z))⟩ := by
  obtain ⟨c, hc, hlow⟩ := dist2_lower (z := z) hr.le hR (Or.inl h)
  have hne : ∀ w : ℝ, ¬ (r = R ∧ w = 0) := fun w h' => h h'.1
  have hp2 : 0 < (r+R)^2+z^2 := by positivity
  have hpi := pi_pos
  have hm : Measurable fun p : ℝ × ℝ => dist2 r (z - p.1) R p.2 := by unfold dist2; fun_prop
  -- the two double integrals
  have B1 : ∀ s > 0, ∀ θ, |cos θ * ((z-s) / √(dist2 r (z-s) R θ)^3)| ≤ 1/√c^3 * (1 + (z-s)^2)⁻¹ := by
    intro s hs θ
    rw [abs_mul]
    have := (kernel_bounds hc (hlow s hs θ)).2
    calc _ ≤ 1 * |(z-s) / √(dist2 r (z-s) R θ)^3| := by gcongr; exact abs_cos_le_one θ
      _ ≤ _ := by rw [one_mul]; exact this
  have B2 : ∀ s > 0, ∀ θ, |(R^2 - r*R*cos θ) * (1 / √(dist2 r (z-s) R θ)^3)| ≤ ((R^2 + r*R) * (1/√c^3)) * (1 + (z-s)^2)⁻¹ := by
    intro s hs θ
    rw [abs_mul, mul_assoc (R^2 + r*R)]
    have h1 := (kernel_bounds hc (hlow s hs θ)).1
    have h2 : |R^2 - r*R*cos θ| ≤ R^2 + r*R := by
      have h3 := cos_le_one θ
      have h4 := neg_one_le_cos θ
      have h5 := mul_pos hr hR
      rw [abs_le]; constructor <;> nlinarith
    gcongr
  have M1 : Measurable (Function.uncurry fun s θ => cos θ * ((z-s) / √(dist2 r (z-s) R θ)^3)) := by
    unfold dist2; simp only [Function.uncurry_def]; fun_prop
  have M2 : Measurable (Function.uncurry fun s θ => (R^2 - r*R*cos θ) * (1 / √(dist2 r (z-s) R θ)^3)) := by
    unfold dist2; simp only [Function.uncurry_def]; fun_prop
  have S1 := sheet_swap M1 _ z B1
  have S2 := sheet_swap M2 _ z B2
  -- inner integrals along the wake
  have hD0 : ∀ θ, 0 < dist2 r 0 R θ := dist2_pos hr.le hR (hne 0)
  have hDz : ∀ θ, dist2 r 0 R θ + z^2 = dist2 r z R θ := fun θ => (dist2_zero r z R θ).symm
  have hDpos : ∀ θ, 0 < dist2 r z R θ := dist2_pos hr.le hR (hne z)
  have e1 : ∀ θ, ∫ s in Ioi (0:ℝ), cos θ * ((z-s) / √(dist2 r (z-s) R θ)^3)
      = (√(dist2 r z R θ) - (r^2+R^2+z^2) * (1 / √(dist2 r z R θ))) / (2*r*R) := by
    intro θ
    rw [MeasureTheory.integral_const_mul]
    simp only [fun s => dist2_zero r (z-s) R θ]
    rw [wake_int2 (hD0 θ), hDz]
    have hs := sqrt_pos.mpr (hDpos θ)
    have hq := sq_sqrt (hDpos θ).le
    have : √(dist2 r z R θ) = √(dist2 r z R θ)^2 * (1/√(dist2 r z R θ)) := by field_simp
    rw [show √(dist2 r z R θ) - (r^2+R^2+z^2) * (1 / √(dist2 r z R θ))
      = (√(dist2 r z R θ)^2 - (r^2+R^2+z^2)) * (1/√(dist2 r z R θ)) by rw [sub_mul, ← this], hq]
    have hn : dist2 r z R θ - (r^2+R^2+z^2) = -(2*r*R*cos θ) := by unfold dist2; ring
    rw [hn]
    field_simp
  have e2 : ∀ θ, ∫ s in Ioi (0:ℝ), (R^2 - r*R*cos θ) * (1 / √(dist2 r (z-s) R θ)^3)
      = 1/2 + (R^2-r^2)/2 * (1/dist2 r 0 R θ) + z/2 * (1/√(dist2 r z R θ))
        + z*(R^2-r^2)/2 * (1/(dist2 r 0 R θ * √(dist2 r z R θ))) := by
    intro θ
    rw [MeasureTheory.integral_const_mul]
    simp only [fun s => dist2_zero r (z-s) R θ]
    rw [wake_int1 (hD0 θ), hDz]
    have hs := sqrt_pos.mpr (hDpos θ)
    have hn : R^2 - r*R*cos θ = (dist2 r 0 R θ + (R^2-r^2))/2 := by unfold dist2; ring
    rw [hn]
    have := hD0 θ
    generalize dist2 r 0 R θ = D at *
    generalize √(dist2 r z R θ) = w at *
    field_simp
    ring
  simp only [e1] at S1
  simp only [e2] at S2
  have c0 : Continuous fun θ => √(dist2 r z R θ) := by unfold dist2; fun_prop
  have c1 : Continuous fun θ => 1/√(dist2 r z R θ) :=
    continuous_const.div c0 (fun θ => (sqrt_pos.mpr (hDpos θ)).ne')
  have c2 : Continuous fun θ => 1/dist2 r 0 R θ :=
    continuous_const.div (by unfold dist2; fun_prop) (fun θ => (hD0 θ).ne')
  have c3 : Continuous fun θ => 1/(dist2 r 0 R θ * √(dist2 r z R θ)) :=
    continuous_const.div ((by unfold dist2; fun_prop : Continuous fun θ => dist2 r 0 R θ).mul c0)
      (fun θ => (mul_pos (hD0 θ) (sqrt_pos.mpr (hDpos θ))).ne')
  have i : ∀ {f : ℝ → ℝ}, Continuous f → IntervalIntegrable f volume 0 (2*π) := fun hf => hf.intervalIntegrable _ _
  rw [intervalIntegral.integral_div, intervalIntegral.integral_sub (i c0) (i (c1.const_mul _)),
    intervalIntegral.integral_const_mul, ring_I0 hr.le hR, ring_I1 hr.le hR (hne z)] at S1
  rw [intervalIntegral.integral_add (i (by fun_prop)) (i (c3.const_mul _)),
    intervalIntegral.integral_add (i (by fun_prop)) (i (c1.const_mul _)),
    intervalIntegral.integral_add (i continuous_const) (i (c2.const_mul _)),
    intervalIntegral.integral_const_mul, intervalIntegral.integral_const_mul, intervalIntegral.integral_const_mul,
    ring_I1 hr.le hR (hne z), ring_Pi hr.le hR h, poisson_integral' hr.le hR.le h] at S2
  -- the field of each ring
  have hring : ∀ s, ringField γ R ((⟨r * cos ψ, r * sin ψ, z⟩ : V3 ℝ) - ⟨0, 0, s⟩) =
      ⟨γ/(4*π)*R*cos ψ * ∫ θ in (0:ℝ)..(2*π), cos θ * ((z-s) / √(dist2 r (z-s) R θ)^3),
       γ/(4*π)*R*sin ψ * ∫ θ in (0:ℝ)..(2*π), cos θ * ((z-s) / √(dist2 r (z-s) R θ)^3),
       γ/(4*π) * ∫ θ in (0:ℝ)..(2*π), (R^2 - r*R*cos θ) * (1 / √(dist2 r (z-s) R θ)^3)⟩ := by
    intro s
    have : ((⟨r * cos ψ, r * sin ψ, z⟩ : V3 ℝ) - ⟨0, 0, s⟩) = ⟨r * cos ψ, r * sin ψ, z - s⟩ := by
      ext <;> simp
    rw [this, ringField_reduce γ R r (z-s) ψ hr.le hR (hne _)]
    have f1 : ∀ θ, cos θ * ((z-s) / √(dist2 r (z-s) R θ)^3) = (z-s) * (cos θ / √(dist2 r (z-s) R θ)^3) := by
      intro θ; ring
    have f2 : ∀ θ, (R^2 - r*R*cos θ) * (1 / √(dist2 r (z-s) R θ)^3)
        = R^2 * (1 / √(dist2 r (z-s) R θ)^3) - r*R*(cos θ / √(dist2 r (z-s) R θ)^3) := by
      intro θ; ring
    simp only [f1, f2]
    rw [intervalIntegral.integral_sub (i ((cont_ring hr.le hR (hne _) _ continuous_const).const_mul _))
      (i ((cont_ring hr.le hR (hne _) _ continuous_cos).const_mul _))]
    simp only [intervalIntegral.integral_const_mul]
    ext <;> simp only <;> ring
  unfold cylinderField vint
  simp only [hring, MeasureTheory.integral_const_mul]
  rw [S1, S2]
  have hM := vcM_eq R r z
  have hN : vcN R r = 4*r*R/(r+R)^2 := by unfold vcN; rw [add_comm R r]
  have hS : √(vcM R r z) = 2 * √r * √R / √((r+R)^2+z^2) := by
    rw [hM, sqrt_div (by positivity), sqrt_mul (by positivity), sqrt_mul (by norm_num),
      show (4:ℝ) = 2^2 by norm_num, sqrt_sq (by norm_num)]
  have hA : r^2+R^2+z^2 = √((r+R)^2+z^2)^2 - 2*r*R := by rw [sq_sqrt hp2.le]; ring
  have hmm : 4*r*R = vcM R r z * √((r+R)^2+z^2)^2 := by rw [sq_sqrt hp2.le, hM]; field_simp
  have ha := sqrt_pos.mpr hp2
  have hur : γ/(4*π)*R * ((4 * √((r+R)^2+z^2) * ellE (4*r*R/((r+R)^2+z^2)) -
      (r^2+R^2+z^2) * (4 / √((r+R)^2+z^2) * ellK (4*r*R/((r+R)^2+z^2)))) / (2*r*R)) = vcUr γ R r z := by
    unfold vcUr
    rw [hA, ← hM, hS, sqrt_div hR.le]
    generalize ellK (vcM R r z) = K
    generalize ellE (vcM R r z) = E
    generalize vcM R r z = m at *
    generalize √((r+R)^2+z^2) = a at *
    have f1 := sq_sqrt hr.le
    have f2 := sq_sqrt hR.le
    have g1 := sqrt_pos.mpr hr
    have g2 := sqrt_pos.mpr hR
    generalize √r = p at *
    generalize √R = q at *
    have h2 : 2*r*R = m*a^2/2 := by linarith
    rw [h2, ← f2]
    have h3 : m = 4*p^2*q^2/a^2 := by rw [f1, f2]; field_simp; linarith
    rw [h3]
    field_simp
    ring
  have huz : γ/(4*π) * ((∫ θ in (0:ℝ)..(2*π), (1/2:ℝ)) + (R^2-r^2)/2 * (2*π/|R^2-r^2|) +
      z/2 * (4 / √((r+R)^2+z^2) * ellK (4*r*R/((r+R)^2+z^2))) +
      z*(R^2-r^2)/2 * (4 / ((r+R)^2 * √((r+R)^2+z^2)) * ellPi (4*r*R/(r+R)^2) (4*r*R/((r+R)^2+z^2))))
      = vcUz γ R r z (ellPi (vcN R r) (vcM R r z)) := by
    unfold vcUz
    rw [← hM, ← hN, hS, sqrt_mul hr.le]
    have hT : (R^2-r^2)/2 * (2*π/|R^2-r^2|) = 2*π*(vcT R r) - π := by
      unfold vcT
      rw [if_neg h]
      split_ifs with hlt
      · rw [abs_of_pos (by nlinarith)]
        have : R^2-r^2 ≠ 0 := by nlinarith
        field_simp; ring
      · have hgt : R < r := by
          rcases lt_trichotomy r R with h1 | h1 | h1
          · exact absurd h1 hlt
          · exact absurd h1 h
          · exact h1
        rw [abs_of_neg (by nlinarith)]
        have : R^2-r^2 ≠ 0 := by nlinarith
        rw [div_neg]; field_simp; ring
    rw [hT, intervalIntegral.integral_const, smul_eq_mul]
    generalize ellK (vcM R r z) = K
    generalize ellPi (vcN R r) (vcM R r z) = Q
    generalize √((r+R)^2+z^2) = a at *
    have g1 := sqrt_pos.mpr hr
    have g2 := sqrt_pos.mpr hR
    generalize √r = p at *
    generalize √R = q at *
    have hrR : r + R ≠ 0 := by positivity
    have e3 : R^2 - r^2 = (R-r)*(r+R) := by ring
    rw [e3, add_comm R r]
    field_simp
    ring
  ext
  · simp only; rw [← hur]; ring
  · simp only; rw [← hur]; ring
  · simp only; rw [← huz]

end Wiz
