import Verif.Lemmas.RingExpand
import Verif.Props.RingStack
import Mathlib.Analysis.Real.Pi.Bounds
/-! # The wake of vortex rings seen from afar: a line of doublets -/
namespace Wiz
open Spec Real MeasureTheory Set

/-- the skewed sheet as a superposition of its rings -/
theorem sheet_rings {γ R m : ℝ} {P : V3 ℝ} (hoff : OffWake R m P) (π' : V3 ℝ → ℝ) (hπ : π' = V3.x ∨ π' = V3.y ∨ π' = V3.z) :
    IntegrableOn (fun z => π' (ringField (γ * √(1+m^2)) R (P - ⟨m*z, 0, z⟩))) (Ioi 0) ∧
    π' (skewTangField γ R m P) = ∫ z in Ioi 0, π' (ringField (γ * √(1+m^2)) R (P - ⟨m*z, 0, z⟩)) := by
  have hc : 0 < √(1 + m^2) := by positivity
  obtain ⟨hk, B, hB⟩ := tangKernel_bound hoff π' hπ
  have hlin : ∀ (a : ℝ) (v : V3 ℝ), π' (V3.smul a v) = a * π' v := by
    rcases hπ with rfl | rfl | rfl <;> intros <;> rfl
  have hint : ∀ (S : Set ℝ) (f : ℝ → V3 ℝ), π' (vint S f) = ∫ s in S, π' (f s) := by
    rcases hπ with rfl | rfl | rfl <;> intros <;> rfl
  set k : ℝ → ℝ → ℝ := fun θ s => π' (bsKernel (wakePoint R m θ s) (rimTangent R θ) P) with hkdef
  have hF : π' (skewTangField γ R m P) = γ * ∫ θ in Ioc 0 (2*π), ∫ s in Ioi 0, k θ s := by
    unfold skewTangField tangGenerator
    simp only [hint, hlin]
    rw [integral_const_mul]
  have hdec : IntegrableOn (fun s : ℝ => B / (1 + s^2)) (Ioi 0) := by
    have := (integrable_inv_one_add_sq.const_mul B).integrableOn (s := Ioi 0)
    simpa [div_eq_mul_inv] using this
  have hprod : Integrable (Function.uncurry k) ((volume.restrict (Ioc 0 (2*π))).prod (volume.restrict (Ioi 0))) := by
    have hint : Integrable (fun p : ℝ × ℝ => (1:ℝ) * (B / (1 + p.2^2))) ((volume.restrict (Ioc 0 (2*π))).prod (volume.restrict (Ioi 0))) :=
      Integrable.mul_prod (f := fun _ => (1:ℝ)) (g := fun s : ℝ => B / (1 + s^2)) (by simp) hdec
    refine hint.mono' ?_ ?_
    · rw [Measure.prod_restrict]
      exact (hk.mono (prod_mono (subset_univ _) Ioi_subset_Ici_self)).aestronglyMeasurable (measurableSet_Ioc.prod measurableSet_Ioi)
    · rw [Measure.prod_restrict]
      refine (ae_restrict_mem (measurableSet_Ioc.prod measurableSet_Ioi)).mono fun p hp => ?_
      rw [Real.norm_eq_abs, one_mul]
      exact hB p.1 p.2 (mem_Ioi.mp hp.2).le
  set G : ℝ → ℝ := fun s => ∫ θ in Ioc 0 (2*π), k θ s with hG
  have hswap : ∫ θ in Ioc 0 (2*π), ∫ s in Ioi 0, k θ s = ∫ s in Ioi 0, G s := integral_integral_swap hprod
  have hGi : IntegrableOn G (Ioi 0) := hprod.integral_prod_right
  have hGci : IntegrableOn (fun z => √(1+m^2) * G (√(1+m^2) * z)) (Ioi 0) := by
    have := (integrableOn_Ioi_comp_mul_left_iff G 0 hc).mpr (by rwa [mul_zero])
    exact this.const_mul _
  have hcv : ∫ z in Ioi 0, √(1+m^2) * G (√(1+m^2) * z) = ∫ s in Ioi 0, G s := by
    rw [integral_const_mul, integral_comp_mul_left_Ioi G 0 hc, mul_zero, smul_eq_mul, ← mul_assoc, mul_inv_cancel₀ hc.ne', one_mul]
  have e : (fun z => π' (ringField (γ * √(1+m^2)) R (P - ⟨m*z, 0, z⟩))) = fun z => γ * (√(1+m^2) * G (√(1+m^2) * z)) := by
    funext z
    have := ringField_smul (γ * √(1+m^2)) 1 R (P - ⟨m * z, 0, z⟩)
    rw [mul_one] at this
    rw [this, hlin, ring_of_sheet, hint]
    ring
  rw [e, hF, hswap, ← hcv]
  exact ⟨hGci.const_mul γ, (integral_const_mul _ _).symm⟩

theorem doublet_shift (mom X0 P : V3 ℝ) : doubletField mom X0 P = doubletField mom 0 (P - X0) := by
  unfold doubletField
  have : P - X0 - 0 = P - X0 := by ext <;> simp
  simp only [this]

/-- distances to the points of the axis of the wake -/
theorem axis_far {m δ : ℝ} {P : V3 ℝ} (hδ : 0 < δ) (h : ∀ z, 0 ≤ z → δ ≤ V3.norm (P - ⟨m*z, 0, z⟩)) :
    ∃ z0, ∀ z, 0 ≤ z → δ^2 + (z - z0)^2 ≤ V3.norm (P - ⟨m*z, 0, z⟩)^2 := by
  have e : ∀ z, V3.norm (P - ⟨m*z, 0, z⟩)^2 = (P.x - m*z)^2 + P.y^2 + (P.z - z)^2 := by
    intro z
    unfold V3.norm
    rw [sq_sqrt (by positivity)]
    simp only [V3.sub_x, V3.sub_y, V3.sub_z, sub_zero]
  have h' : ∀ z, 0 ≤ z → δ^2 ≤ (P.x - m*z)^2 + P.y^2 + (P.z - z)^2 := by
    intro z hz
    rw [← e]
    have := h z hz
    gcongr
  simp only [e]
  by_cases hs : 0 ≤ m*P.x + P.z
  · have hm : 0 < 1 + m^2 := by positivity
    refine ⟨(m*P.x + P.z)/(1+m^2), fun z _ => ?_⟩
    have h1 := h' ((m*P.x + P.z)/(1+m^2)) (by positivity)
    have e2 : (P.x - m*z)^2 + P.y^2 + (P.z - z)^2 = (P.x - m*((m*P.x + P.z)/(1+m^2)))^2 + P.y^2 + (P.z - (m*P.x + P.z)/(1+m^2))^2
        + (1+m^2) * (z - (m*P.x + P.z)/(1+m^2))^2 := by
      field_simp; ring
    rw [e2]
    nlinarith [sq_nonneg (z - (m*P.x + P.z)/(1+m^2)), sq_nonneg (m * (z - (m*P.x + P.z)/(1+m^2)))]
  · refine ⟨0, fun z hz => ?_⟩
    have h1 := h' 0 le_rfl
    push Not at hs
    simp only [mul_zero, sub_zero] at h1 ⊢
    nlinarith [mul_nonneg hz (neg_pos.mpr hs).le, sq_nonneg (m*z)]

theorem offWake_far {R m δ : ℝ} {P : V3 ℝ} (hR : 0 < R) (hδ : 5*R ≤ δ) (h : ∀ z, 0 ≤ z → δ ≤ V3.norm (P - ⟨m*z, 0, z⟩)) : OffWake R m P := by
  intro θ s hs he
  have hc : 0 < √(1 + m^2) := by positivity
  have h1 := h (s/√(1+m^2)) (by positivity)
  have : P - ⟨m * (s/√(1+m^2)), 0, s/√(1+m^2)⟩ = rim R θ := by
    rw [he]
    ext <;> simp [wakePoint, rim, skewDir]
    · field_simp; ring
    · field_simp; ring
  rw [this] at h1
  have h2 : V3.norm (rim R θ) = R := by
    unfold V3.norm rim
    simp only
    rw [show (R * cos θ)^2 + (R * sin θ)^2 + 0^2 = R^2 by linear_combination R^2 * (sin_sq_add_cos_sq θ), sqrt_sq hR.le]
  rw [h2] at h1
  linarith

theorem integral_shift_inv {δ z0 : ℝ} (hδ : 0 < δ) : Integrable (fun z : ℝ => (δ^2 + (z - z0)^2)⁻¹) ∧ ∫ z : ℝ, (δ^2 + (z - z0)^2)⁻¹ = π/δ := by
  have e : (fun z : ℝ => (δ^2 + (z - z0)^2)⁻¹) = fun z => (fun t : ℝ => (δ^2)⁻¹ * (1 + (δ⁻¹ * t)^2)⁻¹) (z - z0) := by
    funext z
    simp only
    rw [← mul_inv]; congr 1; field_simp
  have i1 : Integrable fun t : ℝ => (1 + (δ⁻¹ * t)^2)⁻¹ := (integrable_inv_one_add_sq).comp_mul_left' (inv_ne_zero hδ.ne')
  constructor
  · rw [e]; exact (i1.const_mul _).comp_sub_right z0
  · rw [e, integral_sub_right_eq_self (fun t : ℝ => (δ^2)⁻¹ * (1 + (δ⁻¹ * t)^2)⁻¹) z0, integral_const_mul, Measure.integral_comp_mul_left (fun t => (1 + t^2)⁻¹) δ⁻¹, integral_univ_inv_one_add_sq, inv_inv, abs_of_pos hδ, smul_eq_mul]
    field_simp

/-- The velocity of the skewed cylinder at a point whose distance to the axis of the wake is at least `δ ≥ 5R` is that of
a line of doublets of moment `γ π R² √(1+m²)` per unit height, up to `126 |γ| √(1+m²) (R/δ)³`. -/
theorem sheet_far (γ : ℝ) {R m δ : ℝ} {P : V3 ℝ} (hR : 0 < R) (hδ : 5*R ≤ δ) (h : ∀ z, 0 ≤ z → δ ≤ V3.norm (P - ⟨m*z, 0, z⟩))
    (π' : V3 ℝ → ℝ) (hπ : π' = V3.x ∨ π' = V3.y ∨ π' = V3.z) :
    |π' (skewTangField γ R m P) - π' (vint (Ioi 0) fun z => doubletField ⟨0, 0, γ * √(1+m^2) * (π*R^2)⟩ ⟨m*z, 0, z⟩ P)|
      ≤ 126 * (|γ| * √(1+m^2)) * (R/δ)^3 := by
  have hδ0 : 0 < δ := by linarith
  have hoff := offWake_far hR hδ h
  obtain ⟨hi, he⟩ := sheet_rings (γ := γ) hoff π' hπ
  have hint : ∀ (S : Set ℝ) (f : ℝ → V3 ℝ), π' (vint S f) = ∫ s in S, π' (f s) := by
    rcases hπ with rfl | rfl | rfl <;> intros <;> rfl
  obtain ⟨z0, hz0⟩ := axis_far hδ0 h
  set Γ := γ * √(1+m^2) with hΓ
  have hΓa : |Γ| = |γ| * √(1+m^2) := by rw [hΓ, abs_mul, abs_of_pos (by positivity : 0 < √(1+m^2))]
  obtain ⟨ib, vb⟩ := integral_shift_inv (z0 := z0) hδ0
  have hdiff : ∀ z ∈ Ioi (0:ℝ), |π' (ringField Γ R (P - ⟨m*z, 0, z⟩)) - π' (doubletField ⟨0, 0, Γ * (π*R^2)⟩ ⟨m*z, 0, z⟩ P)|
      ≤ 40 * |Γ| * (R^3/δ^2) * (δ^2 + (z - z0)^2)⁻¹ := by
    intro z hz
    have hz' : 0 ≤ z := (mem_Ioi.mp hz).le
    have h1 := h z hz'
    have h2 := hz0 z hz'
    rw [doublet_shift]
    have hd2 : V3.norm (P - ⟨m*z, 0, z⟩)^2 = (P - ⟨m*z, 0, z⟩ : V3 ℝ).x^2 + (P - ⟨m*z, 0, z⟩ : V3 ℝ).y^2 + (P - ⟨m*z, 0, z⟩ : V3 ℝ).z^2 := by
      unfold V3.norm; rw [sq_sqrt (by positivity)]
    obtain ⟨k1, k2, k3⟩ := ring_far Γ hR (hδ.trans h1) hd2
    have hb : 40 * |Γ| * (R^3/V3.norm (P - ⟨m*z, 0, z⟩)^4) ≤ 40 * |Γ| * (R^3/δ^2) * (δ^2 + (z - z0)^2)⁻¹ := by
      generalize V3.norm (P - ⟨m*z, 0, z⟩) = d at *
      have hd0 : 0 < d := by linarith
      have : δ^2 * (δ^2 + (z-z0)^2) ≤ d^4 := by
        calc δ^2 * (δ^2 + (z-z0)^2) ≤ d^2 * d^2 := by gcongr
          _ = d^4 := by ring
      calc 40 * |Γ| * (R^3/d^4) ≤ 40 * |Γ| * (R^3/(δ^2 * (δ^2 + (z-z0)^2))) := by gcongr
        _ = 40 * |Γ| * (R^3/δ^2) * (δ^2 + (z - z0)^2)⁻¹ := by field_simp
    rcases hπ with rfl | rfl | rfl
    · exact k1.trans hb
    · exact k2.trans hb
    · exact k3.trans hb
  have hbi : IntegrableOn (fun z => 40 * |Γ| * (R^3/δ^2) * (δ^2 + (z - z0)^2)⁻¹) (Ioi 0) := (ib.const_mul _).integrableOn
  have hcd : ContinuousOn (fun z => π' (doubletField ⟨0, 0, Γ * (π*R^2)⟩ ⟨m*z, 0, z⟩ P)) (Ioi 0) := by
    have hn : Continuous fun z : ℝ => V3.norm (P - ⟨m*z, 0, z⟩) := by
      unfold V3.norm; simp only [V3.sub_x, V3.sub_y, V3.sub_z]; fun_prop
    have hn5 : ContinuousOn (fun z : ℝ => (V3.norm (P - ⟨m*z, 0, z⟩)^5)⁻¹) (Ioi 0) :=
      (hn.pow 5).continuousOn.inv₀ fun z hz => (pow_pos (lt_of_lt_of_le hδ0 (h z (mem_Ioi.mp hz).le)) 5).ne'
    have hn3 : ContinuousOn (fun z : ℝ => (V3.norm (P - ⟨m*z, 0, z⟩)^3)⁻¹) (Ioi 0) :=
      (hn.pow 3).continuousOn.inv₀ fun z hz => (pow_pos (lt_of_lt_of_le hδ0 (h z (mem_Ioi.mp hz).le)) 3).ne'
    rcases hπ with rfl | rfl | rfl <;>
    · simp only [doubletField, V3.smul_x, V3.smul_y, V3.smul_z, V3.sub_x, V3.sub_y, V3.sub_z, V3.dot, div_eq_mul_inv]
      fun_prop
  have hi2 : IntegrableOn (fun z => π' (doubletField ⟨0, 0, Γ * (π*R^2)⟩ ⟨m*z, 0, z⟩ P)) (Ioi 0) := by
    refine Integrable.mono' (hi.norm.add hbi) (hcd.aestronglyMeasurable measurableSet_Ioi) ?_
    refine (ae_restrict_mem measurableSet_Ioi).mono fun z hz => ?_
    have := hdiff z hz
    simp only [Pi.add_apply, Real.norm_eq_abs]
    have t := abs_sub_abs_le_abs_sub (π' (doubletField ⟨0, 0, Γ * (π*R^2)⟩ ⟨m*z, 0, z⟩ P)) (π' (ringField Γ R (P - ⟨m*z, 0, z⟩)))
    rw [abs_sub_comm] at t
    linarith
  rw [he, hint, ← integral_sub hi hi2]
  have := norm_integral_le_of_norm_le hbi ((ae_restrict_mem measurableSet_Ioi).mono fun z hz => by
    have := hdiff z hz
    rwa [← Real.norm_eq_abs] at this)
  rw [Real.norm_eq_abs] at this
  refine this.trans ?_
  have hle : ∫ z in Ioi 0, 40 * |Γ| * (R^3/δ^2) * (δ^2 + (z - z0)^2)⁻¹ ≤ ∫ z, 40 * |Γ| * (R^3/δ^2) * (δ^2 + (z - z0)^2)⁻¹ :=
    setIntegral_le_integral (ib.const_mul _) (Filter.Eventually.of_forall fun z => by positivity)
  refine hle.trans ?_
  rw [integral_const_mul, vb, hΓa]
  have hpi : π ≤ 3.15 := by have := pi_lt_d2; linarith
  calc 40 * (|γ| * √(1+m^2)) * (R^3/δ^2) * (π/δ) = 40 * π * (|γ| * √(1+m^2)) * (R/δ)^3 := by field_simp
    _ ≤ 40 * 3.15 * (|γ| * √(1+m^2)) * (R/δ)^3 := by gcongr
    _ = 126 * (|γ| * √(1+m^2)) * (R/δ)^3 := by norm_num
end Wiz
