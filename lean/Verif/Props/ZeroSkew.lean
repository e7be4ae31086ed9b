import Verif.Props.SkewedGround

/-!
# Properties C78–C79: zero skew, linearity and scaling of the skewed cylinder
-/
namespace Wiz
open Classical Set Filter Topology MeasureTheory Spec
open Real (pi_pos)

/-- at zero skew the wake elements are those of the straight cylinder -/
theorem zeroSkew_kernel (R θ s : ℝ) (P : V3 ℝ) :
    bsKernel (wakePoint R 0 θ s) (rimTangent R θ) P =
      bsKernel ⟨R * Real.cos θ, R * Real.sin θ, 0⟩ ⟨-R * Real.sin θ, R * Real.cos θ, 0⟩ (P - ⟨0, 0, s⟩) := by
  have e1 : P - wakePoint R 0 θ s = P - ⟨0, 0, s⟩ - ⟨R * Real.cos θ, R * Real.sin θ, 0⟩ := by
    unfold wakePoint rim skewDir; ext <;> simp
  have e2 : rimTangent R θ = ⟨-R * Real.sin θ, R * Real.cos θ, 0⟩ := by
    unfold rimTangent; ext <;> simp
  unfold bsKernel
  rw [e1, e2]

theorem offWake_zero {R : ℝ} (hR : 0 < R) {P : V3 ℝ} (h : OffWake R 0 P) : polarR P.x P.y ≠ R ∨ P.z < 0 := by
  by_contra hc
  push Not at hc
  obtain ⟨h1, h2⟩ := hc
  refine h (arctan2 P.y P.x) P.z h2 ?_
  unfold wakePoint rim skewDir
  ext
  · simp; rw [← h1, r_cos]
  · simp; rw [← h1, r_sin]
  · simp

/-- the kernel seen from `P`, in polar coordinates -/
theorem zeroSkew_eval (R θ s : ℝ) (P : V3 ℝ) :
    bsKernel (wakePoint R 0 θ s) (rimTangent R θ) P =
      V3.smul (1/(4*Real.pi) * (1 / √(dist2 (polarR P.x P.y) (P.z - s) R (θ - arctan2 P.y P.x))^3))
        ⟨R * Real.cos θ * (P.z - s), R * Real.sin θ * (P.z - s), R * (R - P.x * Real.cos θ - P.y * Real.sin θ)⟩ := by
  have e1 : P - wakePoint R 0 θ s = ⟨P.x - R * Real.cos θ, P.y - R * Real.sin θ, P.z - s⟩ := by
    unfold wakePoint rim skewDir; ext <;> simp
  have hn : V3.norm (⟨P.x - R * Real.cos θ, P.y - R * Real.sin θ, P.z - s⟩ : V3 ℝ)
      = √(dist2 (polarR P.x P.y) (P.z - s) R (θ - arctan2 P.y P.x)) := by
    unfold V3.norm dist2
    congr 1
    have h1 := r_cos P.x P.y
    have h2 := r_sin P.x P.y
    rw [Real.cos_sub]
    simp only
    generalize polarR P.x P.y = r at *
    generalize arctan2 P.y P.x = ψ at *
    have hh : P.x^2 + P.y^2 = r^2 := by rw [← h1, ← h2]; nlinarith [Real.sin_sq_add_cos_sq ψ]
    have := Real.sin_sq_add_cos_sq θ
    have e3 : 2*r*R*(Real.cos θ * Real.cos ψ + Real.sin θ * Real.sin ψ) = 2*R*(Real.cos θ * P.x + Real.sin θ * P.y) := by
      rw [← h1, ← h2]; ring
    rw [e3]
    linear_combination hh + R^2 * this
  unfold bsKernel
  rw [e1, hn]
  ext <;> simp only [V3.smul_x, V3.smul_y, V3.smul_z, V3.cross, rimTangent] <;> ring_nf
  have := Real.sin_sq_add_cos_sq θ
  rw [Real.cos_sq' θ]; ring

/-- exchange of the two integrations -/
theorem swap_turn {g : ℝ → ℝ → ℝ} (hg : Measurable (Function.uncurry g)) (C z : ℝ)
    (hb : ∀ s > 0, ∀ θ, |g s θ| ≤ C * (1 + (z - s)^2)⁻¹) :
    ∫ θ in Ioc 0 (2*Real.pi), ∫ s in Ioi (0:ℝ), g s θ = ∫ s in Ioi (0:ℝ), ∫ θ in Ioc 0 (2*Real.pi), g s θ :=
  (integral_integral_swap (sheet_integrable hg C z hb)).symm

/-- C78 (exact fields): the sheets of a wake without skew are those of the straight cylinder. -/
theorem C78_fields (γ R : ℝ) (hR : 0 < R) (P : V3 ℝ) (hoff : ∀ θ s, 0 ≤ s → P ≠ wakePoint R 0 θ s) :
    skewTangField γ R 0 P = cylinderField γ R P ∧ skewLongiField γ R 0 P = longiField γ R P := by
  constructor
  · obtain ⟨c, hc, hlow⟩ := dist2_lower (z := P.z) (Real.sqrt_nonneg (P.x^2 + P.y^2)) hR (offWake_zero hR hoff)
    have hk := fun s (hs : s > 0) θ => kernel_bounds hc (hlow s hs (θ - arctan2 P.y P.x))
    have hpi := pi_pos
    have hR0 := hR.le
    have hm : Measurable fun p : ℝ × ℝ => dist2 (polarR P.x P.y) (P.z - p.1) R (p.2 - arctan2 P.y P.x) := by
      unfold dist2; fun_prop
    have S : ∀ F : ℝ → ℝ → ℝ, (Measurable (Function.uncurry F)) → (∃ C, ∀ s > 0, ∀ θ, |F s θ| ≤ C * (1 + (P.z - s)^2)⁻¹) →
        ∫ θ in Ioc 0 (2*Real.pi), γ * ∫ s in Ioi (0:ℝ), F s θ = ∫ s in Ioi (0:ℝ), γ * ∫ θ in Ioc 0 (2*Real.pi), F s θ := by
      intro F hF ⟨C, hC⟩
      rw [integral_const_mul, integral_const_mul, swap_turn hF C P.z hC]
    unfold skewTangField cylinderField ringField biotSavart tangGenerator vint
    simp only [← zeroSkew_kernel, V3.smul_x, V3.smul_y, V3.smul_z]
    simp only [zeroSkew_eval, V3.smul_x, V3.smul_y, V3.smul_z]
    have b : ∀ (A B : ℝ), 0 ≤ A → |B| ≤ A → ∀ {D K : ℝ}, |D| ≤ K → |B * D| ≤ A * K := by
      intro A B hA hB D K hD
      rw [abs_mul]; exact mul_le_mul hB hD (abs_nonneg _) hA
    ext
    · refine S (fun s θ => 1/(4*Real.pi) * (1 / √(dist2 (polarR P.x P.y) (P.z - s) R (θ - arctan2 P.y P.x))^3) * (R * Real.cos θ * (P.z - s)))
        (by fun_prop) ⟨R/(4*Real.pi) * (1/√c^3), fun s hs θ => ?_⟩
      rw [show 1/(4*Real.pi) * (1 / √(dist2 (polarR P.x P.y) (P.z - s) R (θ - arctan2 P.y P.x))^3) * (R * Real.cos θ * (P.z - s))
        = (R/(4*Real.pi) * Real.cos θ) * ((P.z - s) / √(dist2 (polarR P.x P.y) (P.z - s) R (θ - arctan2 P.y P.x))^3) by ring]
      refine (b (R/(4*Real.pi)) _ (by positivity) ?_ (hk s hs θ).2).trans (le_of_eq ?_)
      · rw [abs_mul, abs_of_nonneg (by positivity)]
        exact mul_le_of_le_one_right (by positivity) (Real.abs_cos_le_one θ)
      · exact (mul_assoc _ _ _).symm
    · refine S (fun s θ => 1/(4*Real.pi) * (1 / √(dist2 (polarR P.x P.y) (P.z - s) R (θ - arctan2 P.y P.x))^3) * (R * Real.sin θ * (P.z - s)))
        (by fun_prop) ⟨R/(4*Real.pi) * (1/√c^3), fun s hs θ => ?_⟩
      rw [show 1/(4*Real.pi) * (1 / √(dist2 (polarR P.x P.y) (P.z - s) R (θ - arctan2 P.y P.x))^3) * (R * Real.sin θ * (P.z - s))
        = (R/(4*Real.pi) * Real.sin θ) * ((P.z - s) / √(dist2 (polarR P.x P.y) (P.z - s) R (θ - arctan2 P.y P.x))^3) by ring]
      refine (b (R/(4*Real.pi)) _ (by positivity) ?_ (hk s hs θ).2).trans (le_of_eq ?_)
      · rw [abs_mul, abs_of_nonneg (by positivity)]
        exact mul_le_of_le_one_right (by positivity) (Real.abs_sin_le_one θ)
      · exact (mul_assoc _ _ _).symm
    · refine S (fun s θ => 1/(4*Real.pi) * (1 / √(dist2 (polarR P.x P.y) (P.z - s) R (θ - arctan2 P.y P.x))^3) * (R * (R - P.x * Real.cos θ - P.y * Real.sin θ)))
        (by fun_prop) ⟨R/(4*Real.pi) * (R + |P.x| + |P.y|) * (1/√c^3), fun s hs θ => ?_⟩
      rw [show 1/(4*Real.pi) * (1 / √(dist2 (polarR P.x P.y) (P.z - s) R (θ - arctan2 P.y P.x))^3) * (R * (R - P.x * Real.cos θ - P.y * Real.sin θ))
        = (R/(4*Real.pi) * (R - P.x * Real.cos θ - P.y * Real.sin θ)) * (1 / √(dist2 (polarR P.x P.y) (P.z - s) R (θ - arctan2 P.y P.x))^3) by ring]
      refine (b (R/(4*Real.pi) * (R + |P.x| + |P.y|)) _ (by positivity) ?_ (hk s hs θ).1).trans (le_of_eq ?_)
      · rw [abs_mul, abs_of_nonneg (show 0 ≤ R/(4*Real.pi) by positivity)]
        apply mul_le_mul_of_nonneg_left _ (by positivity)
        have h1 : |P.x * Real.cos θ| ≤ |P.x| := by
          rw [abs_mul]; exact mul_le_of_le_one_right (abs_nonneg _) (Real.abs_cos_le_one θ)
        have h2 : |P.y * Real.sin θ| ≤ |P.y| := by
          rw [abs_mul]; exact mul_le_of_le_one_right (abs_nonneg _) (Real.abs_sin_le_one θ)
        rw [abs_le] at h1 h2 ⊢
        constructor <;> linarith [h1.1, h1.2, h2.1, h2.2]
      · exact (mul_assoc _ _ _).symm
  · unfold skewLongiField longiField longiGenerator biotSavart
    congr 1; funext θ
    have e1 : ∀ s, wakePoint R 0 θ s = ⟨R * Real.cos θ, R * Real.sin θ, s⟩ := by
      intro s; unfold wakePoint rim skewDir; ext <;> simp
    have e2 : skewDir 0 = ⟨0, 0, 1⟩ := by unfold skewDir; ext <;> simp
    simp only [e1, e2]
    ext <;> simp only [V3.smul_x, V3.smul_y, V3.smul_z] <;> ring

/-- C78: with zero skew the velocities returned by `svc_tang_u` and `svc_longi_u` converge, as `ntheta` grows, to the exact
Biot–Savart velocities of the straight cylinder (those that `vc_tang_u`, `vc_longi_u` evaluate, C47, C77). -/
theorem C78_converges (pts : List (V3 ℝ)) (γ R : ℝ) (hR : 0 < R) (i : ℕ) (P : V3 ℝ) (hi : pts[i]? = some P)
    (hoff : ∀ θ s, 0 ≤ s → P ≠ wakePoint R 0 θ s) :
    (∃ u : ℕ → V3 ℝ, (∀ n, (svcTang pts (.fin γ) R (.fin 0) (n+1) false)[i]? = some (V3.fin (u n))) ∧
      Tendsto (fun n => (u n).x) atTop (𝓝 (cylinderField γ R P).x) ∧ Tendsto (fun n => (u n).y) atTop (𝓝 (cylinderField γ R P).y) ∧
      Tendsto (fun n => (u n).z) atTop (𝓝 (cylinderField γ R P).z)) ∧
    (∃ u : ℕ → V3 ℝ, (∀ n, (svcLongi pts (.fin γ) R (.fin 0) (n+1) false)[i]? = some (V3.fin (u n))) ∧
      Tendsto (fun n => (u n).x) atTop (𝓝 (longiField γ R P).x) ∧ Tendsto (fun n => (u n).y) atTop (𝓝 (longiField γ R P).y) ∧
      Tendsto (fun n => (u n).z) atTop (𝓝 (longiField γ R P).z)) := by
  obtain ⟨⟨u, h1, h2⟩, ⟨v, k1, k2⟩⟩ := C65_converges (toPolarPt P) γ R 0 hR (by rw [polarPoint_toPolarPt]; exact hoff)
  rw [polarPoint_toPolarPt, (C78_fields γ R hR P hoff).1] at h2
  rw [polarPoint_toPolarPt, (C78_fields γ R hR P hoff).2] at k2
  refine ⟨⟨u, fun n => ?_, h2⟩, ⟨v, fun n => ?_, k2⟩⟩
  · unfold svcTang; rw [List.getElem?_map, hi, Option.map_some, h1 n]
  · unfold svcLongi; rw [List.getElem?_map, hi, Option.map_some, k1 n]

/-- non-vacuity: a point inside the wake -/
example : ∀ θ s, 0 ≤ s → (⟨0*3, 0, 3⟩ : V3 ℝ) ≠ wakePoint 1 0 θ s := offWake_axis 1 0 3 one_pos

end Wiz
