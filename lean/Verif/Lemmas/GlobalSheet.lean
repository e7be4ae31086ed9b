import Verif.Spec.YawedFarm
import Verif.Props.SkewAccuracy
import Verif.Lemmas.FlowTurbine
import Verif.Lemmas.RotorDisk

/-! # The skewed sheet in global axes -/
set_option autoImplicit false
namespace Wiz
open Spec Real Classical MeasureTheory Set
noncomputable section

/-- `v×s`, `v`, `s` form a basis -/
theorem axes_expand (v s : V3 ℝ) (hv : V3.dot v v = 1) (hs : V3.dot s s = 1) (ho : V3.dot v s = 0) (w : V3 ℝ) :
    fromAxes (V3.cross v s) v s ⟨V3.dot w (V3.cross v s), V3.dot w v, V3.dot w s⟩ = w := by
  have hc : V3.dot (V3.cross v s) (V3.cross v s) = 1 := by
    unfold V3.dot V3.cross at *
    linear_combination (s.x*s.x+s.y*s.y+s.z*s.z)*hv + hs - (v.x*s.x+v.y*s.y+v.z*s.z)*ho
  have hcv : V3.dot (V3.cross v s) v = 0 := by unfold V3.dot V3.cross; ring
  have hcs : V3.dot (V3.cross v s) s = 0 := by unfold V3.dot V3.cross; ring
  have ho' : V3.dot s v = 0 := by rw [dot_comm]; exact ho
  have key := expand_frame v s (w - fromAxes (V3.cross v s) v s ⟨V3.dot w (V3.cross v s), V3.dot w v, V3.dot w s⟩) hv hs ho'
  have e1 : V3.dot (w - fromAxes (V3.cross v s) v s ⟨V3.dot w (V3.cross v s), V3.dot w v, V3.dot w s⟩) (V3.cross v s) = 0 := by
    generalize V3.cross v s = a at *
    unfold fromAxes
    simp only [V3.dot, V3.add_x, V3.add_y, V3.add_z, V3.smul_x, V3.smul_y, V3.smul_z, V3.sub_x, V3.sub_y, V3.sub_z] at *
    linear_combination -(w.x*a.x+w.y*a.y+w.z*a.z)*hc - (w.x*v.x+w.y*v.y+w.z*v.z)*hcv - (w.x*s.x+w.y*s.y+w.z*s.z)*hcs
  have e2 : V3.dot (w - fromAxes (V3.cross v s) v s ⟨V3.dot w (V3.cross v s), V3.dot w v, V3.dot w s⟩) v = 0 := by
    generalize V3.cross v s = a at *
    unfold fromAxes
    simp only [V3.dot, V3.add_x, V3.add_y, V3.add_z, V3.smul_x, V3.smul_y, V3.smul_z, V3.sub_x, V3.sub_y, V3.sub_z] at *
    linear_combination -(w.x*a.x+w.y*a.y+w.z*a.z)*hcv - (w.x*v.x+w.y*v.y+w.z*v.z)*hv - (w.x*s.x+w.y*s.y+w.z*s.z)*ho'
  have e3 : V3.dot (w - fromAxes (V3.cross v s) v s ⟨V3.dot w (V3.cross v s), V3.dot w v, V3.dot w s⟩) s = 0 := by
    generalize V3.cross v s = a at *
    unfold fromAxes
    simp only [V3.dot, V3.add_x, V3.add_y, V3.add_z, V3.smul_x, V3.smul_y, V3.smul_z, V3.sub_x, V3.sub_y, V3.sub_z] at *
    linear_combination -(w.x*a.x+w.y*a.y+w.z*a.z)*hcs - (w.x*v.x+w.y*v.y+w.z*v.z)*ho - (w.x*s.x+w.y*s.y+w.z*s.z)*hs
  rw [e1, e2, e3] at key
  have := dot_self_eq_zero.1 (by rw [key]; ring)
  have hx := congrArg V3.x this
  have hy := congrArg V3.y this
  have hz := congrArg V3.z this
  simp only [V3.sub_x, V3.sub_y, V3.sub_z, V3.zero_x, V3.zero_y, V3.zero_z] at hx hy hz
  ext <;> linarith

theorem axes_norm (v s : V3 ℝ) (hv : V3.dot v v = 1) (hs : V3.dot s s = 1) (ho : V3.dot v s = 0) (w : V3 ℝ) :
    V3.norm (fromAxes (V3.cross v s) v s w) = V3.norm w := by
  have hc : V3.dot (V3.cross v s) (V3.cross v s) = 1 := by
    unfold V3.dot V3.cross at *
    linear_combination (s.x*s.x+s.y*s.y+s.z*s.z)*hv + hs - (v.x*s.x+v.y*s.y+v.z*s.z)*ho
  have hcv : V3.dot (V3.cross v s) v = 0 := by unfold V3.dot V3.cross; ring
  have hcs : V3.dot (V3.cross v s) s = 0 := by unfold V3.dot V3.cross; ring
  unfold V3.norm
  congr 1
  generalize V3.cross v s = a at *
  unfold fromAxes
  simp only [V3.dot, V3.add_x, V3.add_y, V3.add_z, V3.smul_x, V3.smul_y, V3.smul_z] at *
  linear_combination w.x^2*hc + w.y^2*hv + w.z^2*hs + 2*w.x*w.y*hcv + 2*w.x*w.z*hcs + 2*w.y*w.z*ho

theorem axes_cross (v s : V3 ℝ) (hv : V3.dot v v = 1) (hs : V3.dot s s = 1) (ho : V3.dot v s = 0) (w z : V3 ℝ) :
    V3.cross (fromAxes (V3.cross v s) v s w) (fromAxes (V3.cross v s) v s z) = fromAxes (V3.cross v s) v s (V3.cross w z) := by
  have h1 : V3.cross s (V3.cross v s) = v := by
    unfold V3.dot V3.cross at *
    ext <;> simp
    · linear_combination v.x * hs - s.x * ho
    · linear_combination v.y * hs - s.y * ho
    · linear_combination v.z * hs - s.z * ho
  have h2 : V3.cross (V3.cross v s) v = s := by
    unfold V3.dot V3.cross at *
    ext <;> simp
    · linear_combination s.x * hv - v.x * ho
    · linear_combination s.y * hv - v.y * ho
    · linear_combination s.z * hv - v.z * ho
  have h3 : V3.cross v s = V3.cross v s := rfl
  generalize ha : V3.cross v s = a at *
  have bil : V3.cross (fromAxes a v s w) (fromAxes a v s z) = V3.smul (w.x*z.y - w.y*z.x) (V3.cross a v) + V3.smul (w.y*z.z - w.z*z.y) (V3.cross v s) +
      V3.smul (w.z*z.x - w.x*z.z) (V3.cross s a) := by
    unfold fromAxes V3.cross
    ext <;> simp <;> ring
  rw [bil, h1, h2, ha]
  unfold fromAxes V3.cross
  ext <;> simp <;> ring

theorem fromAxes_smul (a b s v : V3 ℝ) (k : ℝ) : fromAxes a b s (V3.smul k v) = V3.smul k (fromAxes a b s v) := by
  unfold fromAxes; ext <;> simp <;> ring
theorem fromAxes_sub (a b s u v : V3 ℝ) : fromAxes a b s (u - v) = fromAxes a b s u - fromAxes a b s v := by
  unfold fromAxes; ext <;> simp <;> ring

/-- the Biot–Savart law does not depend on the axes -/
theorem bsKernel_axes (v s : V3 ℝ) (hv : V3.dot v v = 1) (hs : V3.dot s s = 1) (ho : V3.dot v s = 0) (c p X T : V3 ℝ) :
    bsKernel (c + fromAxes (V3.cross v s) v s X) (fromAxes (V3.cross v s) v s T) p =
      fromAxes (V3.cross v s) v s (bsKernel X T (inRotor c v s p)) := by
  have e : p - (c + fromAxes (V3.cross v s) v s X) = fromAxes (V3.cross v s) v s (inRotor c v s p - X) := by
    rw [fromAxes_sub]
    have := axes_expand v s hv hs ho (p - c)
    change fromAxes (V3.cross v s) v s (inRotor c v s p) = p - c at this
    rw [this]
    ext <;> simp <;> ring
  unfold bsKernel
  rw [e, axes_norm v s hv hs ho, axes_cross v s hv hs ho, fromAxes_smul]

/-- integrals of vectors do not depend on the axes -/
theorem vint_axes (S : Set ℝ) (f : ℝ → V3 ℝ) (a b s : V3 ℝ) (hx : IntegrableOn (fun t => (f t).x) S) (hy : IntegrableOn (fun t => (f t).y) S)
    (hz : IntegrableOn (fun t => (f t).z) S) : vint S (fun t => fromAxes a b s (f t)) = fromAxes a b s (vint S f) := by
  have key : ∀ k l m : ℝ, ∫ t in S, (f t).x * k + (f t).y * l + (f t).z * m = (∫ t in S, (f t).x) * k + (∫ t in S, (f t).y) * l + (∫ t in S, (f t).z) * m := by
    intro k l m
    have h1 : Integrable (fun t => (f t).x * k + (f t).y * l) (volume.restrict S) := (hx.mul_const k).add (hy.mul_const l)
    rw [integral_add h1 (hz.mul_const m), integral_add (hx.mul_const k) (hy.mul_const l),
      integral_mul_const, integral_mul_const, integral_mul_const]
  unfold vint fromAxes
  ext
  · exact key a.x b.x s.x
  · exact key a.y b.y s.y
  · exact key a.z b.z s.z

/-- the kernel of the sheet is integrable along the wake and around it -/
theorem wake_integrable (k : ℝ → ℝ → ℝ) (hm : Measurable (Function.uncurry k)) (B : ℝ → ℝ) (hB : IntegrableOn B (Ioi 0))
    (hb : ∀ s > 0, ∀ θ, |k θ s| ≤ B s) :
    (∀ θ, IntegrableOn (fun s => k θ s) (Ioi 0)) ∧ IntegrableOn (fun θ => ∫ s in Ioi 0, k θ s) (Ioc 0 (2*π)) := by
  have hint : ∀ θ, IntegrableOn (fun s => k θ s) (Ioi 0) := by
    intro θ
    refine hB.mono' (hm.comp measurable_prodMk_left).aestronglyMeasurable ?_
    refine (ae_restrict_iff' measurableSet_Ioi).mpr (Filter.Eventually.of_forall fun s hs => ?_)
    exact hb s hs θ
  have hprod : Integrable (Function.uncurry k) ((volume.restrict (Ioc 0 (2*π))).prod (volume.restrict (Ioi 0))) := by
    have h2 : Integrable (fun p : ℝ × ℝ => (1:ℝ) * B p.2) ((volume.restrict (Ioc 0 (2*π))).prod (volume.restrict (Ioi 0))) :=
      Integrable.mul_prod (integrable_const 1) hB
    refine h2.mono' hm.aestronglyMeasurable ?_
    rw [Measure.prod_restrict]
    refine (ae_restrict_iff' (measurableSet_Ioc.prod measurableSet_Ioi)).mpr (Filter.Eventually.of_forall ?_)
    rintro ⟨θ, s⟩ ⟨-, hs⟩
    simpa using hb s hs θ
  exact ⟨hint, hprod.integral_prod_left⟩

theorem cross_norm_le (a b : V3 ℝ) : V3.norm (V3.cross a b) ≤ V3.norm a * V3.norm b := by
  have ha := norm_sq' a
  have hb := norm_sq' b
  have na : 0 ≤ V3.norm a := Real.sqrt_nonneg _
  have nb : 0 ≤ V3.norm b := Real.sqrt_nonneg _
  unfold V3.norm at *
  rw [Real.sqrt_le_left (by positivity), mul_pow, ha, hb]
  simp only [V3.cross]
  nlinarith [sq_nonneg (a.x*b.x + a.y*b.y + a.z*b.z)]

theorem rimTangent_norm (R θ : ℝ) (hR : 0 ≤ R) : V3.norm (rimTangent R θ) = R := by
  unfold V3.norm rimTangent
  rw [show (-(R * sin θ))^2 + (R * cos θ)^2 + 0^2 = R^2 by linear_combination R^2 * sin_sq_add_cos_sq θ, Real.sqrt_sq hR]

theorem kernel_norm (X T P : V3 ℝ) (h : 0 < V3.norm (P - X)) : V3.norm (bsKernel X T P) ≤ 1/(4*π) * V3.norm T * (V3.norm (P - X))⁻¹^2 := by
  have e : V3.norm (bsKernel X T P) = 1 / (4 * π) * (1 / V3.norm (P - X) ^ 3) * V3.norm (V3.cross T (P - X)) := by
    unfold bsKernel
    have hk : 0 ≤ 1 / (4 * π) * (1 / V3.norm (P - X) ^ 3) := by have := pi_pos; positivity
    generalize 1 / (4 * π) * (1 / V3.norm (P - X) ^ 3) = k at *
    generalize V3.cross T (P - X) = c
    unfold V3.norm
    simp only [V3.smul_x, V3.smul_y, V3.smul_z]
    rw [show (k * c.x)^2 + (k * c.y)^2 + (k * c.z)^2 = k^2 * (c.x^2 + c.y^2 + c.z^2) by ring, Real.sqrt_mul (by positivity), Real.sqrt_sq hk]
  rw [e]
  have hc := cross_norm_le T (P - X)
  have hp := pi_pos
  calc 1 / (4 * π) * (1 / V3.norm (P - X) ^ 3) * V3.norm (V3.cross T (P - X)) ≤ 1 / (4 * π) * (1 / V3.norm (P - X) ^ 3) * (V3.norm T * V3.norm (P - X)) := by gcongr
    _ = _ := by field_simp

/-- the velocity of a wake in the axes of the farm, from that in the axes of the rotor -/
theorem sheetFlow_axes (γ R D χ : ℝ) (hR : 0 ≤ R) (hD : 0 < D) (c v s p : V3 ℝ) (hv : V3.dot v v = 1) (hs : V3.dot s s = 1) (ho : V3.dot v s = 0)
    (hχ : 0 < cos χ) (d : V3 ℝ) (hd : d = V3.smul (sin χ) (V3.cross v s) + V3.smul (cos χ) s) (hcl : Clear D R c v s d p) :
    (∀ θ t, 0 ≤ t → D ≤ V3.norm (inRotor c v s p - wakePoint R (tan χ) θ t)) ∧
    sheetFlow γ R c v s d p = fromAxes (V3.cross v s) v s (skewTangField γ R (tan χ) (inRotor c v s p)) := by
  have hX : ∀ θ t, sheetPoint R c v s d θ t = c + fromAxes (V3.cross v s) v s (wakePoint R (tan χ) θ t) := by
    intro θ t
    unfold sheetPoint wakePoint rim
    rw [skewDir_tan hχ, hd]
    unfold fromAxes
    ext <;> simp <;> ring
  have hT : ∀ θ, sheetTangent R v s θ = fromAxes (V3.cross v s) v s (rimTangent R θ) := by
    intro θ
    unfold sheetTangent rimTangent fromAxes
    ext <;> simp
  have hE : ∀ X, p - (c + fromAxes (V3.cross v s) v s X) = fromAxes (V3.cross v s) v s (inRotor c v s p - X) := by
    intro X
    rw [fromAxes_sub]
    have := axes_expand v s hv hs ho (p - c)
    change fromAxes (V3.cross v s) v s (inRotor c v s p) = p - c at this
    rw [this]
    ext <;> simp <;> ring
  have hdist : ∀ θ t, 0 ≤ t → D ≤ V3.norm (inRotor c v s p - wakePoint R (tan χ) θ t) := by
    intro θ t ht
    have := hcl θ t ht
    rw [hX, hE, axes_norm v s hv hs ho] at this
    exact this
  refine ⟨hdist, ?_⟩
  generalize hq : inRotor c v s p = q at *
  have hcont : Continuous fun p : ℝ × ℝ => V3.norm (q - wakePoint R (tan χ) p.1 p.2) := by
    simp only [wake_norm]; fun_prop
  obtain ⟨hB, -⟩ := max_integral_half hR hD (V3.dot q (skewDir (tan χ)))
  have hB' := hB.const_mul (1/(4*π) * R)
  have hbound : ∀ t > 0, ∀ θ, V3.norm (bsKernel (wakePoint R (tan χ) θ t) (rimTangent R θ) q) ≤ 1/(4*π) * R * (max D (|t - V3.dot q (skewDir (tan χ))| - R))⁻¹^2 := by
    intro t ht θ
    have h1 := hdist θ t (le_of_lt ht)
    have h2 := wake_grow hR q θ t (m := tan χ)
    have h3 := kernel_norm (wakePoint R (tan χ) θ t) (rimTangent R θ) q (lt_of_lt_of_le hD h1)
    rw [rimTangent_norm R θ hR] at h3
    refine h3.trans ?_
    have hp := pi_pos
    have hm : 0 < max D (|t - V3.dot q (skewDir (tan χ))| - R) := lt_max_of_lt_left hD
    have : (V3.norm (q - wakePoint R (tan χ) θ t))⁻¹ ≤ (max D (|t - V3.dot q (skewDir (tan χ))| - R))⁻¹ := inv_anti₀ hm (max_le h1 h2)
    have h0 : 0 ≤ (V3.norm (q - wakePoint R (tan χ) θ t))⁻¹ := inv_nonneg.2 (Real.sqrt_nonneg _)
    gcongr
  have mk : ∀ N : ℝ → ℝ → ℝ, Continuous (Function.uncurry N) →
      Measurable (Function.uncurry fun θ t => 1 / (4*π) * (1 / V3.norm (q - wakePoint R (tan χ) θ t)^3) * N θ t) := by
    intro N hN
    refine Measurable.mul (Measurable.const_mul (Measurable.div measurable_const ?_) _) hN.measurable
    exact (hcont.measurable).pow_const 3
  have ix := wake_integrable (fun θ t => (bsKernel (wakePoint R (tan χ) θ t) (rimTangent R θ) q).x) (by
    simp only [tang_kernel, V3.smul_x]; exact mk (fun θ t => _) (by unfold Function.uncurry; fun_prop)) _ hB'
    (fun t ht θ => ((comp_le_norm _).1).trans (hbound t ht θ))
  have iy := wake_integrable (fun θ t => (bsKernel (wakePoint R (tan χ) θ t) (rimTangent R θ) q).y) (by
    simp only [tang_kernel, V3.smul_y]; exact mk (fun θ t => _) (by unfold Function.uncurry; fun_prop)) _ hB'
    (fun t ht θ => ((comp_le_norm _).2.1).trans (hbound t ht θ))
  have iz := wake_integrable (fun θ t => (bsKernel (wakePoint R (tan χ) θ t) (rimTangent R θ) q).z) (by
    simp only [tang_kernel, V3.smul_z]; exact mk (fun θ t => _) (by unfold Function.uncurry; fun_prop)) _ hB'
    (fun t ht θ => ((comp_le_norm _).2.2).trans (hbound t ht θ))
  unfold sheetFlow
  have e1 : ∀ θ, (vint (Ioi 0) fun t => bsKernel (sheetPoint R c v s d θ t) (sheetTangent R v s θ) p) =
      fromAxes (V3.cross v s) v s (vint (Ioi 0) fun t => bsKernel (wakePoint R (tan χ) θ t) (rimTangent R θ) q) := by
    intro θ
    rw [← vint_axes _ _ _ _ _ (ix.1 θ) (iy.1 θ) (iz.1 θ)]
    congr 1
    funext t
    rw [hX, hT, bsKernel_axes v s hv hs ho, hq]
  simp only [e1]
  rw [vint_axes _ _ _ _ _ ix.2 iy.2 iz.2, ← fromAxes_smul]
  congr 1
  unfold skewTangField tangGenerator vint
  ext <;> simp [integral_const_mul]

end
end Wiz
