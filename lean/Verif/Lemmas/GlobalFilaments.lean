import Verif.Spec.CompleteWake
import Verif.Lemmas.GlobalSheet
/-! # The longitudinal filaments and the root vortex in global axes -/
set_option autoImplicit false
namespace Wiz
open Spec Real Classical MeasureTheory Set
noncomputable section

theorem skewDir_norm (m : ℝ) : V3.norm (skewDir m) = 1 := by
  have := skewDir_unit m
  unfold V3.norm
  unfold V3.dot at this
  rw [show (skewDir m).x^2 + (skewDir m).y^2 + (skewDir m).z^2 = 1 by linarith, Real.sqrt_one]

theorem dir_axes (χ : ℝ) (hχ : 0 < cos χ) (v s d : V3 ℝ) (hd : d = V3.smul (sin χ) (V3.cross v s) + V3.smul (cos χ) s) :
    d = fromAxes (V3.cross v s) v s (skewDir (tan χ)) := by
  rw [skewDir_tan hχ, hd]
  unfold fromAxes
  ext <;> simp

/-- the filaments in the axes of the farm, from those in the axes of the rotor -/
theorem filamentFlow_axes (γ R D χ : ℝ) (hR : 0 ≤ R) (hD : 0 < D) (c v s p : V3 ℝ) (hv : V3.dot v v = 1) (hs : V3.dot s s = 1) (ho : V3.dot v s = 0)
    (hχ : 0 < cos χ) (d : V3 ℝ) (hd : d = V3.smul (sin χ) (V3.cross v s) + V3.smul (cos χ) s)
    (hdist : ∀ θ t, 0 ≤ t → D ≤ V3.norm (inRotor c v s p - wakePoint R (tan χ) θ t)) :
    filamentFlow γ R c v s d p = fromAxes (V3.cross v s) v s (skewLongiField γ R (tan χ) (inRotor c v s p)) := by
  have hX : ∀ θ t, sheetPoint R c v s d θ t = c + fromAxes (V3.cross v s) v s (wakePoint R (tan χ) θ t) := by
    intro θ t
    unfold sheetPoint wakePoint rim
    rw [skewDir_tan hχ, hd]
    unfold fromAxes
    ext <;> simp <;> ring
  have hT := dir_axes χ hχ v s d hd
  generalize hq : inRotor c v s p = q at *
  have hcont : Continuous fun p : ℝ × ℝ => V3.norm (q - wakePoint R (tan χ) p.1 p.2) := by
    simp only [wake_norm]; fun_prop
  obtain ⟨hB, -⟩ := max_integral_half hR hD (V3.dot q (skewDir (tan χ)))
  have hB' := hB.const_mul (1/(4*π))
  have hbound : ∀ t > 0, ∀ θ, V3.norm (bsKernel (wakePoint R (tan χ) θ t) (skewDir (tan χ)) q) ≤ 1/(4*π) * (max D (|t - V3.dot q (skewDir (tan χ))| - R))⁻¹^2 := by
    intro t ht θ
    have h1 := hdist θ t (le_of_lt ht)
    have h2 := wake_grow hR q θ t (m := tan χ)
    have h3 := kernel_norm (wakePoint R (tan χ) θ t) (skewDir (tan χ)) q (lt_of_lt_of_le hD h1)
    rw [skewDir_norm, mul_one] at h3
    refine h3.trans ?_
    have hp := pi_pos
    have hm : 0 < max D (|t - V3.dot q (skewDir (tan χ))| - R) := lt_max_of_lt_left hD
    have : (V3.norm (q - wakePoint R (tan χ) θ t))⁻¹ ≤ (max D (|t - V3.dot q (skewDir (tan χ))| - R))⁻¹ := inv_anti₀ hm (max_le h1 h2)
    have h0 : 0 ≤ (V3.norm (q - wakePoint R (tan χ) θ t))⁻¹ := inv_nonneg.2 (Real.sqrt_nonneg _)
    gcongr
  have mk : ∀ N : ℝ → ℝ → ℝ, Continuous (Function.uncurry N) →
      Measurable (Function.uncurry fun θ t => 1 / (4*π) * (1 / V3.norm (q - wakePoint R (tan χ) θ t)^3) * N θ t) := by
    intro N hN
    refine Measurable.mul (Measurable.const_mul (Measurable.div measurable_const ?_) _) hN.measurable
    exact (hcont.measurable).pow_const 3
  have ix := wake_integrable (fun θ t => (bsKernel (wakePoint R (tan χ) θ t) (skewDir (tan χ)) q).x) (by
    simp only [longi_kernel, V3.smul_x]; exact mk (fun θ t => _) (by unfold Function.uncurry; fun_prop)) _ hB'
    (fun t ht θ => ((comp_le_norm _).1).trans (hbound t ht θ))
  have iy := wake_integrable (fun θ t => (bsKernel (wakePoint R (tan χ) θ t) (skewDir (tan χ)) q).y) (by
    simp only [longi_kernel, V3.smul_y]; exact mk (fun θ t => _) (by unfold Function.uncurry; fun_prop)) _ hB'
    (fun t ht θ => ((comp_le_norm _).2.1).trans (hbound t ht θ))
  have iz := wake_integrable (fun θ t => (bsKernel (wakePoint R (tan χ) θ t) (skewDir (tan χ)) q).z) (by
    simp only [longi_kernel, V3.smul_z]; exact mk (fun θ t => _) (by unfold Function.uncurry; fun_prop)) _ hB'
    (fun t ht θ => ((comp_le_norm _).2.2).trans (hbound t ht θ))
  unfold filamentFlow biotSavart
  have e1 : ∀ θ, (vint (Ioi 0) fun t => bsKernel (sheetPoint R c v s d θ t) d p) =
      fromAxes (V3.cross v s) v s (vint (Ioi 0) fun t => bsKernel (wakePoint R (tan χ) θ t) (skewDir (tan χ)) q) := by
    intro θ
    rw [← vint_axes _ _ _ _ _ (ix.1 θ) (iy.1 θ) (iz.1 θ)]
    congr 1
    funext t
    rw [hX, hT, bsKernel_axes v s hv hs ho, hq]
  simp only [e1, ← fromAxes_smul]
  exact vint_axes (Ioc 0 (2*π)) (fun θ => V3.smul (γ * R) (vint (Ioi 0) fun t => bsKernel (wakePoint R (tan χ) θ t) (skewDir (tan χ)) q)) _ _ _
    (ix.2.const_mul (γ * R)) (iy.2.const_mul (γ * R)) (iz.2.const_mul (γ * R))

/-- the root vortex in the axes of the farm -/
theorem halfLine_axes (Γ χ : ℝ) (c v s p : V3 ℝ) (hv : V3.dot v v = 1) (hs : V3.dot s s = 1) (ho : V3.dot v s = 0)
    (hχ : 0 < cos χ) (d : V3 ℝ) (hd : d = V3.smul (sin χ) (V3.cross v s) + V3.smul (cos χ) s) :
    halfLine Γ c d p = fromAxes (V3.cross v s) v s (biotSavart Γ (Ioi 0) (fun t => V3.smul t (skewDir (tan χ))) (fun _ => skewDir (tan χ)) (inRotor c v s p)) := by
  have hT := dir_axes χ hχ v s d hd
  generalize skewDir (tan χ) = e at *
  unfold halfLine biotSavart
  have e1 : ∀ t, bsKernel (c + V3.smul t d) d p = fromAxes (V3.cross v s) v s (bsKernel (V3.smul t e) e (inRotor c v s p)) := by
    intro t
    rw [hT, ← fromAxes_smul, bsKernel_axes v s hv hs ho]
  simp only [e1]
  have e2 : ∀ (t : ℝ) (q : V3 ℝ), bsKernel (V3.smul t e) e q = V3.smul (1 / (4 * π) * (1 / V3.norm (q - V3.smul t e) ^ 3)) (V3.cross e q) := by
    intro t q
    unfold bsKernel
    congr 1
    unfold V3.cross
    ext <;> simp <;> ring
  simp only [e2, fromAxes_smul]
  generalize V3.cross e (inRotor c v s p) = k
  generalize V3.cross v s = a
  rw [← fromAxes_smul]
  have e3 : ∀ (f : ℝ → ℝ) (k : V3 ℝ), vint (Ioi 0) (fun t => V3.smul (f t) k) = V3.smul (∫ t in Ioi 0, f t) k := by
    intro f k
    unfold vint
    ext <;> simp [integral_mul_const]
  rw [e3, e3]
  unfold fromAxes
  ext <;> simp <;> ring

end
end Wiz
