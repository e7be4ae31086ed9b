import Verif.Lemmas.Flow
import Verif.Lemmas.VortexPoint
import Mathlib.Analysis.SpecialFunctions.ExpDeriv
/-! # Two-dimensional point vortices are divergence-free -/
namespace Wiz
open Spec Filter Topology
noncomputable section

/-- every core function is differentiable -/
theorem core_differentiable (sm ko : ℤ) (w : ℝ → ℝ) (h : coreFunction sm ko = some w) : Differentiable ℝ w := by
  have L : ∀ n, Differentiable ℝ (laguerre n) := by
    intro n; unfold laguerre; fun_prop
  unfold coreFunction at h
  split_ifs at h <;> (have h := Option.some.inj h; subst h)
  · exact differentiable_const _
  · have := L (ko / 2 - 1).toNat; fun_prop
  · fun_prop
  · have := L (ko / 2 - 1).toNat; fun_prop

/-- squared distance to a vertical axis -/
theorem hasGrad_r2 (a b : ℝ) (P : V3 ℝ) :
    HasGrad (fun p => (p.x - a)^2 + (p.y - b)^2) P ⟨2*(P.x - a), 2*(P.y - b), 0⟩ := by
  have hx := (hasGrad_x P).sub_const a
  have hy := (hasGrad_y P).sub_const b
  have := (hx.mul hx).add (hy.mul hy)
  simp only [← sq] at this
  refine this.congr_grad ?_
  ext <;> simp <;> ring

/-- a swirl `f(r²) (-dy, dx, 0)` is divergence-free -/
theorem swirl_divFree (f : ℝ → ℝ) (a b : ℝ) (P : V3 ℝ) (hf : DifferentiableAt ℝ f ((P.x - a)^2 + (P.y - b)^2)) :
    DivFreeAt (fun p => ⟨f ((p.x - a)^2 + (p.y - b)^2) * -(p.y - b), f ((p.x - a)^2 + (p.y - b)^2) * (p.x - a), 0⟩) P := by
  have hx := (hasGrad_x P).sub_const a
  have hy := (hasGrad_y P).sub_const b
  have hF := HasGrad.comp_deriv (f := fun p => (p.x - a)^2 + (p.y - b)^2) hf.hasDerivAt (hasGrad_r2 a b P)
  refine ⟨_, _, _, hF.mul hy.neg, hF.mul hx, hasGrad_const 0 P, ?_⟩
  simp
  ring

theorem vortexVelocity_divFree (w : ℝ → ℝ) (hw : Differentiable ℝ w) (v : Vortex) (P : V3 ℝ)
    (h : (P.x - v.pos.x)^2 + (P.y - v.pos.y)^2 ≠ 1e-15) :
    DivFreeAt (fun p => ⟨(vortexVelocity w ⟨p.x, p.y⟩ v).x, (vortexVelocity w ⟨p.x, p.y⟩ v).y, 0⟩) P := by
  have hc : Continuous fun q : ℝ × ℝ × ℝ => (q.1 - v.pos.x)^2 + (q.2.1 - v.pos.y)^2 := by fun_prop
  rcases lt_or_gt_of_ne h with h | h
  · refine (divFree_const 0 P).congr ?_
    refine Filter.Eventually.mono ((isOpen_lt hc continuous_const).mem_nhds h) fun q hq => ?_
    have hq' : (q.1 - v.pos.x)^2 + (q.2.1 - v.pos.y)^2 < 1e-15 := hq
    simp only [vortexVelocity, if_pos hq']; rfl
  · have hne : (P.x - v.pos.x)^2 + (P.y - v.pos.y)^2 ≠ 0 := by
      intro h0; rw [h0] at h; norm_num at h
    have hf : DifferentiableAt ℝ (fun s => v.circ / (2*Real.pi) / s * w (s / v.core^2)) ((P.x - v.pos.x)^2 + (P.y - v.pos.y)^2) := by
      fun_prop (disch := exact hne)
    refine (swirl_divFree _ v.pos.x v.pos.y P hf).congr ?_
    refine Filter.Eventually.mono ((isOpen_lt continuous_const hc).mem_nhds h) fun q hq => ?_
    have hq' : ¬ (q.1 - v.pos.x)^2 + (q.2.1 - v.pos.y)^2 < 1e-15 := not_lt.mpr (le_of_lt hq)
    simp only [vortexVelocity, if_neg hq']
    ext
    · simp only; ring
    · simp only; ring
    · rfl

end
end Wiz
