import Verif.NumPy
import Mathlib.Analysis.Calculus.FDeriv.Prod
/-! # Specification: conservation of mass, irrotational flow

Independent of the model. A velocity field is a function from points of space to vectors. -/
namespace Wiz.Spec

/-- `g` is the gradient of the scalar field `f` at `P` (Fréchet derivative). -/
def HasGrad (f : V3 ℝ → ℝ) (P g : V3 ℝ) : Prop :=
  HasFDerivAt (fun q : ℝ × ℝ × ℝ => f ⟨q.1, q.2.1, q.2.2⟩)
    (g.x • ContinuousLinearMap.fst ℝ ℝ (ℝ × ℝ)
      + g.y • (ContinuousLinearMap.fst ℝ ℝ ℝ).comp (ContinuousLinearMap.snd ℝ ℝ (ℝ × ℝ))
      + g.z • (ContinuousLinearMap.snd ℝ ℝ ℝ).comp (ContinuousLinearMap.snd ℝ ℝ (ℝ × ℝ)))
    (P.x, P.y, P.z)

/-- The velocity field `u` is differentiable at `P` and its divergence there is zero: mass is conserved. -/
def DivFreeAt (u : V3 ℝ → V3 ℝ) (P : V3 ℝ) : Prop :=
  ∃ gx gy gz : V3 ℝ, HasGrad (fun p => (u p).x) P gx ∧ HasGrad (fun p => (u p).y) P gy ∧
    HasGrad (fun p => (u p).z) P gz ∧ gx.x + gy.y + gz.z = 0

/-- The velocity field `u` is differentiable at `P` and its curl there is zero: no vorticity. -/
def CurlFreeAt (u : V3 ℝ → V3 ℝ) (P : V3 ℝ) : Prop :=
  ∃ gx gy gz : V3 ℝ, HasGrad (fun p => (u p).x) P gx ∧ HasGrad (fun p => (u p).y) P gy ∧
    HasGrad (fun p => (u p).z) P gz ∧ gz.y = gy.z ∧ gx.z = gz.x ∧ gy.x = gx.y

end Wiz.Spec
