import Verif.NumPy
import Mathlib.MeasureTheory.Integral.Bochner.Set
import Mathlib.MeasureTheory.Measure.Lebesgue.Basic

/-!
# Specification: velocities as integrals

Independent of the model: the textbook integrals the closed forms of `wiz` stand for.
-/
namespace Wiz.Spec
open MeasureTheory

/-- componentwise integral of a vector-valued function -/
noncomputable def vint (S : Set ℝ) (f : ℝ → V3 ℝ) : V3 ℝ :=
  ⟨∫ s in S, (f s).x, ∫ s in S, (f s).y, ∫ s in S, (f s).z⟩

/-- Biot–Savart kernel: velocity at `P` of an element `T` of filament (unit circulation) at `X`. -/
noncomputable def bsKernel (X T P : V3 ℝ) : V3 ℝ :=
  V3.smul (1 / (4 * Real.pi) * (1 / V3.norm (P - X) ^ 3)) (V3.cross T (P - X))

/-- Biot–Savart law: velocity at `P` of the filament `s ↦ X s`, `s ∈ S`, with tangent `T s`
(with respect to `s`) and circulation `Γ`:  `Γ ∫ T×(P-X)/(4π|P-X|³) ds`. -/
noncomputable def biotSavart (Γ : ℝ) (S : Set ℝ) (X T : ℝ → V3 ℝ) (P : V3 ℝ) : V3 ℝ :=
  V3.smul Γ (vint S fun s => bsKernel (X s) (T s) P)

end Wiz.Spec
