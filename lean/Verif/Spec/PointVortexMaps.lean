import Verif.Spec.PointVortex
import Mathlib.Analysis.SpecialFunctions.Sqrt

/-! # Specification: changes of axes and units in the plane -/
namespace Wiz

/-- Rotation by the angle whose cosine and sine are `a`, `b`. -/
def V2.rot (a b : ℝ) (v : V2 ℝ) : V2 ℝ := ⟨a * v.x - b * v.y, b * v.x + a * v.y⟩
/-- Reflection in the first axis. -/
def V2.refl (v : V2 ℝ) : V2 ℝ := ⟨v.x, -v.y⟩
/-- Multiplication by a number. -/
def V2.scale (k : ℝ) (v : V2 ℝ) : V2 ℝ := ⟨k * v.x, k * v.y⟩

/-- Length of a pair. -/
noncomputable def V2.len (v : V2 ℝ) : ℝ := Real.sqrt (v.x ^ 2 + v.y ^ 2)

end Wiz
