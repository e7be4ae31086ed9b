import Mathlib.MeasureTheory.Integral.Bochner.Set
import Mathlib.MeasureTheory.Measure.Lebesgue.Basic
import Mathlib.Analysis.SpecialFunctions.Pow.Real

/-! # Specification: Carlson's symmetric elliptic integrals (as in the comments of wiz/elliptic.py:22, 57, 122) -/
namespace Wiz.Spec
noncomputable section
open MeasureTheory Real

/-- `RF(x,y,z) = 1/2 ∫₀^∞ dt/√((t+x)(t+y)(t+z))` -/
def RF (x y z : ℝ) : ℝ := 1/2 * ∫ t in Set.Ioi (0:ℝ), 1 / (√(t+x) * √(t+y) * √(t+z))
/-- `RC(x,y) = 1/2 ∫₀^∞ dt/(√(t+x)(t+y))` -/
def RC (x y : ℝ) : ℝ := 1/2 * ∫ t in Set.Ioi (0:ℝ), 1 / (√(t+x) * (t+y))
/-- `RJ(x,y,z,p) = 3/2 ∫₀^∞ dt/(√((t+x)(t+y)(t+z))(t+p))` -/
def RJ (x y z p : ℝ) : ℝ := 3/2 * ∫ t in Set.Ioi (0:ℝ), 1 / (√(t+x) * √(t+y) * √(t+z) * (t+p))
end
end Wiz.Spec
