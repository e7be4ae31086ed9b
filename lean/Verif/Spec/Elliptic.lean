import Verif.NumPy
import Mathlib.MeasureTheory.Integral.IntervalIntegral.Basic
import Mathlib.Analysis.SpecialFunctions.Trigonometric.Basic

/-!
# Specification: complete elliptic integrals (parameter `m = k²`), and the SciPy functions

`scipy.special.ellipk` / `ellipe` are external code; they are modelled by the exact
integrals they approximate, with SciPy's documented values at and beyond the pole.
-/
namespace Wiz
noncomputable section
open Real

namespace Spec
/-- `K(m) = ∫₀^{π/2} dt/√(1 - m sin²t)`. -/
def ellK (m : ℝ) : ℝ := ∫ t in (0:ℝ)..(π/2), 1 / √(1 - m * sin t ^ 2)
/-- `E(m) = ∫₀^{π/2} √(1 - m sin²t) dt`. -/
def ellE (m : ℝ) : ℝ := ∫ t in (0:ℝ)..(π/2), √(1 - m * sin t ^ 2)
/-- `Π(n,m) = ∫₀^{π/2} dt/((1 - n sin²t)√(1 - m sin²t))`. -/
def ellPi (n m : ℝ) : ℝ := ∫ t in (0:ℝ)..(π/2), 1 / ((1 - n * sin t ^ 2) * √(1 - m * sin t ^ 2))
end Spec

open Classical in
/-- `scipy.special.ellipk(m)`: exact for `m<1`, `inf` at `1`, `nan` above. -/
def ellipk : Num → Num
  | .fin m => if m < 1 then .fin (Spec.ellK m) else if m = 1 then .pinf else .nan
  | .ninf => .fin 0
  | _ => .nan

open Classical in
/-- `scipy.special.ellipe(m)`: exact for `m≤1`, `nan` above. -/
def ellipe : Num → Num
  | .fin m => if m ≤ 1 then .fin (Spec.ellE m) else .nan
  | .ninf => .pinf
  | _ => .nan

end
end Wiz
