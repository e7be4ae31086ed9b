import Mathlib.Analysis.SpecialFunctions.Pow.Real
import Mathlib.Algebra.BigOperators.Intervals

/-! # Specification: thrust relations of the cylinder model -/
namespace Wiz.Spec
noncomputable section
open Real

/-- critical induction of the high-thrust correction -/
def ac : ℝ := 0.34
/-- thrust coefficient at which the correction starts -/
def Ctc : ℝ := 4 * ac * (1 - ac)
/-- axial induction for an effective thrust coefficient: momentum theory up to `Ctc`, Spera's
straight line beyond -/
def aOfCt (Ct : ℝ) : ℝ := if Ct ≤ Ctc then (1 - √(1 - Ct)) / 2 else (Ct - 4 * ac^2) / (4 * (1 - 2*ac))
/-- Kutta–Joukowski thrust coefficient of dimensionless circulation `k` at local speed ratio `l` -/
def ctKJ (k l : ℝ) : ℝ := k * (1 + k / (4 * l^2))
/-- thrust lost in the rotation of the wake outside station `i` (stations `0..n-1`) -/
def ctRot (n : ℕ) (k l : ℕ → ℝ) (i : ℕ) : ℝ :=
  ∑ j ∈ Finset.Ico (i+1) (n-1), (k (j+1) / 2)^2 * (1 / l j^2 - 1 / l (j+1)^2)
/-- effective thrust coefficient at station `i` -/
def ctEff (n : ℕ) (k l : ℕ → ℝ) (i : ℕ) : ℝ := ctKJ (k i) (l i) - ctRot n k l i
/-- default cylinder radii: half-way between the stations, the last one half a spacing outside
(the rotor radius if there is one station only) -/
def rcyl (n : ℕ) (r : ℕ → ℝ) (R : ℝ) (i : ℕ) : ℝ :=
  if n = 1 then R else if i = n - 1 then r (n-1) + (r (n-1) - r (n-2)) / 2 else (r (i+1) + r i) / 2
/-- dimensionless circulation -/
def kOf (G U0 Ω : ℝ) : ℝ := G * Ω / (π * U0^2)
/-- convection induction of cylinder `i` as programmed (the published formula has only the radius
squared in the denominator) -/
def apConv (n : ℕ) (G c : ℕ → ℝ) (Ω : ℝ) (i : ℕ) : ℝ :=
  (G i + if i = n - 1 then 0 else G (i+1)) / (4 * π * Ω * c i)^2

end
end Wiz.Spec
