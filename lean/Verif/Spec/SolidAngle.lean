import Verif.Spec.BiotSavart
import Mathlib.MeasureTheory.Integral.IntervalIntegral.Basic
/-! # Specification: solid angle of a disk -/
namespace Wiz.Spec
open Real

/-- Solid angle under which the point `P` sees the disk of radius `R` centred at the origin in the plane `z=0`:
integral over the disk, in polar coordinates, of the projected area divided by the squared distance. -/
noncomputable def diskSolidAngle (R : ℝ) (P : V3 ℝ) : ℝ :=
  ∫ ρ in (0:ℝ)..R, ∫ θ in (0:ℝ)..(2*π), |P.z| * ρ / V3.norm (P - ⟨ρ * cos θ, ρ * sin θ, 0⟩)^3

end Wiz.Spec
