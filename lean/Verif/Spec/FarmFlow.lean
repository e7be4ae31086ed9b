import Verif.Spec.Cylinder
import Verif.Spec.Dispatch

/-! # The flow of a farm of straight wakes, from the law of Biot and Savart -/
set_option autoImplicit false
namespace Wiz.Spec
open Wiz
noncomputable section

/-- coordinates of `p` in the axes of a rotor at `c` with shaft `s` and vertical `v` -/
def inRotor (c v s p : V3 ℝ) : V3 ℝ := ⟨V3.dot (p - c) (V3.cross v s), V3.dot (p - c) v, V3.dot (p - c) s⟩

/-- velocity at `p` due to the semi-infinite vortex cylinder of radius `R` and tangential intensity `γ` that leaves the rotor centred at `c`
along its shaft `s` (`cylinderField` is the Biot–Savart integral in the axes of the rotor) -/
def wakeFlow (γ R : ℝ) (c v s p : V3 ℝ) : V3 ℝ :=
  let F := cylinderField γ R (inRotor c v s p)
  V3.smul F.x (V3.cross v s) + V3.smul F.y v + V3.smul F.z s

/-- `p` is not at the radius of the wake, nor within 1e-8 radii of the rotor edge -/
def OffEdge (R : ℝ) (c v s p : V3 ℝ) : Prop :=
  let q := inRotor c v s p
  √(q.x^2 + q.y^2) ≠ R ∧ ¬ (|√(q.x^2 + q.y^2) - R| < 1e-8 * R ∧ |q.z| < 1e-8 * R)

/-- the wakes of a rotor: itself, and its image below the ground when the ground is modelled -/
def wakeCentres (ground : Bool) (v c : V3 ℝ) : List (V3 ℝ) := if ground then [c, groundImage v c] else [c]

end
end Wiz.Spec
