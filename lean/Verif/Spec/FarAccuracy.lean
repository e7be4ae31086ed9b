import Verif.Spec.FarmFlow

/-! # Where the far-field models of a straight wake are meant to be used -/
set_option autoImplicit false
namespace Wiz.Spec
open Wiz
noncomputable section

/-- `p` is outside of the wake that leaves the rotor at `c` along `s`: upstream of the rotor plane or further from the axis than `R` -/
def OutsideWake (R : ℝ) (c v s p : V3 ℝ) : Prop :=
  let q := inRotor c v s p
  R < √(q.x^2 + q.y^2) ∨ q.z < 0

/-- `p` is on the axis of the rotor or more than 1e-8 (units of length) away from it, and in the rotor plane or more than 1e-8 away from it -/
def ResolvedPoint (c v s p : V3 ℝ) : Prop :=
  let q := inRotor c v s p
  (√(q.x^2 + q.y^2) = 0 ∨ 1e-8 < √(q.x^2 + q.y^2)) ∧ (q.z = 0 ∨ 1e-8 < |q.z|)

/-- where each wake model is used: the cylinder anywhere off the edge of the wake; the cylinder with far field (cut-off `cut` radii) outside of
the wake beyond the cut-off, and off the edge of the wake otherwise; the doublet line outside of the wake, six radii or more from the rotor (of a radius not below 2e-8) -/
def InDomain (model : String) (cut R : ℝ) (c v s p : V3 ℝ) : Prop :=
  (model = "VC" ∧ OffEdge R c v s p) ∨
  (model = "VCFF" ∧ OffEdge R c v s p ∧ (cut * R < V3.norm (p - c) → OutsideWake R c v s p ∧ ResolvedPoint c v s p)) ∨
  (model = "VD" ∧ 2e-8 ≤ R ∧ 6 * R ≤ V3.norm (p - c) ∧ OffEdge R c v s p ∧ OutsideWake R c v s p)

end
end Wiz.Spec
