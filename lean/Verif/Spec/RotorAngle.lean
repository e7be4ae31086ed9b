import Verif.Spec.SolidAngle
import Mathlib.Analysis.SpecialFunctions.Trigonometric.Basic

/-! # Specification: how much a point is shaded by a rotor and its wake -/
set_option autoImplicit false
namespace Wiz.Spec
open Wiz Real Classical
noncomputable section

/-- `p` seen from a rotor (centre `c`, shaft `s`, radius `R`) whose wake leaves along `d`: the solid angle of the rotor disk upstream of the rotor; the full angle `4π` minus the solid angle of the disk
in the wake; minus the solid angle around the wake; in the rotor plane, the half space on the disk and nothing outside. -/
def rotorAngle (R : ℝ) (c s d p : V3 ℝ) : ℝ :=
  let z := V3.dot (p - c) s
  let disk := diskSolidAngle R ⟨V3.norm (p - c - V3.smul z s), 0, z⟩
  let off := V3.norm (p - c - V3.smul (z / V3.dot d s) d)
  if z < 0 then disk else if z = 0 then (if off < R then 2*π else 0) else if off < R then 4*π - disk else -disk

end
end Wiz.Spec
