import Verif.Spec.Turbine

/-! # Specification: mirror images of a turbine and of its history -/
namespace Wiz
noncomputable section

/-- an improper orthogonal change of axes: a reflection, possibly followed by a rotation -/
structure Reflection (S : M3 ℝ) : Prop where
  orth : M3.mul (M3.transpose S) S = M3.id
  det : M3.det S = -1

/-- the mirror image of a method call: positions, winds and points are reflected; yaw and skew angles change sign -/
def Op.mirrored (S : M3 ℝ) : Op → Op
  | .yaw y => .yaw (-y)
  | .position p => .position (M3.mulVec S p)
  | .wind u => .wind (M3.mulVec S u)
  | .chi c => .chi (c.map fun x => -x)
  | .eval pts o => .eval (pts.map (M3.mulVec S)) o
  | .loading a => .loading a

/-- the horizontal part of the wind is opposite to the shaft direction at rest (the angle `±π` has no preferred sign) -/
def Opposed (shaft vert U : V3 ℝ) : Prop := ∃ k < 0, horizontal vert U = V3.smul k shaft

/-- the reflection in the plane through the origin with unit normal `n` -/
def mirrorIn (n : V3 ℝ) : M3 ℝ :=
  ⟨1 - 2*n.x*n.x, -(2*n.x*n.y), -(2*n.x*n.z),
   -(2*n.y*n.x), 1 - 2*n.y*n.y, -(2*n.y*n.z),
   -(2*n.z*n.x), -(2*n.z*n.y), 1 - 2*n.z*n.z⟩

/-- the same method call with the yaw and skew angles reversed, everything else unchanged -/
def Op.reversed : Op → Op
  | .yaw y => .yaw (-y)
  | .chi c => .chi (c.map fun x => -x)
  | op => op

end
end Wiz
