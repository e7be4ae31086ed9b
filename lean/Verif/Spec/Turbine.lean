import Verif.Model.WindTurbine

/-!
# Specification vocabulary for turbines

Independent of how the code stores its frames.
-/
namespace Wiz
noncomputable section

/-- unit vectors, orthogonal to each other -/
structure Orthonormal (s v : V3 ℝ) : Prop where
  shaft : V3.dot s s = 1
  vert : V3.dot v v = 1
  orth : V3.dot s v = 0

/-- `v` turned by `t` about the unit axis `u` (Rodrigues' formula) -/
def turn (u : V3 ℝ) (t : ℝ) (v : V3 ℝ) : V3 ℝ :=
  V3.smul (Real.cos t) v + V3.smul (Real.sin t) (V3.cross u v) + V3.smul ((1 - Real.cos t) * V3.dot u v) u

/-- is the call an `update_yaw_pos`? -/
def Op.isYaw : Op → Bool
  | .yaw _ => true
  | _ => false

/-- the yaw angle last requested in a history (0 if none was) -/
def lastYaw : List Op → ℝ
  | [] => 0
  | .yaw y :: h => if h.any Op.isYaw then lastYaw h else y
  | _ :: h => lastYaw h

/-- a proper rotation of the global axes -/
structure Rotation (Q : M3 ℝ) : Prop where
  orth : M3.mul (M3.transpose Q) Q = M3.id
  det : M3.det Q = 1

/-- the same method call expressed in rotated global axes -/
def Op.rotated (Q : M3 ℝ) : Op → Op
  | .position p => .position (M3.mulVec Q p)
  | .wind u => .wind (M3.mulVec Q u)
  | .eval pts o => .eval (pts.map (M3.mulVec Q)) o
  | op => op

/-- is the call an evaluation (`compute_u`)? -/
def Op.isEval : Op → Bool
  | .eval _ _ => true
  | _ => false

/-- is the call a `set_chi`? -/
def Op.isChi : Op → Bool
  | .chi _ => true
  | _ => false

/-- no `update_loading` of the history succeeds when the history is run on `w` -/
def NeverLoaded (mini : (ℝ → Num) → ℝ) : WT → List Op → Prop
  | _, [] => True
  | w, .loading a :: h => (w.updateLoading mini a).1 ≠ .ok () ∧ NeverLoaded mini (w.step mini (.loading a)) h
  | w, op :: h => NeverLoaded mini (w.step mini op) h

/-- the horizontal part of a wind -/
def horizontal (vert U : V3 ℝ) : V3 ℝ := U - V3.smul (V3.dot U vert) vert

end
end Wiz
