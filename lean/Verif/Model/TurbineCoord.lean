import Verif.Model.WindTurbine

/-! # Model of `set_yaw0_coord` called on an existing turbine, and of attribute assignments -/
namespace Wiz
noncomputable section
open Classical

/-- `set_yaw0_coord(e_shaft_yaw0,e_vert)` on an existing object: the frames are rebuilt and the yaw reset;
position, wind, loading and skew angle stay.  Models wiz/WindTurbine.py:91-106. -/
def WT.setYaw0Coord (w : WT) (e_shaft_yaw0 e_vert : V3 ℝ) : WT :=
  WT.updateYawPos
    { w with
      e_shaft_g := e_shaft_yaw0
      e_shaft_g0 := e_shaft_yaw0
      e_vert_g := e_vert
      e_horz_g := horzOf e_shaft_yaw0 e_vert
      T_F2g := M3.ofCols (horzOf e_shaft_yaw0 e_vert) (V3.cross (V3.fin e_vert) (horzOf e_shaft_yaw0 e_vert)) (V3.fin e_vert)
      T_c2wt := M3.ofCols (V3.cross e_vert e_shaft_yaw0) e_vert e_shaft_yaw0 } 0

/-- A method call, a call of `set_yaw0_coord`, or an assignment to one of the attributes `Ground`, `Model`.
Models wiz/WindTurbine.py:86-89. -/
inductive OpX where
  | call (op : Op)
  | yaw0 (e_shaft_yaw0 e_vert : V3 ℝ)
  | ground (b : Bool)
  | model (m : String)

/-- The object after such an operation.  Models wiz/WindTurbine.py:86-106. -/
def WT.stepX (minimize : (ℝ → Num) → ℝ) (w : WT) : OpX → WT
  | .call op => w.step minimize op
  | .yaw0 s v => w.setYaw0Coord s v
  | .ground b => { w with Ground := b }
  | .model m => { w with Model := m }

/-- The object after a sequence of operations.  Models wiz/WindTurbine.py:60-244. -/
def WT.runX (minimize : (ℝ → Num) → ℝ) (w : WT) (h : List OpX) : WT := h.foldl (WT.stepX minimize) w

/-- `WT.gamma_t = g`.  Models wiz/article_blockage/helper_functions.py:602-608. -/
def WT.assignGammaT (w : WT) (g : List Num) : WT := { w with gamma_t := some g }

end
end Wiz
