import Verif.Spec.WindFarm
import Verif.Spec.Mirror
import Verif.Spec.Units

/-! # Specification: a farm session described in other axes -/
namespace Wiz
noncomputable section

/-- the constructor arguments of a turbine -/
structure TurbineArgs where
  R : ℝ
  hub : V3 ℝ
  shaft : V3 ℝ
  vert : V3 ℝ
  U0 : V3 ℝ
  Lambda : Option Num
  Ground : Bool
  Model : String

/-- the new turbine -/
def TurbineArgs.build (c : TurbineArgs) : WT := WT.new c.R c.hub c.shaft c.vert c.U0 c.Lambda c.Ground c.Model

/-- the same arguments after a linear change of axes -/
def TurbineArgs.moved (Q : M3 ℝ) (c : TurbineArgs) : TurbineArgs :=
  { c with hub := M3.mulVec Q c.hub, shaft := M3.mulVec Q c.shaft, vert := M3.mulVec Q c.vert, U0 := M3.mulVec Q c.U0 }

/-- the same event with positions mapped by `P`, velocities by `V` and method calls on turbines by `φ` -/
def FOp.mapped (P V : V3 ℝ → V3 ℝ) (φ : Op → Op) : FOp → FOp
  | .call t op => .call t (φ op)
  | .write a i p => .write a i (P p)
  | .newArray rows => .newArray (rows.map P)
  | .setLayout (.nested rows) => .setLayout (.nested (rows.map P))
  | .velocity pts o U0 => .velocity (pts.map P) o (U0.map V)
  | op => op

/-- the same event after a linear change of axes that changes method calls on turbines by `φ` -/
def FOp.moved (Q : M3 ℝ) (φ : Op → Op) : FOp → FOp := FOp.mapped (M3.mulVec Q) (M3.mulVec Q) φ

/-- the same constructor arguments in other units: `k` multiplies the lengths, `m` the velocities -/
def TurbineArgs.scaled (k m : ℝ) (c : TurbineArgs) : TurbineArgs :=
  { c with R := k * c.R, hub := V3.smul k c.hub, U0 := V3.smul m c.U0 }

/-- the same event in other units -/
def FOp.scaled (k m : ℝ) : FOp → FOp := FOp.mapped (V3.smul k) (V3.smul m) (Op.scaled k m)

/-- the same method call, with `m` times the vorticity if it is a loading by a strength function -/
def Op.stronger (m : ℝ) : Op → Op
  | .loading a => .loading { a with gamma_t_Ct := a.gamma_t_Ct.map fun f c => (f c).map fun g => Num.fin m * g }
  | op => op

/-- the same event, with `m` times the vorticity if it is a loading by a strength function -/
def FOp.stronger (m : ℝ) : FOp → FOp
  | .call t op => .call t (op.stronger m)
  | op => op

end
end Wiz
