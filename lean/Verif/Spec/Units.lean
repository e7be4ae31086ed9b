import Verif.Spec.Turbine

/-! # Specification: the same history in other units

`k` is the factor of the lengths, `m` the factor of the velocities.  A change of the unit of length alone has `m = k`. -/
namespace Wiz
noncomputable section

/-- the same loading in other units: radii are lengths, circulations are lengths times velocities, thrust coefficients, tip
speed ratios and numbers of cylinders have no unit; the vorticity given as a function of `Ct` is a velocity -/
def LoadArgs.scaled (k m : ℝ) (a : LoadArgs) : LoadArgs :=
  { a with r := a.r.map fun l => l.map fun x => k * x
           Gamma := a.Gamma.map fun l => l.map fun g => Num.fin (k * m) * g
           gamma_t_Ct := a.gamma_t_Ct.map fun f c => (f c).map fun g => Num.fin m * g }

/-- the same method call in other units -/
def Op.scaled (k m : ℝ) : Op → Op
  | .yaw y => .yaw y
  | .position p => .position (V3.smul k p)
  | .wind u => .wind (V3.smul m u)
  | .chi c => .chi c
  | .eval pts o => .eval (pts.map (V3.smul k)) o
  | .loading a => .loading (a.scaled k m)

/-- does the call compute a vorticity itself, i.e. is it a loading without a function `gamma_t_Ct`? -/
def Op.solves : Op → Prop
  | .loading a => a.gamma_t_Ct = none
  | _ => False

end
end Wiz
