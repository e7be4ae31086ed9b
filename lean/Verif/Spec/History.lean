import Verif.Model.WindTurbine

/-! # What a history of method calls last asked for -/
namespace Wiz.Spec

/-- the hub position last requested (the constructor's if none was) -/
def lastHub (hub : V3 ℝ) (h : List Op) : V3 ℝ := h.foldl (fun p o => match o with | .position q => q | _ => p) hub

/-- the wind last set (the constructor's if none was) -/
def lastWind (U0 : V3 ℝ) (h : List Op) : V3 ℝ := h.foldl (fun u o => match o with | .wind v => v | _ => u) U0

end Wiz.Spec
