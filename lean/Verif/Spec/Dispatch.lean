import Verif.Model.WindTurbine

/-!
# Specification: what the model names and component flags of `compute_u` stand for

All fields are in rotor axes (lateral, vertical, shaft), at points `Y` given relative to the rotor centre.
-/
namespace Wiz.Spec
noncomputable section
open Classical

/-- is the wake considered skewed? -/
def skewed (chi : Num) : Prop := Num.fin 1e-7 < Num.abs chi

/-- root vortex of circulation `Gr`: a half-line along the (possibly skewed) wake axis -/
def wakeRoot (chi Gr : Num) (Y : List (V3 ℝ)) : List (V3 Num) :=
  if skewed chi then (match svcRoot Y Gr (Num.tan chi) false with | .ok v => v | .error _ => [])
  else vcRoot Y Gr false

/-- tangential vorticity of strength `g` on a wake of radius `R`.  Skewed: the skewed cylinder with 180
azimuthal points.  Not skewed: `VC` the right cylinder; `VCFF` the same, replaced by a doublet line beyond
`Rff` radii; `VD` a half-line of doublets of moment `g π R²` per unit length; `SS` the self-similar profile
of the axial velocity. -/
def wakeTang (chi : Num) (Model : String) (g : Num) (R Rff : ℝ) (Y : List (V3 ℝ)) : List (V3 Num) :=
  if skewed chi then svcTang Y g R (Num.tan chi) 180 false
  else if Model = "VC" then vcTang Y g R 0
  else if Model = "VCFF" then vcTangDoublet Y g R Rff
  else if Model = "VD" then Y.map fun p => doubletLineU p (g * .fin (Real.pi * R^2)) 0 none
  else if Model = "SS" then Y.map fun p => ⟨ssUDefault p g R * 0, ssUDefault p g R * 0, ssUDefault p g R⟩
  else []

/-- longitudinal vorticity of strength `gl` on a wake of radius `R` -/
def wakeLongi (chi gl : Num) (R : ℝ) (Y : List (V3 ℝ)) : List (V3 Num) :=
  if skewed chi then svcLongi Y gl R (Num.tan chi) 180 false else vcLongi Y gl R false

/-- coordinates relative to `c` along the axes `a` (lateral), `v` (vertical), `s` (shaft) -/
def rotorAxes (a v s c : V3 ℝ) (pts : List (V3 ℝ)) : List (V3 ℝ) :=
  pts.map fun p => ⟨V3.dot (p - c) a, V3.dot (p - c) v, V3.dot (p - c) s⟩

/-- the mirror image of a point in the ground plane through the origin -/
def groundImage (v c : V3 ℝ) : V3 ℝ := c - V3.smul (2 * V3.dot c v) v

end
end Wiz.Spec
