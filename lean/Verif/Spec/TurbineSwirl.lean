import Verif.Spec.Turbine
import Verif.Model.WindTurbine
/-! # Swirl about the shaft of a rotor -/
set_option autoImplicit false
namespace Wiz.Spec
open Wiz
noncomputable section

/-- distance of `p` from the axis through `c` along the unit vector `s` -/
def axisDist (s c p : V3 ℝ) : ℝ := V3.norm (V3.cross s (p - c))

/-- swirl of the velocity `v` at `p`: its component along the direction of a right-handed rotation about the axis through `c` along `s` -/
def swirlAbout (s c p v : V3 ℝ) : ℝ := V3.dot v (V3.cross s (p - c)) / axisDist s c p

/-- circulation enclosed by a circle of radius `ρ` about the axis: the root vortex plus the sheets of strength `γ` and radius `R` inside the circle -/
def enclosed (Γr : ℝ) (sheets : List (ℝ × ℝ)) (ρ : ℝ) : ℝ :=
  Γr + (sheets.map fun y => if y.2 < ρ then 2 * Real.pi * y.2 * y.1 else 0).sum

/-- what the turbine stores: tangential strengths `gt`, a root vortex `Γr` and longitudinal sheets `(strength,radius)`.  Several cylinders are at the
radii of the loading stations; a single cylinder is at the rotor radius, wherever its loading was given. -/
def StoredWake (w : WT) (gt : List ℝ) (sheets : List (ℝ × ℝ)) (Γr : ℝ) : Prop :=
  w.gamma_t = some (gt.map Num.fin) ∧ w.Gamma_r = some (.fin Γr) ∧ w.gamma_l = some (sheets.map fun y => Num.fin y.1) ∧
  gt.length = sheets.length ∧ (∀ y ∈ sheets, 0 < y.2) ∧
  ((sheets.length ≠ 1 ∧ w.r = some (sheets.map Prod.snd)) ∨ (sheets.length = 1 ∧ sheets.map Prod.snd = [w.R]))

end
end Wiz.Spec
