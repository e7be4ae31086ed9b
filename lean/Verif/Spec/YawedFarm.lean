import Verif.Spec.FarmFlow
import Verif.Spec.BiotSavart
import Mathlib.Analysis.SpecialFunctions.Trigonometric.Basic

/-! # The flow of yawed rotors, from the law of Biot and Savart in the axes of the farm -/
set_option autoImplicit false
namespace Wiz.Spec
open Wiz Real
noncomputable section

/-- point of the wake at distance `t` along `d` from the point of azimuth `θ` of the edge of a rotor (centre `c`, radius `R`, shaft `s`, vertical `v`) -/
def sheetPoint (R : ℝ) (c v s d : V3 ℝ) (θ t : ℝ) : V3 ℝ :=
  c + V3.smul (R * cos θ) (V3.cross v s) + V3.smul (R * sin θ) v + V3.smul t d
/-- tangent of the edge at azimuth `θ` -/
def sheetTangent (R : ℝ) (v s : V3 ℝ) (θ : ℝ) : V3 ℝ := V3.smul (-(R * sin θ)) (V3.cross v s) + V3.smul (R * cos θ) v
/-- velocity at `p` due to vortex rings parallel to the rotor that cover, with intensity `γ` per unit length, the wake that leaves the edge of
the rotor in the direction `d` -/
def sheetFlow (γ R : ℝ) (c v s d p : V3 ℝ) : V3 ℝ :=
  V3.smul γ (vint (Set.Ioc 0 (2*π)) fun θ => vint (Set.Ioi 0) fun t => bsKernel (sheetPoint R c v s d θ t) (sheetTangent R v s θ) p)
/-- `p` is at distance `D` or more of that wake -/
def Clear (D R : ℝ) (c v s d p : V3 ℝ) : Prop := ∀ θ t, 0 ≤ t → D ≤ V3.norm (p - sheetPoint R c v s d θ t)

end
end Wiz.Spec
