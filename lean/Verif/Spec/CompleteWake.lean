import Verif.Spec.YawedFarm
import Verif.Spec.TurbineSwirl
/-! # The complete wake of a rotor: rings, longitudinal filaments and root vortex, from the law of Biot and Savart in the axes of the farm -/
set_option autoImplicit false
namespace Wiz.Spec
open Wiz Real
noncomputable section

/-- velocity at `p` due to straight half-infinite filaments of direction `d` that leave every point of the edge of a rotor (centre `c`, radius `R`, shaft `s`,
vertical `v`), of circulation `γ` per unit length of the edge -/
def filamentFlow (γ R : ℝ) (c v s d p : V3 ℝ) : V3 ℝ :=
  vint (Set.Ioc 0 (2*π)) fun θ => biotSavart (γ * R) (Set.Ioi 0) (sheetPoint R c v s d θ) (fun _ => d) p

/-- velocity at `p` due to a vortex of circulation `Γ` that goes from `c` to infinity in the direction `d` -/
def halfLine (Γ : ℝ) (c d p : V3 ℝ) : V3 ℝ := biotSavart Γ (Set.Ioi 0) (fun t => c + V3.smul t d) (fun _ => d) p

/-- velocity of the complete wake: root vortex, rings of intensities `gt` and filaments of intensities `y.1` at the radii `y.2` of `sheets` -/
def completeWake (gt : List ℝ) (sheets : List (ℝ × ℝ)) (Γr : ℝ) (c v s d p : V3 ℝ) : V3 ℝ :=
  halfLine Γr c d p + ((gt.zip (sheets.map Prod.snd)).map fun y => sheetFlow y.1 y.2 c v s d p).sum +
    (sheets.map fun y => filamentFlow y.1 y.2 c v s d p).sum

end
end Wiz.Spec
