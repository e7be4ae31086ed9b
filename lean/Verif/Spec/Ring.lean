import Verif.Spec.BiotSavart
/-! # Specification: circular vortex ring -/
namespace Wiz.Spec
open Real

/-- Velocity at `P` of the vortex ring of radius `R` and circulation `Γ` centred at the origin
in the plane `z=0`, oriented by `+z`: Biot–Savart integral around the circle. -/
noncomputable def ringField (Γ R : ℝ) (P : V3 ℝ) : V3 ℝ :=
  biotSavart Γ (Set.Ioc 0 (2*π)) (fun θ => ⟨R * cos θ, R * sin θ, 0⟩)
    (fun θ => ⟨-R * sin θ, R * cos θ, 0⟩) P

end Wiz.Spec
