import Verif.Spec.Ring
/-! # Specification: semi-infinite cylindrical vortex sheet -/
namespace Wiz.Spec

/-- Velocity at `P` of the semi-infinite cylindrical sheet of tangential vorticity (strength `γ`
per unit length, radius `R`, axis `z`, starting at `z=0`): superposition of the vortex rings at
heights `s>0`, each the Biot–Savart integral around its circle. -/
noncomputable def cylinderField (γ R : ℝ) (P : V3 ℝ) : V3 ℝ :=
  vint (Set.Ioi 0) fun s => ringField γ R (P - ⟨0, 0, s⟩)

/-- Velocity at `P` of the semi-infinite cylindrical sheet of longitudinal vorticity (strength `γ`
per unit length along the circumference, radius `R`, from `z=0` to `z=+∞`): superposition over the
circumference of the straight filaments parallel to the axis, each the Biot–Savart integral along
its half-line. -/
noncomputable def longiField (γ R : ℝ) (P : V3 ℝ) : V3 ℝ :=
  vint (Set.Ioc 0 (2*Real.pi)) fun θ => V3.smul R
    (biotSavart γ (Set.Ioi 0) (fun s => ⟨R * Real.cos θ, R * Real.sin θ, s⟩) (fun _ => ⟨0, 0, 1⟩) P)

end Wiz.Spec
