import Verif.Spec.BiotSavart
import Verif.Spec.PointVortex

/-! # Specification: vortex lines released from the rim of a yawed rotor -/
namespace Wiz.Spec
noncomputable section

/-- One sample of the rim: azimuth, vorticity strength per unit azimuthal length, core size. -/
structure RimSample where
  theta : ℝ
  gamma : ℝ
  core : ℝ

/-- Trapezoidal rule for `∫ f dx` over the consecutive samples of a list. -/
def trapezoid {α : Type} (x f : α → ℝ) : List α → ℝ
  | a :: b :: l => (x b - x a) * (f a + f b) / 2 + trapezoid x f (b :: l)
  | _ => 0

/-- The rim point at azimuth `θ` of a rotor of radius `R` yawed by `ψ` about `z`. -/
def yawedRim (R ψ θ : ℝ) : V3 ℝ :=
  ⟨-(R * Real.cos θ * Real.sin ψ), R * Real.cos θ * Real.cos ψ, R * Real.sin θ⟩

/-- Its projection on a plane normal to the wind (a point of an ellipse). -/
def rimShadow (R ψ θ : ℝ) : V2 ℝ := ⟨R * Real.cos θ * Real.cos ψ, R * Real.sin θ⟩

/-- squared distance of two points of the plane -/
def dist2 (p q : V2 ℝ) : ℝ := (p.x - q.x)^2 + (p.y - q.y)^2

/-- fraction of the circulation seen at squared distance `d2` from a vortex of Gaussian core
`core` (the whole of it when there is no smoothing) -/
def gaussCore (smooth : Bool) (d2 core : ℝ) : ℝ := if smooth then 1 - Real.exp (-d2 / core^2) else 1

/-- velocity at `p` of a point vortex of circulation `Γ` at `q`: `Γ/(2π|p-q|²) ẑ×(p-q)` -/
def pointVortex (Γ : ℝ) (p q : V2 ℝ) : V2 ℝ :=
  ⟨-(Γ / (2 * Real.pi * dist2 p q) * (p.y - q.y)), Γ / (2 * Real.pi * dist2 p q) * (p.x - q.x)⟩

/-- velocity at `P` of a half-line vortex of circulation `Γ` starting at `A`, along the wind (`+x`) -/
def windwardLine (Γ : ℝ) (A P : V3 ℝ) : V3 ℝ :=
  biotSavart Γ (Set.Ioi 0) (fun s => A + V3.smul s ⟨1, 0, 0⟩) (fun _ => ⟨1, 0, 0⟩) P

end
end Wiz.Spec
