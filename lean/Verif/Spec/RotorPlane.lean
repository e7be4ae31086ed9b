import Verif.Spec.Elliptic
import Verif.Spec.SkewedCylinder

/-! # Specification: skew-induction amplitudes in the rotor plane -/
namespace Wiz.Spec
noncomputable section
open Real

/-- `K_z(ρ,m) = ρ m √(1+m²)/π ∫₀^π sin²θ / (d (d² + m² sin²θ)) dθ`, `d² = 1+ρ²-2ρ cos θ`: the relative
amplitude of the axial induction in the rotor plane at the relative radius `ρ = r/R`, for a wake
skewed by `χ`, `m = tan χ`. -/
def skewAmplitude (ρ m : ℝ) : ℝ :=
  ρ * m * √(1 + m^2) / π * ∫ θ in (0:ℝ)..π,
    sin θ ^ 2 / (√(1 + ρ^2 - 2*ρ*cos θ) * (1 + ρ^2 - 2*ρ*cos θ + m^2 * sin θ ^ 2))

/-- `K_ξ(ρ,χ) = 2ρ/π ∫₀^{π/2} sin²2t / (√((1+ρ)²-4ρ cos²t) ((ρ-cos 2t)² cos²χ + sin²2t)) dt`. -/
def xiAmplitude (ρ χ : ℝ) : ℝ :=
  2 * ρ / π * ∫ t in (0:ℝ)..(π/2),
    sin (2*t) ^ 2 / (√((1 + ρ)^2 - 4*ρ*cos t ^ 2) * ((ρ - cos (2*t))^2 * cos χ ^ 2 + sin (2*t) ^ 2))

/-- The ideal routine for the elliptic integral of the third kind: exact values (for finite
arguments). -/
def exactPi (nm : List (Num × Num)) : List Num := nm.map fun p =>
  match p with
  | (.fin n, .fin m) => .fin (ellPi n m)
  | _ => .nan

end
end Wiz.Spec
