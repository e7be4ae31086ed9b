import Verif.Spec.BiotSavart
import Mathlib.Analysis.SpecialFunctions.Trigonometric.Basic
import Mathlib.Analysis.SpecialFunctions.Pow.Real
/-! # Specification: skewed semi-infinite vortex cylinder

The rotor is the circle of radius `R` in the plane `z=0`; the wake leaves it along the unit vector
`(m,0,1)/√(1+m²)`, `m = tan χ`.  Independent of the model. -/
namespace Wiz.Spec

/-- unit direction of the wake -/
noncomputable def skewDir (m : ℝ) : V3 ℝ := ⟨m / Real.sqrt (1 + m^2), 0, 1 / Real.sqrt (1 + m^2)⟩
/-- point of the rotor circle -/
noncomputable def rim (R θ : ℝ) : V3 ℝ := ⟨R * Real.cos θ, R * Real.sin θ, 0⟩
/-- tangent `d(rim)/dθ` of the rotor circle -/
noncomputable def rimTangent (R θ : ℝ) : V3 ℝ := ⟨-(R * Real.sin θ), R * Real.cos θ, 0⟩
/-- point of the wake at distance `s` downstream of the rim point of azimuth `θ` -/
noncomputable def wakePoint (R m θ s : ℝ) : V3 ℝ := rim R θ + V3.smul s (skewDir m)
/-- `P` is not on the (closed) wake surface. -/
def OffWake (R m : ℝ) (P : V3 ℝ) : Prop := ∀ θ s, 0 ≤ s → P ≠ wakePoint R m θ s

/-- Contribution per unit azimuth of the tangential vorticity (strength `γ` per unit length along the
wake) shed at azimuth `θ`: Biot–Savart integral, along the generator line, of ring elements. -/
noncomputable def tangGenerator (γ R m : ℝ) (P : V3 ℝ) (θ : ℝ) : V3 ℝ :=
  V3.smul γ (vint (Set.Ioi 0) fun s => bsKernel (wakePoint R m θ s) (rimTangent R θ) P)
/-- Contribution per unit azimuth of the longitudinal vorticity (strength `γ` per unit length along the
rotor circle) shed at azimuth `θ`: Biot–Savart integral along the generator half-line, circulation `γ R`. -/
noncomputable def longiGenerator (γ R m : ℝ) (P : V3 ℝ) (θ : ℝ) : V3 ℝ :=
  biotSavart (γ * R) (Set.Ioi 0) (wakePoint R m θ) (fun _ => skewDir m) P

/-- Velocity of the skewed sheet of tangential vorticity. -/
noncomputable def skewTangField (γ R m : ℝ) (P : V3 ℝ) : V3 ℝ :=
  vint (Set.Ioc 0 (2*Real.pi)) (tangGenerator γ R m P)
/-- Velocity of the skewed sheet of longitudinal vorticity. -/
noncomputable def skewLongiField (γ R m : ℝ) (P : V3 ℝ) : V3 ℝ :=
  vint (Set.Ioc 0 (2*Real.pi)) (longiGenerator γ R m P)

/-- Trapezoidal rule for one turn starting at azimuth `θ₀`, with `n` panels. -/
noncomputable def turnRule (θ₀ : ℝ) (n : ℕ) (f : ℝ → ℝ) : ℝ :=
  ∑ i ∈ Finset.range n, (2*Real.pi/n) * ((f (θ₀ + i * (2*Real.pi/n)) + f (θ₀ + (i+1) * (2*Real.pi/n))) / 2)
/-- the same for a velocity -/
noncomputable def turnRuleV (θ₀ : ℝ) (n : ℕ) (f : ℝ → V3 ℝ) : V3 ℝ :=
  ⟨turnRule θ₀ n fun θ => (f θ).x, turnRule θ₀ n fun θ => (f θ).y, turnRule θ₀ n fun θ => (f θ).z⟩

/-- Cartesian coordinates of the point with polar coordinates `(r,ψ,z)` -/
noncomputable def polarPoint (r ψ z : ℝ) : V3 ℝ := ⟨r * Real.cos ψ, r * Real.sin ψ, z⟩
/-- components of `u` along the radial, azimuthal and axial directions at azimuth `ψ` -/
noncomputable def inPolar (ψ : ℝ) (u : V3 ℝ) : V3 ℝ :=
  ⟨V3.dot u ⟨Real.cos ψ, Real.sin ψ, 0⟩, V3.dot u ⟨-Real.sin ψ, Real.cos ψ, 0⟩, u.z⟩

end Wiz.Spec
