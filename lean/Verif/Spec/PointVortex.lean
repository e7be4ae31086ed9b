import Verif.Model.VortexPoint
import Mathlib.Data.Nat.Choose.Basic
import Mathlib.Algebra.BigOperators.Group.Finset.Basic

/-! # Specification: two-dimensional point vortices with a smooth core -/
namespace Wiz.Spec
noncomputable section

/-- Laguerre polynomial `L_n`. -/
def laguerre (n : ℕ) (x : ℝ) : ℝ :=
  ∑ k ∈ Finset.range (n + 1), (-1) ^ k * (n.choose k : ℝ) / (k.factorial : ℝ) * x ^ k

/-- Fraction of the circulation enclosed at squared scaled distance `q = r²/core²`, for each
documented smoothing model and (even) kernel order; `none` for undocumented choices.
Model 0: singular vortex.  Model 1 (Majda): `1 - L_n(q) e^{-q}`, order `2n+2 ≤ 8`.
Model 2 (Gaussian): `1 - e^{-q}` at order 2, `1 - L_n(q/2) e^{-q/2}`, order `2n+2 ≤ 10`. -/
def coreFunction (model order : ℤ) : Option (ℝ → ℝ) :=
  if model = 0 then some (fun _ => 1)
  else if model = 1 ∧ (order = 2 ∨ order = 4 ∨ order = 6 ∨ order = 8) then
    some (fun q => 1 - laguerre (order / 2 - 1).toNat q * Real.exp (-q))
  else if model = 2 ∧ order = 2 then some (fun q => 1 - Real.exp (-q))
  else if model = 2 ∧ (order = 4 ∨ order = 6 ∨ order = 8 ∨ order = 10) then
    some (fun q => 1 - laguerre (order / 2 - 1).toNat (q / 2) * Real.exp (-(q / 2)))
  else none

/-- A vortex: position, circulation, core size. -/
structure Vortex where
  pos : V2 ℝ
  circ : ℝ
  core : ℝ

/-- Velocity `Γ/(2π) ẑ × d / |d|² · w(|d|²/core²)` of one vortex at `p`, `0` within `√1e-15`
of the vortex. -/
def vortexVelocity (w : ℝ → ℝ) (p : V2 ℝ) (v : Vortex) : V2 ℝ :=
  let dx := p.x - v.pos.x
  let dy := p.y - v.pos.y
  let r2 := dx ^ 2 + dy ^ 2
  if r2 < 1e-15 then ⟨0, 0⟩
  else ⟨v.circ / (2 * Real.pi) * (-dy) / r2 * w (r2 / v.core ^ 2),
        v.circ / (2 * Real.pi) * dx / r2 * w (r2 / v.core ^ 2)⟩

end
end Wiz.Spec
