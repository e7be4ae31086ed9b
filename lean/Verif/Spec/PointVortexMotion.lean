import Verif.Spec.PointVortex
import Mathlib.Analysis.Calculus.Deriv.Basic

/-! # Specification: point vortices carried by the velocities the code returns -/
namespace Wiz.Spec
noncomputable section

/-- `u i` are the velocities which `vps_u` returns at the vortices themselves, when `n` vortices
of circulations `Γ` and common core size `c` stand at the points `p`. -/
def OwnVelocities {n : ℕ} (model order : ℤ) (Γ : Fin n → ℝ) (c : ℝ) (p u : Fin n → V2 ℝ) : Prop :=
  vpsU (List.ofFn p) (List.ofFn p) (List.ofFn Γ) model order (some (List.replicate n c))
    = .ok (List.ofFn fun i => (u i).fin)

/-- On the time interval `(a,b)` the vortices move with these velocities. -/
def CarriedOn {n : ℕ} (model order : ℤ) (Γ : Fin n → ℝ) (c : ℝ) (p : ℝ → Fin n → V2 ℝ) (a b : ℝ) : Prop :=
  ∀ t, a < t → t < b → ∃ u : Fin n → V2 ℝ, OwnVelocities model order Γ c (p t) u ∧
    ∀ i, HasDerivAt (fun s => (p s i).x) (u i).x t ∧ HasDerivAt (fun s => (p s i).y) (u i).y t

/-- Squared distance. -/
def gap2 (p q : V2 ℝ) : ℝ := (p.x - q.x) ^ 2 + (p.y - q.y) ^ 2

/-- Linear impulse `Σ Γᵢ xᵢ`, one component after the other. -/
def impulse {n : ℕ} (Γ : Fin n → ℝ) (p : Fin n → V2 ℝ) : ℝ × ℝ :=
  (∑ i, Γ i * (p i).x, ∑ i, Γ i * (p i).y)

/-- Angular impulse `Σ Γᵢ |xᵢ|²`. -/
def angularImpulse {n : ℕ} (Γ : Fin n → ℝ) (p : Fin n → V2 ℝ) : ℝ :=
  ∑ i, Γ i * ((p i).x ^ 2 + (p i).y ^ 2)

/-- Interaction energy `Σ_{i≠j} Γᵢ Γⱼ F(|xᵢ-xⱼ|²)` for a pair potential `F`
(Kirchhoff's energy for `F = log`, up to a constant factor). -/
def interaction {n : ℕ} (F : ℝ → ℝ) (Γ : Fin n → ℝ) (p : Fin n → V2 ℝ) : ℝ :=
  ∑ i, ∑ j, if i = j then 0 else Γ i * Γ j * F (gap2 (p i) (p j))

/-- Positions computed by the explicit Euler method, the velocities being those of `vps_u`, with
the successive time steps of the list. -/
inductive EulerRun {n : ℕ} (model order : ℤ) (Γ : Fin n → ℝ) (c : ℝ) :
    List ℝ → (Fin n → V2 ℝ) → (Fin n → V2 ℝ) → Prop
  | done (p) : EulerRun model order Γ c [] p p
  | step (dt : ℝ) (dts : List ℝ) (p u q : Fin n → V2 ℝ) (hu : OwnVelocities model order Γ c p u)
      (hr : EulerRun model order Γ c dts (fun i => ⟨(p i).x + dt * (u i).x, (p i).y + dt * (u i).y⟩) q) :
      EulerRun model order Γ c (dt :: dts) p q

end
end Wiz.Spec
