import Verif.Props.VortexCylinderSkewed
import Verif.Props.VortexLine

/-! # C67: the root vortex for an infinite skew (wake in the rotor plane) -/
namespace Wiz
open Spec Classical Real Set
noncomputable section

/-- C67 (infinite skew): with `m = ±inf` (the wake lying in the rotor plane, along `±x`) and a batch that leaves the rotor plane, the root
vortex is the half-line along `±x` at every point off its singular neighbourhood; a batch inside the rotor plane gets `nan` off the axis. -/
theorem C67_horizontal (pts : List PolarPt) (Γ : ℝ) (hΓ : Γ ≠ 0) (m : Num) (σ : ℝ) (hm : m = .pinf ∧ σ = 1 ∨ m = .ninf ∧ σ = -1)
    (i : ℕ) (q : PolarPt) (hi : pts[i]? = some q) :
    ∃ us, svcRootPolar pts (.fin Γ) m false = .ok us ∧
      ((∃ p ∈ pts, p.z ≠ 0) → ∀ P : V3 ℝ, P = ⟨q.r * cos q.psi, q.r * sin q.psi, q.z⟩ →
        1e-12 ≤ V3.norm P * (V3.norm P - σ * P.x) → 1e-5 ≤ V3.norm P →
        us[i]? = some (V3.fin (biotSavart Γ (Ioi 0) (fun s => ⟨σ*s, 0, 0⟩) (fun _ => ⟨σ, 0, 0⟩) P))) ∧
      ((∀ p ∈ pts, p.z = 0) → 1e-7 < q.r → us[i]? = some ⟨.nan, .nan, .nan⟩) := by
  have hne : pts ≠ [] := by rintro rfl; exact nomatch hi
  have hm0 : ¬ Num.Eqv m 0 := by rcases hm with ⟨rfl, -⟩ | ⟨rfl, -⟩ <;> exact fun h => h
  have hσ : σ * σ = 1 := by rcases hm with ⟨-, rfl⟩ | ⟨-, rfl⟩ <;> norm_num
  have hsc : Num.sin (Num.arctan m) = .fin σ ∧ Num.cos (Num.arctan m) = .fin 0 := by
    rcases hm with ⟨rfl, rfl⟩ | ⟨rfl, rfl⟩
    · constructor
      · change Num.fin (sin (π/2)) = _; rw [sin_pi_div_two]
      · change Num.fin (cos (π/2)) = _; rw [cos_pi_div_two]
    · constructor
      · change Num.fin (sin (-(π/2))) = _; rw [sin_neg, sin_pi_div_two]
      · change Num.fin (cos (-(π/2))) = _; rw [cos_neg, cos_pi_div_two]
  unfold svcRootPolar
  rw [if_neg (by simpa using hΓ), if_neg hm0, if_neg hne]
  by_cases hz : ∃ p ∈ pts, p.z ≠ 0
  · rw [if_pos hz]
    refine ⟨_, rfl, fun _ P hP h1 h2 => ?_, fun h => absurd hz (by push Not; exact h)⟩
    rw [List.getElem?_map, hi, Option.map_some]
    congr 1
    have hdot : V3.dot P ⟨σ, 0, 0⟩ = σ * P.x := by simp [V3.dot]; ring
    have h := (C60_halfline_biot_savart P ⟨σ, 0, 0⟩ (by simp [V3.dot]; exact hσ) Γ 0).1 (by rw [hdot]; exact h1) h2
    have hd : (fun s : ℝ => V3.smul s (⟨σ, 0, 0⟩ : V3 ℝ)) = fun s => ⟨σ*s, 0, 0⟩ := by
      funext s; ext <;> simp [mul_comm]
    rw [hd] at h
    have hl : svcRootLine q (.fin Γ) m = V3.fin (biotSavart Γ (Ioi 0) (fun s => ⟨σ*s, 0, 0⟩) (fun _ => ⟨σ, 0, 0⟩) P) := by
      unfold svcRootLine
      simp only [hsc.1, hsc.2, ← hP]
      have : (⟨.fin σ, 0, .fin 0⟩ : V3 Num) = V3.fin ⟨σ, 0, 0⟩ := rfl
      rw [this, h]
    simp only [hl]
    rfl
  · rw [if_neg hz]
    refine ⟨_, rfl, fun h => absurd h hz, fun _ hr => ?_⟩
    rw [List.getElem?_map, hi, Option.map_some]
    have hp : svcRootPlane q (.fin Γ) m = (.nan, .nan) := by
      have hnn : m / Num.sqrt (1 + m^2) = .nan := by
        have h2 : m^2 = .pinf := by
          rcases hm with ⟨rfl, -⟩ | ⟨rfl, -⟩
          · change Num.infSign 1 * Num.pinf = _
            rw [Num.infSign, if_pos one_pos]; rfl
          · change Num.infSign (-1) * Num.ninf = _
            rw [Num.infSign, if_neg (by norm_num), if_pos (by norm_num)]; rfl
        rw [h2]
        rcases hm with ⟨rfl, -⟩ | ⟨rfl, -⟩ <;> rfl
      have hd : (1 - Num.nan : Num) = .nan := rfl
      have hk : ∀ x : Num, x * .nan = .nan := fun x => by cases x <;> rfl
      have hk' : ∀ x : Num, Num.nan * x = .nan := fun x => by cases x <;> rfl
      have h1 : (1 / Num.nan : Num) = .nan := rfl
      unfold svcRootPlane
      simp only [hnn, if_pos hr, hk, hk', hd, h1]
    simp only [hp]
    rfl

/-- both parts are met: one unit above the rotor centre, and one unit beside it in the rotor plane, under `m = +inf`. -/
example : (∃ us, svcRootPolar [⟨0, 0, 1⟩] (.fin 1) .pinf false = .ok us ∧
      us[0]? = some (V3.fin (biotSavart 1 (Ioi 0) (fun s => ⟨1*s, 0, 0⟩) (fun _ => ⟨1, 0, 0⟩) ⟨0, 0, 1⟩))) ∧
    (∃ us, svcRootPolar [⟨1, π/2, 0⟩] (.fin 1) .pinf false = .ok us ∧ us[0]? = some ⟨.nan, .nan, .nan⟩) := by
  constructor
  · obtain ⟨us, e, h, -⟩ := C67_horizontal [⟨0, 0, 1⟩] 1 one_ne_zero .pinf 1 (Or.inl ⟨rfl, rfl⟩) 0 _ rfl
    refine ⟨us, e, h ⟨_, List.mem_singleton.2 rfl, one_ne_zero⟩ ⟨0, 0, 1⟩ (by ext <;> simp) ?_ ?_⟩
    · norm_num [V3.norm]
    · norm_num [V3.norm]
  · obtain ⟨us, e, -, h⟩ := C67_horizontal [⟨1, π/2, 0⟩] 1 one_ne_zero .pinf 1 (Or.inl ⟨rfl, rfl⟩) 0 _ rfl
    exact ⟨us, e, h (by simp) (by norm_num)⟩
end
end Wiz
