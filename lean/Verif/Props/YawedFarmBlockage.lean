import Verif.Props.YawedSolidAngle
import Verif.Spec.RotorAngle

/-! # C148: the speed along the wind in a farm of yawed turbines -/
set_option autoImplicit false
namespace Wiz
open Spec Real Set Classical
noncomputable section

theorem dot_list_sum_left (l : List (V3 ℝ)) (d : V3 ℝ) : V3.dot l.sum d = (l.map fun v => V3.dot v d).sum := by
  induction l with
  | nil => simp [V3.dot]
  | cons a l ih => rw [List.sum_cons, dot_add_left, ih, List.map_cons, List.sum_cons]

theorem dot_le_norm_unit (v d : V3 ℝ) (hd : V3.dot d d = 1) : |V3.dot v d| ≤ V3.norm v := by
  have h := cauchy_schwarz v d hd
  have hn : 0 ≤ V3.norm v := by unfold V3.norm; positivity
  exact abs_le_of_sq_le_sq h hn

/-- the velocity of one wake along the wind -/
theorem sheet_along (γ R : ℝ) (hR : 0 < R) (c v s d p : V3 ℝ) (hv : V3.dot v v = 1) (hs : V3.dot s s = 1) (ho : V3.dot v s = 0)
    (hd : V3.dot d d = 1) (hdv : V3.dot d v = 0) (hf : 0 < V3.dot d s)
    (hoff : if d = s then OffEdge R c v s p else ∃ D > 0, Clear D R c v s d p) :
    V3.dot (sheetFlow γ R c v s d p) d = γ/(4*π) * rotorAngle R c s d p := by
  have hsv : V3.dot s v = 0 := by rw [dot_comm]; exact ho
  have hpi := pi_pos
  -- the angle of the wind
  obtain ⟨χ, c2, c3⟩ : ∃ χ : ℝ, sin χ = V3.dot d (V3.cross v s) ∧ cos χ = V3.dot d s := by
    have e := expand_frame v s d hv hs hsv
    rw [hd, hdv] at e
    have hle : |V3.dot d (V3.cross v s)| ≤ 1 := by
      rw [← sq_le_one_iff_abs_le_one]; nlinarith [sq_nonneg (V3.dot d s)]
    refine ⟨arcsin (V3.dot d (V3.cross v s)), sin_arcsin (abs_le.1 hle).1 (abs_le.1 hle).2, ?_⟩
    rw [cos_arcsin, show 1 - V3.dot d (V3.cross v s)^2 = V3.dot d s^2 by linarith, Real.sqrt_sq hf.le]
  have hcos : 0 < cos χ := by rw [c3]; exact hf
  have hdd : d = V3.smul (sin χ) (V3.cross v s) + V3.smul (cos χ) s := by
    have := axes_expand v s hv hs ho d
    rw [c2, c3]
    conv_lhs => rw [← this]
    unfold fromAxes
    simp only [hdv]
    ext <;> simp
  obtain ⟨q, hq⟩ : ∃ q, q = inRotor c v s p := ⟨_, rfl⟩
  have ht : tan χ * cos χ = sin χ := tan_mul_cos hcos.ne'
  -- in the axes of the rotor
  have hvs : V3.dot (V3.cross v s) (V3.cross v s) = 1 := by
    have := expand_frame v s (V3.cross v s) hv hs hsv
    have h1 : V3.dot (V3.cross v s) v = 0 := by simp [V3.dot, V3.cross]; ring
    have h2 : V3.dot (V3.cross v s) s = 0 := by simp [V3.dot, V3.cross]; ring
    have h3 : V3.dot (V3.cross v s) (V3.cross v s) = V3.dot v v * V3.dot s s - V3.dot v s^2 := by simp [V3.dot, V3.cross]; ring
    rw [h3, hv, hs, ho]; ring
  have hvx : V3.dot (V3.cross v s) s = 0 := by simp [V3.dot, V3.cross]; ring
  have hmain : V3.dot (sheetFlow γ R c v s d p) d = V3.dot (skewTangField γ R (tan χ) q) ⟨sin χ, 0, cos χ⟩ ∧ (d = s → √(q.x^2 + q.y^2) ≠ R) := by
    have hax : ∀ F : V3 ℝ, V3.dot (fromAxes (V3.cross v s) v s F) d = V3.dot F ⟨sin χ, 0, cos χ⟩ := by
      intro F
      unfold fromAxes
      rw [dot_add_left, dot_add_left, dot_smul_left, dot_smul_left, dot_smul_left, dot_comm v d, hdv, dot_comm _ d, ← c2, dot_comm s d, ← c3]
      simp only [V3.dot]
    split_ifs at hoff with hds
    · have hne : √(q.x^2 + q.y^2) ≠ R := by rw [hq]; exact hoff.1
      refine ⟨?_, fun _ => hne⟩
      have hc1 : cos χ = 1 := by rw [c3, hds, hs]
      have hs1 : sin χ = 0 := by rw [c2, hds, dot_comm, hvx]
      have ht0 : tan χ = 0 := by rw [tan_eq_sin_div_cos, hs1, zero_div]
      have ho' : OffWake R 0 q := by
        have : tan (0:ℝ) = 0 := tan_zero
        rw [← this]
        apply off_around (by rw [cos_zero]; exact one_pos)
        rw [tan_zero, zero_mul, sub_zero]
        intro h0
        apply hne
        rw [h0, Real.sqrt_sq hR.le]
      have key : sheetFlow γ R c v s d p = wakeFlow γ R c v s p := by rw [hds]; exact (wakeFlow_sheet γ R hR c v s p hv hs ho hoff).symm
      rw [key, ht0, (C78_fields γ R hR q ho').1, hq]
      exact hax _
    · obtain ⟨D, hD, hcl⟩ := hoff
      obtain ⟨-, k⟩ := sheetFlow_axes γ R D χ hR.le hD c v s p hv hs ho hcos d hdd hcl
      rw [k, hax, hq]
      exact ⟨rfl, fun h => absurd h hds⟩
  rw [hmain.1]
  -- the position of the point
  obtain ⟨p', hp'⟩ : ∃ p', p' = p - c := ⟨_, rfl⟩
  obtain ⟨z, hz⟩ : ∃ z, z = V3.dot p' s := ⟨_, rfl⟩
  have hqz : q.z = z := by rw [hq, hz, hp']; rfl
  obtain ⟨r, hr⟩ : ∃ r, r = p' - V3.smul (z / V3.dot d s) d := ⟨_, rfl⟩
  obtain ⟨rr, hrr⟩ : ∃ rr, rr = V3.norm r := ⟨_, rfl⟩
  have hrr0 : 0 ≤ rr := by rw [hrr]; unfold V3.norm; positivity
  have hrs : V3.dot r s = 0 := by rw [hr, dot_sub_left, dot_smul_left, ← hz, div_mul_cancel₀ _ hf.ne', sub_self]
  have hr2 : V3.dot r (V3.cross v s)^2 + V3.dot r v^2 = rr^2 := by
    have e := expand_frame v s r hv hs hsv
    rw [hrs] at e
    rw [hrr, norm_sq, e]; ring
  have hqr : q = ⟨V3.dot r (V3.cross v s) + tan χ * z, V3.dot r v, z⟩ := by
    rw [hq, hr]
    ext
    · simp only [inRotor]
      rw [← hp', dot_sub_left, dot_smul_left, ← c2, ← c3, ← ht]
      field_simp; ring
    · simp only [inRotor]
      rw [← hp', dot_sub_left, dot_smul_left, hdv]; ring
    · rw [← hq]; exact hqz
  have hx : q.x - tan χ * q.z = V3.dot r (V3.cross v s) := by rw [hqr]; simp only; ring
  have hy' : q.y = V3.dot r v := by rw [hqr]
  have hne : z ≥ 0 → rr^2 ≠ R^2 := by
    intro hz0 h0
    split_ifs at hoff with hds
    · have h1 := hmain.2 hds
      have hs1 : sin χ = 0 := by rw [c2, hds, dot_comm, hvx]
      have ht0 : tan χ = 0 := by rw [tan_eq_sin_div_cos, hs1, zero_div]
      rw [ht0, zero_mul, sub_zero] at hx
      apply h1
      rw [hx, hy', hr2, h0, Real.sqrt_sq hR.le]
    · obtain ⟨D, hD, hcl⟩ := hoff
      obtain ⟨k, -⟩ := sheetFlow_axes γ R D χ hR.le hD c v s p hv hs ho hcos d hdd hcl
      obtain ⟨θ, e1, e2⟩ : ∃ θ, V3.dot r (V3.cross v s) = R * cos θ ∧ V3.dot r v = R * sin θ := by
        have hp := polar_form ⟨V3.dot r (V3.cross v s), V3.dot r v, 0⟩
        have hpr : polarR (V3.dot r (V3.cross v s)) (V3.dot r v) = R := by
          change √((V3.dot r (V3.cross v s))^2 + (V3.dot r v)^2) = R
          rw [hr2, h0, Real.sqrt_sq hR.le]
        have hx1 := congrArg V3.x hp
        have hy1 := congrArg V3.y hp
        simp only [hpr] at hx1 hy1
        exact ⟨_, hx1, hy1⟩
      have := k θ (z / cos χ) (by positivity)
      rw [← hq, hqr, wake_norm, skewDir_tan hcos, e1, e2] at this
      simp only at this
      rw [show R * cos θ + tan χ * z - z / cos χ * sin χ - R * cos θ = 0 by rw [← ht]; field_simp; ring,
        show R * sin θ - R * sin θ = 0 by ring, show z - z / cos χ * cos χ = 0 by field_simp; ring] at this
      simp at this
      linarith
  obtain ⟨f1, f2, f3, f4, f5⟩ := C147_field γ R χ hR hcos q _ _ rfl rfl
  have hΩ : z ≠ 0 → diskSolidAngle R q = diskSolidAngle R ⟨V3.norm (p' - V3.smul z s), 0, z⟩ := fun h0 => by
    rw [hq, hp']
    exact solid_frame hR v s _ hv hs hsv z _ (by rw [hz, hp']) rfl (by exact h0)
  rw [hx, hy', hr2, hqz] at f2 f3
  rw [hqz] at f1 f4 f5
  have hx0 : z = 0 → q.x^2 + q.y^2 = rr^2 := by
    intro h0
    rw [hqz, h0, mul_zero, sub_zero] at hx
    rw [hx, hy', hr2]
  unfold rotorAngle
  simp only [← hp', ← hz, ← hr, ← hrr]
  split_ifs with k1 k2 k3 k3
  · rw [f1 k1, hΩ k1.ne]
  · rw [f4 k2 (by rw [hx0 k2]; exact pow_lt_pow_left₀ k3 hrr0 two_ne_zero)]; field_simp; ring
  · have h1 := hne (by linarith)
    rw [f5 k2 (by
      rw [hx0 k2]
      exact lt_of_le_of_ne (pow_le_pow_left₀ hR.le (not_lt.1 k3) 2) (Ne.symm h1))]; ring
  · have h0 : 0 < z := lt_of_le_of_ne (not_lt.1 k1) (Ne.symm k2)
    rw [f2 h0 (pow_lt_pow_left₀ k3 hrr0 two_ne_zero), hΩ k2]; field_simp
  · have h0 : 0 < z := lt_of_le_of_ne (not_lt.1 k1) (Ne.symm k2)
    have h1 := hne (by linarith)
    rw [f3 h0 (lt_of_le_of_ne (pow_le_pow_left₀ hR.le (not_lt.1 k3) 2) (Ne.symm h1)), hΩ k2]; ring

/-- C148: speed along the wind.  Turbines built in the common horizontal wind `U d`, yawed by any angle that keeps them within 90 degrees of the wind, over the ground or not, and loaded with
`update_loading(Ct)`: at every point at least a radius from the wakes of the yawed turbines and off the edges of the others, the velocity along the wind given by `velocity_field` is
`U(1 - Σ a Ω/2π)`, the sum being over the rotors and their images below the ground, with `Ω` the solid angle of the rotor upstream of it, `4π` minus the solid angle in its wake, and minus the
solid angle around it; `4a(1-a) = Ct(1+a'_c)`.  Error: 3.01% of the sum of the intensities. -/
theorem C148_farm (mini : (ℝ → Num) → ℝ) (args : ℕ → TurbineArgs) (C ψ Ω apc a : ℕ → ℝ) (U : ℝ) (hU : 0 < U) (d : V3 ℝ) (ts : List ℕ)
    (ho : ∀ t ∈ ts, Orthonormal (args t).shaft (args t).vert) (hR : ∀ t ∈ ts, 0 < (args t).R)
    (hd : V3.dot d d = 1) (hwind : ∀ t ∈ ts, V3.dot d (args t).vert = 0 ∧ (args t).U0 = V3.smul U d) (hM : ∀ t ∈ ts, (args t).Model = "VC")
    (hψ : ∀ t ∈ ts, 0 < V3.dot d (turn (args t).vert (ψ t) (args t).shaft) ∧
      ((d = turn (args t).vert (ψ t) (args t).shaft ∧ -π < ψ t ∧ ψ t ≤ π) ∨
        1e-7 < |V3.dot d (V3.cross (args t).vert (turn (args t).vert (ψ t) (args t).shaft))|))
    (hΩ : ∀ t ∈ ts, ((∃ l : ℝ, (args t).Lambda = some (.fin l) ∧ Ω t = l * U / (args t).R) ∨ ((args t).Lambda = some .pinf ∧ Ω t = 800)) ∧
      20 ≤ Ω t * (args t).R / U)
    (hapc : ∀ t ∈ ts, apc t = C t * π * U^2 / Ω t / (4 * π * Ω t * (args t).R)^2)
    (hC : ∀ t ∈ ts, C t ≤ Ctc ∧ 0 ≤ 1 - C t * (1 + apc t))
    (ha : ∀ t ∈ ts, 4 * a t * (1 - a t) = C t * (1 + apc t) ∧ a t ≤ 1/2)
    (pts : List (V3 ℝ)) :
    let w := fun t => ((args t).build).run mini [.yaw (ψ t), .loading { Ct := some [.fin (C t)] }]
    let q := frun mini (ts.map .turbine) w []
    let wakes := fun t => wakeCentres (args t).Ground (args t).vert (args t).hub
    let s := fun t => turn (args t).vert (ψ t) (args t).shaft
    ∃ u, (farmVelocity q.1 q.2 pts {} (some (V3.smul U d))).1 = .ok u ∧ ∀ (i : ℕ) (p : V3 ℝ), pts[i]? = some p →
      (∀ t ∈ ts, ∀ c ∈ wakes t, if d = s t then OffEdge (args t).R c (args t).vert (s t) p else Clear (args t).R (args t).R c (args t).vert (s t) d p) →
      ∃ v, u[i]? = some (V3.fin v) ∧
        |V3.dot v d - U * (1 - (ts.map fun t => ((wakes t).map fun c => a t * rotorAngle (args t).R c (s t) d p / (2*π)).sum).sum)| ≤
          0.0301 * (ts.map fun t => (wakes t).length * (2 * |a t| * U)).sum := by
  intro w q wakes s
  obtain ⟨u, h1, h2⟩ := C135_thrust mini args C ψ Ω apc U hU d ts ho hR hd hwind hM hψ hΩ hapc hC pts
  refine ⟨u, h1, fun i p hpi hoff => ?_⟩
  obtain ⟨v, v1, v2⟩ := h2 i p hpi hoff
  refine ⟨v, v1, ?_⟩
  have hpi' := pi_pos
  have hγ : ∀ t ∈ ts, -U * (1 - √(1 - C t * (1 + apc t))) = -(2 * a t * U) := by
    intro t ht
    obtain ⟨a1, a2⟩ := ha t ht
    rw [← a1, show 1 - 4 * a t * (1 - a t) = (1 - 2 * a t)^2 by ring, Real.sqrt_sq (by linarith)]; ring
  have hrhs : (ts.map fun t => ((wakes t).length : ℝ) * |(-U * (1 - √(1 - C t * (1 + apc t))))|).sum = (ts.map fun t => (wakes t).length * (2 * |a t| * U)).sum := by
    congr 1
    apply List.map_congr_left
    intro t ht
    rw [hγ t ht, abs_neg, abs_mul, abs_mul, abs_two, abs_of_pos hU]
  have hle := (dot_le_norm_unit _ d hd).trans v2
  rw [hrhs] at hle
  refine le_of_eq_of_le ?_ hle
  congr 1
  rw [dot_sub_left, dot_add_left, dot_smul_left, hd, dot_list_sum_left, List.map_map]
  have hsum : (ts.map ((fun v => V3.dot v d) ∘ fun t => ((wakes t).map fun c => sheetFlow (-U * (1 - √(1 - C t * (1 + apc t)))) (args t).R c (args t).vert (s t) d p).sum)).sum
      = -(U * (ts.map fun t => ((wakes t).map fun c => a t * rotorAngle (args t).R c (s t) d p / (2*π)).sum).sum) := by
    rw [← neg_mul, ← sum_map_const_mul]
    congr 1
    apply List.map_congr_left
    intro t ht
    simp only [Function.comp]
    rw [dot_list_sum_left, List.map_map, ← sum_map_const_mul]
    congr 1
    apply List.map_congr_left
    intro c hc
    simp only [Function.comp]
    have hoft := hoff t ht c hc
    rw [sheet_along _ _ (hR t ht) c _ _ d p (ho t ht).vert (turn_ortho _ _ (ψ t) (ho t ht)).shaft (by rw [dot_comm]; exact (turn_ortho _ _ (ψ t) (ho t ht)).orth) hd (hwind t ht).1 (hψ t ht).1
      (by
        change if d = s t then OffEdge (args t).R c (args t).vert (s t) p else _
        split_ifs at hoft ⊢ with k
        · exact hoft
        · exact ⟨_, hR t ht, hoft⟩), hγ t ht]
    field_simp
    ring
  rw [hsum]
  ring

theorem upstream_clear {R D : ℝ} {c v s d p : V3 ℝ} (hs : V3.dot s s = 1) (ho : V3.dot v s = 0) (hf : 0 < V3.dot d s) (hz : V3.dot (p - c) s ≤ -D) (hD : 0 ≤ D) : Clear D R c v s d p := by
  intro θ t ht
  have h1 := dot_le_norm_unit (p - sheetPoint R c v s d θ t) s hs
  have h2 : V3.dot (p - sheetPoint R c v s d θ t) s = V3.dot (p - c) s - t * V3.dot d s := by
    have hx : V3.dot (V3.cross v s) s = 0 := by simp [V3.dot, V3.cross]; ring
    unfold sheetPoint
    rw [dot_sub_left, dot_add_left, dot_add_left, dot_add_left, dot_smul_left, dot_smul_left, dot_smul_left, hx, ho, dot_sub_left]
    ring
  have h3 := mul_nonneg ht hf.le
  rw [h2, abs_of_nonpos (by linarith)] at h1
  linarith

/-- C148: blockage.  For the same farms, at every point one radius or more upstream of all rotor planes (and not exactly at the radius of a rotor facing the wind), the velocity along the wind is
`U(1 - Σ a Ω/2π)` with `0 < Ω < 2π` the solid angles of the rotor disks and of their images, whatever the yaw angles: in particular no turbine, however yawed, speeds up the flow upstream. -/
theorem C148_upstream (mini : (ℝ → Num) → ℝ) (args : ℕ → TurbineArgs) (C ψ Ω apc a : ℕ → ℝ) (U : ℝ) (hU : 0 < U) (d : V3 ℝ) (ts : List ℕ)
    (ho : ∀ t ∈ ts, Orthonormal (args t).shaft (args t).vert) (hR : ∀ t ∈ ts, 0 < (args t).R)
    (hd : V3.dot d d = 1) (hwind : ∀ t ∈ ts, V3.dot d (args t).vert = 0 ∧ (args t).U0 = V3.smul U d) (hM : ∀ t ∈ ts, (args t).Model = "VC")
    (hψ : ∀ t ∈ ts, 0 < V3.dot d (turn (args t).vert (ψ t) (args t).shaft) ∧
      ((d = turn (args t).vert (ψ t) (args t).shaft ∧ -π < ψ t ∧ ψ t ≤ π) ∨
        1e-7 < |V3.dot d (V3.cross (args t).vert (turn (args t).vert (ψ t) (args t).shaft))|))
    (hΩ : ∀ t ∈ ts, ((∃ l : ℝ, (args t).Lambda = some (.fin l) ∧ Ω t = l * U / (args t).R) ∨ ((args t).Lambda = some .pinf ∧ Ω t = 800)) ∧
      20 ≤ Ω t * (args t).R / U)
    (hapc : ∀ t ∈ ts, apc t = C t * π * U^2 / Ω t / (4 * π * Ω t * (args t).R)^2)
    (hC : ∀ t ∈ ts, C t ≤ Ctc ∧ 0 ≤ 1 - C t * (1 + apc t))
    (ha : ∀ t ∈ ts, 4 * a t * (1 - a t) = C t * (1 + apc t) ∧ a t ≤ 1/2)
    (pts : List (V3 ℝ)) :
    let w := fun t => ((args t).build).run mini [.yaw (ψ t), .loading { Ct := some [.fin (C t)] }]
    let q := frun mini (ts.map .turbine) w []
    let wakes := fun t => wakeCentres (args t).Ground (args t).vert (args t).hub
    let s := fun t => turn (args t).vert (ψ t) (args t).shaft
    ∃ u, (farmVelocity q.1 q.2 pts {} (some (V3.smul U d))).1 = .ok u ∧ ∀ (i : ℕ) (p : V3 ℝ) (z ρ S : ℕ → V3 ℝ → ℝ), pts[i]? = some p →
      (∀ t c, z t c = V3.dot (p - c) (s t)) → (∀ t c, ρ t c = V3.norm (p - c - V3.smul (z t c) (s t))) → (∀ t c, S t c = diskSolidAngle (args t).R ⟨ρ t c, 0, z t c⟩) →
      (∀ t ∈ ts, ∀ c ∈ wakes t, z t c ≤ -(args t).R ∧ (d = s t → ρ t c ≠ (args t).R)) →
      (∀ t ∈ ts, ∀ c ∈ wakes t, 0 < S t c ∧ S t c < 2*π) ∧
      ∃ v, u[i]? = some (V3.fin v) ∧
        |V3.dot v d - U * (1 - (ts.map fun t => ((wakes t).map fun c => a t * S t c / (2*π)).sum).sum)| ≤
          0.0301 * (ts.map fun t => (wakes t).length * (2 * |a t| * U)).sum := by
  intro w q wakes s
  obtain ⟨u, h1, h2⟩ := C148_farm mini args C ψ Ω apc a U hU d ts ho hR hd hwind hM hψ hΩ hapc hC ha pts
  refine ⟨u, h1, fun i p z ρ S hpi hz hρ hS hup => ?_⟩
  have hos : ∀ t ∈ ts, Orthonormal (s t) (args t).vert := fun t ht => turn_ortho _ _ (ψ t) (ho t ht)
  have hzlt : ∀ t ∈ ts, ∀ c ∈ wakes t, z t c < 0 := fun t ht c hc => by linarith [(hup t ht c hc).1, hR t ht]
  refine ⟨fun t ht c hc => ?_, ?_⟩
  · obtain ⟨k1, k2, -⟩ := C111_solid_angle 1 (args t).R (hR t ht) ⟨ρ t c, 0, z t c⟩ (hzlt t ht c hc).ne
    rw [hS]; exact ⟨k1, k2⟩
  · obtain ⟨v, v1, v2⟩ := h2 i p hpi (by
      intro t ht c hc
      have hvs : V3.dot (args t).vert (s t) = 0 := by rw [dot_comm]; exact (hos t ht).orth
      split_ifs with hds
      · have hrad : √((inRotor c (args t).vert (s t) p).x^2 + (inRotor c (args t).vert (s t) p).y^2) = ρ t c := by
          have hexp := expand_frame (args t).vert (s t) (p - c) (hos t ht).vert (hos t ht).shaft (hos t ht).orth
          rw [hρ]
          have : V3.norm (p - c - V3.smul (z t c) (s t)) = √(V3.dot (p - c) (p - c) - 2*z t c*V3.dot (p - c) (s t) + z t c^2*V3.dot (s t) (s t)) := by
            unfold V3.norm V3.dot; congr 1; simp; ring
          rw [this, (hos t ht).shaft, hexp, ← hz]
          congr 1
          simp only [inRotor]
          ring
        refine ⟨by rw [hrad]; exact (hup t ht c hc).2 hds, fun hbad => ?_⟩
        have hb := hbad.2
        change |V3.dot (p - c) (s t)| < _ at hb
        rw [← hz, abs_of_neg (hzlt t ht c hc)] at hb
        have := (hup t ht c hc).1
        have := hR t ht
        norm_num at hb
        linarith
      · exact upstream_clear (hos t ht).shaft hvs (hψ t ht).1 (by rw [← hz]; exact (hup t ht c hc).1) (hR t ht).le)
    refine ⟨v, v1, ?_⟩
    have e : ∀ t ∈ ts, ((wakes t).map fun c => a t * rotorAngle (args t).R c (s t) d p / (2*π)).sum = ((wakes t).map fun c => a t * S t c / (2*π)).sum := by
      intro t ht
      congr 1
      apply List.map_congr_left
      intro c hc
      have hlt : V3.dot (p - c) (s t) < 0 := by rw [← hz]; exact hzlt t ht c hc
      have : rotorAngle (args t).R c (s t) d p = S t c := by
        unfold rotorAngle
        simp only [if_pos hlt]
        rw [hS, hρ, hz]
      rw [this]
    have e2 : (ts.map fun t => ((wakes t).map fun c => a t * rotorAngle (args t).R c (s t) d p / (2*π)).sum).sum = (ts.map fun t => ((wakes t).map fun c => a t * S t c / (2*π)).sum).sum := by
      congr 1
      exact List.map_congr_left e
    rw [← e2]
    exact v2

/-- the hypotheses are met: two turbines of radius 50 over the ground in a wind of 10 m/s along z, the first one yawed by 30 degrees, the second facing the wind 500 m behind; a point 200 m upstream of
the first -/
example :
    let args : ℕ → TurbineArgs := fun t => { R := 50, hub := ⟨0, 80, if t = 0 then 0 else 500⟩, shaft := ⟨0, 0, 1⟩, vert := ⟨0, 1, 0⟩, U0 := ⟨0, 0, 10⟩, Lambda := some .pinf, Ground := true, Model := "VC" }
    let ψ : ℕ → ℝ := fun t => if t = 0 then π/6 else 0
    let d : V3 ℝ := ⟨0, 0, 1⟩
    let s := fun t => turn (args t).vert (ψ t) (args t).shaft
    let p : V3 ℝ := ⟨0, 80, -200⟩
    0 < V3.dot d (s 0) ∧ 1e-7 < |V3.dot d (V3.cross (args 0).vert (s 0))| ∧ d = s 1 ∧
    (∀ t ∈ [0, 1], ∀ c ∈ wakeCentres true (args t).vert (args t).hub, V3.dot (p - c) (s t) ≤ -50 ∧ (d = s t → V3.norm (p - c - V3.smul (V3.dot (p - c) (s t)) (s t)) ≠ 50)) := by
  intro args ψ d s p
  have h0 : s 0 = ⟨1/2, 0, √3/2⟩ := by
    simp only [s, args, ψ, turn, if_true]
    rw [cos_pi_div_six, sin_pi_div_six]
    ext <;> simp [V3.dot, V3.cross]
  have h1 : s 1 = d := by
    simp only [s, args, ψ, turn, d]
    norm_num
    ext <;> simp [V3.dot, V3.cross]
  have hs3 : 1 < √3 := by rw [Real.lt_sqrt (by norm_num)]; norm_num
  refine ⟨?_, ?_, h1.symm, ?_⟩
  · rw [h0]; simp [V3.dot, d]
  · rw [h0]; simp [V3.dot, V3.cross, d, args]; norm_num
  · intro t ht c hc
    simp only [List.mem_cons, List.not_mem_nil, or_false] at ht
    rcases ht with rfl | rfl
    · have hcc : c.x = 0 ∧ c.z = 0 := by
        simp only [wakeCentres, args, if_true, List.mem_cons, List.not_mem_nil, or_false] at hc
        rcases hc with h | h <;> rw [h] <;> simp [groundImage, V3.dot]
      rw [h0]
      refine ⟨?_, fun hbad => ?_⟩
      · simp [V3.dot, p, hcc.1, hcc.2]; linarith
      · have := congrArg V3.x hbad
        simp [d] at this
    · have : c = ⟨0, 80, 500⟩ ∨ c = ⟨0, -80, 500⟩ := by
        simp only [wakeCentres, args, if_true, List.mem_cons, List.not_mem_nil, or_false] at hc
        rcases hc with h | h
        · left; rw [h]; norm_num
        · right; rw [h]; ext <;> simp [groundImage, V3.dot]; norm_num
      rw [h1]
      rcases this with rfl | rfl
      · refine ⟨by simp [V3.dot, p, d]; norm_num, fun _ => ?_⟩
        simp [V3.norm, V3.dot, p, d]
      · refine ⟨by simp [V3.dot, p, d]; norm_num, fun _ => ?_⟩
        simp [V3.norm, V3.dot, p, d]
        norm_num

end
end Wiz
