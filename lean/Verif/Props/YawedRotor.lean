import Verif.Props.YawedFarm
import Verif.Props.RotorDisk
import Verif.Props.Momentum

/-! # C146: momentum theory of a yawed rotor, from its loading

The axial momentum theory of C81 for a rotor that does not face the wind: along the wind the air is slowed down by the
induction factor `a` over the whole rotor disk and by `2a` in the far wake. -/
set_option autoImplicit false
namespace Wiz
open Spec Real Set
noncomputable section

/-- points inside the skewed wake, `ρ` or less from its axis, are at distance `(R-ρ) cos χ` or more of its surface -/
theorem inside_dist {R χ x y z ρ : ℝ} (hχ : 0 < cos χ) (hρ : x^2 + y^2 ≤ ρ^2) (hρ0 : 0 ≤ ρ) (hρR : ρ ≤ R) (θ t : ℝ) :
    (R - ρ) * cos χ ≤ V3.norm ((⟨x + tan χ * z, y, z⟩ : V3 ℝ) - wakePoint R (tan χ) θ t) := by
  rw [wake_norm, skewDir_tan hχ]
  apply Real.le_sqrt_of_sq_le
  have ht : tan χ * cos χ = sin χ := tan_mul_cos hχ.ne'
  obtain ⟨ζ, hζ⟩ : ∃ ζ, ζ = z - t * cos χ := ⟨_, rfl⟩
  obtain ⟨X, hX⟩ : ∃ X, X = x - R * cos θ + tan χ * ζ := ⟨_, rfl⟩
  have e1 : x + tan χ * z - t * sin χ - R * cos θ = X := by rw [hX, hζ, ← ht]; ring
  simp only
  rw [e1, ← hζ]
  have h1 := sin_sq_add_cos_sq θ
  have h2 := sin_sq_add_cos_sq χ
  have hproj : X * (cos θ * cos χ) + (y - R * sin θ) * (sin θ * cos χ) + ζ * (-(cos θ * sin χ)) = (x * cos θ + y * sin θ - R) * cos χ := by
    rw [hX, ← ht]
    linear_combination (-(R * cos χ)) * h1
  have hle : x * cos θ + y * sin θ ≤ ρ := by
    refine (le_abs_self _).trans (abs_le_of_sq_le_sq ?_ hρ0)
    nlinarith [sq_nonneg (x * sin θ - y * cos θ)]
  have hn : (cos θ * cos χ)^2 + (sin θ * cos χ)^2 + (-(cos θ * sin χ))^2 ≤ 1 := by
    have : (cos θ * cos χ)^2 + (sin θ * cos χ)^2 + (-(cos θ * sin χ))^2 = 1 - (sin θ * sin χ)^2 := by
      linear_combination (sin χ^2 + cos χ^2) * h1 + h2
    rw [this]; linarith [sq_nonneg (sin θ * sin χ)]
  have hcs : (X * (cos θ * cos χ) + (y - R * sin θ) * (sin θ * cos χ) + ζ * (-(cos θ * sin χ)))^2 ≤ X^2 + (y - R * sin θ)^2 + ζ^2 := by
    generalize cos θ * cos χ = n1 at *
    generalize sin θ * cos χ = n2 at *
    generalize -(cos θ * sin χ) = n3 at *
    generalize y - R * sin θ = Y at *
    have i1 : (X^2 + Y^2 + ζ^2) * (n1^2 + n2^2 + n3^2) - (X * n1 + Y * n2 + ζ * n3)^2 = (X*n2 - Y*n1)^2 + (X*n3 - ζ*n1)^2 + (Y*n3 - ζ*n2)^2 := by ring
    have i2 := mul_le_mul_of_nonneg_left hn (show 0 ≤ X^2 + Y^2 + ζ^2 by positivity)
    linarith [sq_nonneg (X*n2 - Y*n1), sq_nonneg (X*n3 - ζ*n1), sq_nonneg (Y*n3 - ζ*n2)]
  rw [hproj] at hcs
  refine le_trans ?_ hcs
  rw [mul_pow, mul_pow]
  apply mul_le_mul_of_nonneg_right _ (sq_nonneg _)
  have : 0 ≤ R - ρ := by linarith
  nlinarith

/-- the component of a vector along a direction at angle `χ` of the axis -/
theorem along_le {e f χ E : ℝ} (h1 : |e| ≤ E) (h2 : |f| ≤ E) : |e * sin χ + f * cos χ| ≤ √2 * E := by
  have hE : 0 ≤ E := (abs_nonneg _).trans h1
  apply abs_le_of_sq_le_sq _ (by positivity)
  rw [mul_pow, Real.sq_sqrt (by norm_num)]
  have a1 := sq_le_sq' (by linarith [abs_le.1 h1]) (abs_le.1 h1).2
  have a2 := sq_le_sq' (by linarith [abs_le.1 h2]) (abs_le.1 h2).2
  nlinarith [sq_nonneg (e * cos χ - f * sin χ), sin_sq_add_cos_sq χ]

theorem half_along {χ : ℝ} (hχ : 0 < cos χ) : tan (χ/2) * sin χ + cos χ = 1 := by
  rw [tan_half_cos hχ]
  have : 1 + cos χ ≠ 0 := by linarith
  field_simp
  linear_combination sin_sq_add_cos_sq χ

/-- the exact field inside the disk, along the wake -/
theorem disk_along {R x y χ : ℝ} (γ : ℝ) (hR : 0 < R) (h : x^2 + y^2 < R^2) (hχ : 0 < cos χ) :
    (skewTangField γ R (tan χ) ⟨x, y, 0⟩).x * sin χ + (skewTangField γ R (tan χ) ⟨x, y, 0⟩).z * cos χ = γ/2 := by
  obtain ⟨fx, -, fz⟩ := field_disk (γ := γ) hR h hχ
  rw [fx, fz]
  linear_combination γ/2 * half_along hχ

/-- the velocity that a yawed turbine returns at the point `r + τ d` of its wake, `d` being the direction of the wind -/
theorem yaw_inside (mini : (ℝ → Num) → ℝ) (R : ℝ) (hub shaft vert U0 : V3 ℝ) (L : Option Num) (G : Bool)
    (M : String) (ho : Orthonormal shaft vert) (hR : 0 < R) (h : List Op) (w : WT) (hw : w = (WT.new R hub shaft vert U0 L G M).run mini h)
    (pts : List (V3 ℝ)) (o : Opts) (hta : o.tang = true) (hlo : o.longi = false) (hro : o.root = false) (hnw : o.no_wake = false)
    (hM : o.Model.getD w.Model = "VC") (hgr : o.ground.getD w.Ground = false) (γ : ℝ) (hg : w.gamma_t = some [.fin γ]) (hc : w.chi = none)
    (U : ℝ) (hU : 0 < U) (d : V3 ℝ) (hd : V3.dot d d = 1) (hdv : V3.dot d vert = 0) (hwind : w.U0_g = V3.smul U d)
    (hf : 0 < V3.dot d w.e_shaft_g) (hy : 1e-7 < |V3.dot d (V3.cross vert w.e_shaft_g)|) :
    ∃ χ u, sin χ = V3.dot d (V3.cross vert w.e_shaft_g) ∧ cos χ = V3.dot d w.e_shaft_g ∧ (w.computeU pts o).1 = .ok u ∧
      (∀ v : V3 ℝ, V3.dot v d = V3.dot v (V3.cross vert w.e_shaft_g) * sin χ + V3.dot v w.e_shaft_g * cos χ) ∧
      ∀ (i : ℕ) (r : V3 ℝ) (τ ρ : ℝ), pts[i]? = some (w.r_hub + r + V3.smul τ d) → V3.dot r w.e_shaft_g = 0 → V3.norm r ≤ ρ → ρ < R →
        V3.dot r (V3.cross vert w.e_shaft_g)^2 + V3.dot r vert^2 ≤ ρ^2 ∧
        ∃ v : V3 ℝ, u[i]? = some (V3.fin v) ∧ ∀ v0 F : V3 ℝ, v0 = v - (if o.only_ind then 0 else w.U0_g) →
          F = skewTangField γ R (tan χ) ⟨V3.dot r (V3.cross vert w.e_shaft_g) + tan χ * (τ * cos χ), V3.dot r vert, τ * cos χ⟩ →
          ∀ x E, x = R / ((R - ρ) * V3.dot d w.e_shaft_g) → E = |γ| * (π^2/(3 * 179^2) * (x * (x + 2)) * (1 + 10 * x + 18 * x^2)) →
          |V3.dot v0 (V3.cross vert w.e_shaft_g) - F.x| ≤ E ∧ |V3.dot v0 vert - F.y| ≤ E ∧ |V3.dot v0 w.e_shaft_g - F.z| ≤ E := by
  obtain ⟨χ, c1, c2, c3, -⟩ := wind_chi mini R hub shaft vert U0 L G M ho h w hw hc U hU d hd hdv hwind pts o
  obtain ⟨a1, a2, a3, a4, a5, a6⟩ := rotorAxes_run mini R hub shaft vert U0 L G M ho h
  rw [← hw] at a1 a2 a3 a5 a6
  have hcos : 0 < cos χ := by rw [c3]; exact hf
  have hsk : 1e-7 < |χ| := by
    rw [← c2] at hy
    exact lt_of_lt_of_le hy (abs_sin_le_abs)
  have H := C114_turbine mini R hub shaft vert U0 L G M ho hR h pts o γ χ
  simp only [← hw] at H
  obtain ⟨u, hu, hall⟩ := H hta hlo hro hnw hM hgr hg c1 hsk hcos.ne'
  have hdd : d = V3.smul (sin χ) (V3.cross vert w.e_shaft_g) + V3.smul (cos χ) w.e_shaft_g := by
    have := axes_expand vert w.e_shaft_g a4 a6 a5 d
    rw [c2, c3]
    conv_lhs => rw [← this]
    unfold fromAxes
    simp only [hdv]
    ext <;> simp
  refine ⟨χ, u, c2, c3, hu, ?_, ?_⟩
  · intro v
    conv_lhs => rw [hdd]
    simp only [V3.dot, V3.add_x, V3.add_y, V3.add_z, V3.smul_x, V3.smul_y, V3.smul_z]
    ring
  · intro i r τ ρ hi hr hρ hρR
    have hρ0 : 0 ≤ ρ := le_trans (by unfold V3.norm; positivity) hρ
    have hr2 : V3.dot r (V3.cross vert w.e_shaft_g)^2 + V3.dot r vert^2 ≤ ρ^2 := by
      have e := axes_expand vert w.e_shaft_g a4 a6 a5 r
      have n := axes_norm vert w.e_shaft_g a4 a6 a5 ⟨V3.dot r (V3.cross vert w.e_shaft_g), V3.dot r vert, V3.dot r w.e_shaft_g⟩
      rw [e, hr] at n
      rw [n] at hρ
      unfold V3.norm at hρ
      simp only [ne_eq, OfNat.ofNat_ne_zero, not_false_eq_true, zero_pow, add_zero] at hρ
      exact (Real.sqrt_le_left hρ0).1 hρ
    refine ⟨hr2, ?_⟩
    have hD : 0 < (R - ρ) * V3.dot d w.e_shaft_g := mul_pos (by linarith) hf
    obtain ⟨v, v1, v2⟩ := hall i _ ⟨V3.dot r (V3.cross vert w.e_shaft_g) + tan χ * (τ * cos χ), V3.dot r vert, τ * cos χ⟩ _ hi hD
      (by
        have ht : tan χ * cos χ = sin χ := tan_mul_cos hcos.ne'
        have e0 : w.r_hub + r + V3.smul τ d - w.r_hub = r + V3.smul τ d := by ext <;> simp <;> ring
        rw [e0, dot_add_left, dot_add_left, dot_add_left, dot_smul_left, dot_smul_left, dot_smul_left, hdv, hr, ← c2, ← c3]
        ext
        · simp only; rw [← ht]; ring
        · simp
        · simp)
      (by
        intro θ t _
        rw [← c3]
        exact inside_dist hcos hr2 hρ0 hρR.le θ t)
    refine ⟨v, v1, fun v0 F h1 h2 x E hx hE => v2 v0 F h1 h2 E ?_⟩
    rw [hE, hx]

/-- C146: a yawed rotor.  After any history, a turbine with one cylinder of intensity `γ` in a horizontal wind of direction `d` (less than 90 degrees from the shaft, skewed by more than 1e-7; no
earlier evaluation): at every point of the rotor disk the induced velocity along the wind is `γ/2`, and the mean of the induced velocities of two opposite points is `γ/2` along the shaft,
`γ/2 tan(χ/2)` across it in the direction of the skew and `0` vertically (`tan(χ/2) = sin χ/(1+cos χ)`), up to the error `E` of the azimuthal quadrature at the distance `ρ` from the hub. -/
theorem C146_rotor (mini : (ℝ → Num) → ℝ) (R : ℝ) (hub shaft vert U0 : V3 ℝ) (L : Option Num) (G : Bool)
    (M : String) (ho : Orthonormal shaft vert) (hR : 0 < R) (h : List Op) (pts : List (V3 ℝ)) (o : Opts)
    (hta : o.tang = true) (hlo : o.longi = false) (hro : o.root = false) (hnw : o.no_wake = false) (γ U : ℝ) (hU : 0 < U) (d : V3 ℝ) (hd : V3.dot d d = 1) (hdv : V3.dot d vert = 0) :
    let w := (WT.new R hub shaft vert U0 L G M).run mini h
    let s := w.e_shaft_g
    let c := V3.cross vert s
    o.Model.getD w.Model = "VC" → o.ground.getD w.Ground = false → w.gamma_t = some [.fin γ] → w.chi = none → w.U0_g = V3.smul U d →
    0 < V3.dot d s → 1e-7 < |V3.dot d c| →
    ∃ u, (w.computeU pts o).1 = .ok u ∧ ∀ (i : ℕ) (r : V3 ℝ), pts[i]? = some (w.r_hub + r) → V3.dot r s = 0 → V3.norm r < R →
      ∃ v : V3 ℝ, u[i]? = some (V3.fin v) ∧ ∀ v0 : V3 ℝ, v0 = v - (if o.only_ind then 0 else w.U0_g) →
        ∀ x E, x = R / ((R - V3.norm r) * V3.dot d s) → E = |γ| * (π^2/(3 * 179^2) * (x * (x + 2)) * (1 + 10 * x + 18 * x^2)) →
        |V3.dot v0 d - γ/2| ≤ √2 * E ∧
        ∀ j : ℕ, pts[j]? = some (w.r_hub - r) → ∃ v' : V3 ℝ, u[j]? = some (V3.fin v') ∧ ∀ m : V3 ℝ, m = V3.smul (1/2) (v0 + (v' - (if o.only_ind then 0 else w.U0_g))) →
          |V3.dot m s - γ/2| ≤ E ∧ |V3.dot m c - γ/2 * (V3.dot d c / (1 + V3.dot d s))| ≤ E ∧ |V3.dot m vert| ≤ E := by
  intro w s c hM hgr hg hc hwind hf hy
  obtain ⟨χ, u, c2, c3, hu, hdot, hall⟩ := yaw_inside mini R hub shaft vert U0 L G M ho hR h w rfl pts o hta hlo hro hnw hM hgr γ hg hc U hU d hd hdv hwind hf hy
  have hcos : 0 < cos χ := by rw [c3]; exact hf
  refine ⟨u, hu, fun i r hi hr hrR => ?_⟩
  have e0 : ∀ y : V3 ℝ, y + V3.smul 0 d = y := fun y => by ext <;> simp
  obtain ⟨hq, v, v1, v2⟩ := hall i r 0 (V3.norm r) (by rw [e0]; exact hi) hr le_rfl hrR
  have hn0 : 0 ≤ V3.norm r := by unfold V3.norm; positivity
  have hq' : V3.dot r c^2 + V3.dot r vert^2 < R^2 := lt_of_le_of_lt hq (by nlinarith)
  refine ⟨v, v1, fun v0 hv0 x E hx hE => ?_⟩
  obtain ⟨b1, b2, b3⟩ := v2 v0 _ hv0 rfl x E hx hE
  simp only [zero_mul, mul_zero, add_zero] at b1 b2 b3
  refine ⟨?_, fun j hj => ?_⟩
  · rw [hdot, ← disk_along γ hR hq' hcos]
    have := along_le (χ := χ) b1 b3
    convert this using 2
    change _ = (_ - (skewTangField γ R (tan χ) ⟨V3.dot r c, V3.dot r vert, 0⟩).x) * sin χ + (_ - (skewTangField γ R (tan χ) ⟨V3.dot r c, V3.dot r vert, 0⟩).z) * cos χ
    ring
  · have hneg : ∀ y : V3 ℝ, V3.dot (V3.smul (-1) r) y = - V3.dot r y := fun y => by rw [dot_smul_left]; ring
    have hnn : V3.norm (V3.smul (-1) r) = V3.norm r := by unfold V3.norm; simp
    obtain ⟨-, v', w1, w2⟩ := hall j (V3.smul (-1) r) 0 (V3.norm r) (by rw [e0, hj]; congr 1; ext <;> simp <;> ring) (by rw [hneg, hr, neg_zero]) hnn.le hrR
    refine ⟨v', w1, fun m hm => ?_⟩
    obtain ⟨d1, d2, d3⟩ := w2 _ _ rfl rfl x E hx hE
    simp only [zero_mul, mul_zero, add_zero, hneg] at d1 d2 d3
    obtain ⟨fx, fy, fz⟩ := field_disk (γ := γ) hR hq' hcos
    obtain ⟨gx, gy, gz⟩ := field_disk (γ := γ) (x := -V3.dot r c) (y := -V3.dot r vert) hR (by rw [neg_sq, neg_sq]; exact hq') hcos
    rw [diskA_neg] at gx gz
    rw [diskB_neg] at gy
    change |_ - (skewTangField γ R (tan χ) ⟨V3.dot r c, V3.dot r vert, 0⟩).x| ≤ E at b1
    change |_ - (skewTangField γ R (tan χ) ⟨V3.dot r c, V3.dot r vert, 0⟩).y| ≤ E at b2
    change |_ - (skewTangField γ R (tan χ) ⟨V3.dot r c, V3.dot r vert, 0⟩).z| ≤ E at b3
    change |_ - (skewTangField γ R (tan χ) ⟨-V3.dot r c, -V3.dot r vert, 0⟩).x| ≤ E at d1
    change |_ - (skewTangField γ R (tan χ) ⟨-V3.dot r c, -V3.dot r vert, 0⟩).y| ≤ E at d2
    change |_ - (skewTangField γ R (tan χ) ⟨-V3.dot r c, -V3.dot r vert, 0⟩).z| ≤ E at d3
    rw [fx] at b1; rw [fy] at b2; rw [fz] at b3
    rw [gx] at d1; rw [gy] at d2; rw [gz] at d3
    have ht : tan (χ/2) = V3.dot d c / (1 + V3.dot d s) := by rw [tan_half_cos hcos, c2, c3]
    rw [← ht]
    generalize v' - (if o.only_ind then 0 else w.U0_g) = v0' at *
    change |V3.dot v0 c - _| ≤ E at b1
    change |V3.dot v0 s - _| ≤ E at b3
    change |V3.dot v0' c - _| ≤ E at d1
    change |V3.dot v0' s - _| ≤ E at d3
    rw [hm, dot_smul_left, dot_smul_left, dot_smul_left, dot_add_left, dot_add_left, dot_add_left]
    rw [abs_le] at b1 b2 b3 d1 d2 d3
    refine ⟨abs_le.2 ⟨?_, ?_⟩, abs_le.2 ⟨?_, ?_⟩, abs_le.2 ⟨?_, ?_⟩⟩ <;> linarith [b1.1, b1.2, b2.1, b2.2, b3.1, b3.2, d1.1, d1.2, d2.1, d2.2, d3.1, d3.2]

/-- C146: far wake of a yawed rotor.  At the distance `τ > 2R` downwind of a point of the rotor disk, the induced velocity along the wind is `γ` and its component across the shaft
`γ tan(χ/2)`, up to `|γ| R/(τ-2R)` and the error `E` of the quadrature. -/
theorem C146_wake (mini : (ℝ → Num) → ℝ) (R : ℝ) (hub shaft vert U0 : V3 ℝ) (L : Option Num) (G : Bool)
    (M : String) (ho : Orthonormal shaft vert) (hR : 0 < R) (h : List Op) (pts : List (V3 ℝ)) (o : Opts)
    (hta : o.tang = true) (hlo : o.longi = false) (hro : o.root = false) (hnw : o.no_wake = false) (γ U : ℝ) (hU : 0 < U) (d : V3 ℝ) (hd : V3.dot d d = 1) (hdv : V3.dot d vert = 0) :
    let w := (WT.new R hub shaft vert U0 L G M).run mini h
    let s := w.e_shaft_g
    let c := V3.cross vert s
    o.Model.getD w.Model = "VC" → o.ground.getD w.Ground = false → w.gamma_t = some [.fin γ] → w.chi = none → w.U0_g = V3.smul U d →
    0 < V3.dot d s → 1e-7 < |V3.dot d c| →
    ∃ u, (w.computeU pts o).1 = .ok u ∧ ∀ (i : ℕ) (r : V3 ℝ) (τ : ℝ), pts[i]? = some (w.r_hub + r + V3.smul τ d) → V3.dot r s = 0 → V3.norm r < R → 2 * R < τ →
      ∃ v : V3 ℝ, u[i]? = some (V3.fin v) ∧ ∀ v0 : V3 ℝ, v0 = v - (if o.only_ind then 0 else w.U0_g) →
        ∀ x E, x = R / ((R - V3.norm r) * V3.dot d s) → E = |γ| * R / (τ - 2*R) + |γ| * (π^2/(3 * 179^2) * (x * (x + 2)) * (1 + 10 * x + 18 * x^2)) →
        |V3.dot v0 d - γ| ≤ √2 * E ∧ |V3.dot v0 c - γ * (V3.dot d c / (1 + V3.dot d s))| ≤ E ∧ |V3.dot v0 vert| ≤ E := by
  intro w s c hM hgr hg hc hwind hf hy
  obtain ⟨χ, u, c2, c3, hu, hdot, hall⟩ := yaw_inside mini R hub shaft vert U0 L G M ho hR h w rfl pts o hta hlo hro hnw hM hgr γ hg hc U hU d hd hdv hwind hf hy
  have hcos : 0 < cos χ := by rw [c3]; exact hf
  refine ⟨u, hu, fun i r τ hi hr hrR hτ => ?_⟩
  obtain ⟨hq, v, v1, v2⟩ := hall i r τ (V3.norm r) hi hr le_rfl hrR
  have hn0 : 0 ≤ V3.norm r := by unfold V3.norm; positivity
  have hq' : V3.dot r c^2 + V3.dot r vert^2 < R^2 := lt_of_le_of_lt hq (by nlinarith)
  refine ⟨v, v1, fun v0 hv0 x E hx hE => ?_⟩
  obtain ⟨b1, b2, b3⟩ := v2 v0 _ hv0 rfl x _ hx rfl
  obtain ⟨f1, f2, f3⟩ := field_far (γ := γ) hR hq' hcos (z := τ * cos χ) (mul_lt_mul_of_pos_right hτ hcos)
  rw [mul_div_cancel_right₀ _ hcos.ne'] at f1 f2 f3
  generalize (⟨V3.dot r c + tan χ * (τ * cos χ), V3.dot r vert, τ * cos χ⟩ : V3 ℝ) = q at *
  change |V3.dot v0 c - (skewTangField γ R (tan χ) q).x| ≤ _ at b1
  change |V3.dot v0 vert - (skewTangField γ R (tan χ) q).y| ≤ _ at b2
  change |V3.dot v0 s - (skewTangField γ R (tan χ) q).z| ≤ _ at b3
  generalize skewTangField γ R (tan χ) q = F at *
  have ht : tan (χ/2) = V3.dot d c / (1 + V3.dot d s) := by rw [tan_half_cos hcos, c2, c3]
  have g1 : |V3.dot v0 c - γ * tan (χ/2)| ≤ E := by
    rw [hE]
    have := abs_sub_le (V3.dot v0 c) F.x (γ * tan (χ/2))
    linarith
  have g2 : |V3.dot v0 vert| ≤ E := by
    rw [hE]
    have := abs_sub_le (V3.dot v0 vert) F.y 0
    rw [sub_zero, sub_zero] at this
    linarith
  have g3 : |V3.dot v0 s - γ| ≤ E := by
    rw [hE]
    have := abs_sub_le (V3.dot v0 s) F.z γ
    linarith
  refine ⟨?_, by rw [← ht]; exact g1, g2⟩
  have := along_le (χ := χ) g1 g3
  convert this using 2
  rw [hdot]
  change V3.dot v0 c * sin χ + V3.dot v0 s * cos χ - γ = _
  linear_combination γ * half_along hcos

/-- C146, from the thrust: a yawed turbine loaded with `update_loading(Ct)` and one cylinder (mean thrust coefficient `C` below the high-thrust limit, tip-speed ratio of 20 or more, or infinite).  Along the
wind `U d` the velocity is `U(1-a)` at every point of the rotor disk, the mean over two opposite points is `U(cos χ - a)` along the shaft, and the velocity along the wind tends to `U(1-2a)` in the wake,
with `4a(1-a) = C(1+a'_c)`. -/
theorem C146_thrust (mini : (ℝ → Num) → ℝ) (R : ℝ) (hub shaft vert U0 : V3 ℝ) (L : Option Num) (G : Bool)
    (M : String) (ho : Orthonormal shaft vert) (hR : 0 < R) (h : List Op) (pts : List (V3 ℝ)) (o : Opts)
    (hta : o.tang = true) (hlo : o.longi = false) (hro : o.root = false) (hnw : o.no_wake = false) (hoi : o.only_ind = false)
    (U : ℝ) (hU : 0 < U) (d : V3 ℝ) (hd : V3.dot d d = 1) (hdv : V3.dot d vert = 0)
    (Cts : List ℝ) (hC : Cts ≠ []) (Lam : Num) (Ω : ℝ) (hΩ : (∃ l : ℝ, Lam = .fin l ∧ Ω = l * U / R) ∨ (Lam = .pinf ∧ Ω = 800))
    (h20 : 20 ≤ Ω * R / U) (C : ℝ) (hC' : C = Cts.sum / Cts.length) (hC0 : 0 ≤ C) (hC1 : C ≤ Ctc)
    (apc : ℝ) (hap : apc = C * π * U^2 / Ω / (4 * π * Ω * R)^2) (hsq : C * (1 + apc) ≤ 1) :
    let w0 := (WT.new R hub shaft vert U0 L G M).run mini h
    let w := w0.step mini (.loading { Ct := some (Cts.map .fin), Lambda := some Lam, nCyl := some 1 })
    let s := w.e_shaft_g
    o.Model.getD w.Model = "VC" → o.ground.getD w.Ground = false → w.chi = none → w0.U0_g = V3.smul U d →
    0 < V3.dot d s → 1e-7 < |V3.dot d (V3.cross vert s)| →
    ∃ a u, 4 * a * (1 - a) = C * (1 + apc) ∧ 0 ≤ a ∧ a ≤ 1/2 ∧ (w.computeU pts o).1 = .ok u ∧
      ∀ (i : ℕ) (r : V3 ℝ) (τ x Q : ℝ), pts[i]? = some (w.r_hub + r + V3.smul τ d) → V3.dot r s = 0 → V3.norm r < R →
        x = R / ((R - V3.norm r) * V3.dot d s) → Q = π^2/(3 * 179^2) * (x * (x + 2)) * (1 + 10 * x + 18 * x^2) →
        ∃ v : V3 ℝ, u[i]? = some (V3.fin v) ∧
          (τ = 0 → |V3.dot v d - U * (1 - a)| ≤ √2 * (2 * a * U * Q)) ∧
          (2 * R < τ → |V3.dot v d - U * (1 - 2 * a)| ≤ √2 * (2 * a * U * (R / (τ - 2*R) + Q))) ∧
          (τ = 0 → ∀ j : ℕ, pts[j]? = some (w.r_hub - r) → ∃ v' : V3 ℝ, u[j]? = some (V3.fin v') ∧
            |(V3.dot v s + V3.dot v' s)/2 - U * (V3.dot d s - a)| ≤ 2 * a * U * Q) := by
  intro w0 w s hM hgr hc hw0 hf hy
  have hfr0 := frame_run mini shaft vert R h _ (frame_new R hub shaft vert U0 L G M)
  have hR0 : w0.R = R := hfr0.R
  have hn : V3.norm w0.U0_g = U := by rw [hw0, norm_smul_unit _ _ hd, abs_of_pos hU]
  have hne : w0.U0_g ≠ 0 := by
    intro h0
    rw [h0, norm_zero3] at hn
    exact hU.ne hn
  have hl := C34_update_loading mini w0 (by rw [hR0]; exact hR) hne Cts hC Lam Ω (by rw [hn, hR0]; exact hΩ) (by rw [hn, hR0]; exact h20) none none
  simp only [hn, hR0, ← hC', ← hap] at hl
  obtain ⟨-, l2, -, -, l5⟩ := hl
  obtain ⟨γ, hγ⟩ : ∃ γ, γ = -U * (1 - √(1 - C * (1 + apc))) := ⟨_, rfl⟩
  have hgam : w.gamma_t = some [.fin γ] := by rw [hγ]; exact l2 hC1 (by linarith)
  obtain ⟨b1, b2, b3, b4, b5, b6, b7, b8, b9, b10, b11, b12, b13, b14⟩ := loading_frame mini w0 { Ct := some (Cts.map .fin), Lambda := some Lam, nCyl := some 1 }
  obtain ⟨hist, hh⟩ : ∃ hist, hist = h ++ [Op.loading { Ct := some (Cts.map .fin), Lambda := some Lam, nCyl := some 1 }] := ⟨_, rfl⟩
  have hwrun : w = (WT.new R hub shaft vert U0 L G M).run mini hist := by
    rw [hh]
    simp only [w, w0, WT.run, List.foldl_append, List.foldl_cons, List.foldl_nil]
  have hUg : w.U0_g = V3.smul U d := by
    have k1 : w.U0_g = w0.U0_g := b11
    rw [k1, hw0]
  have hγ0 : γ ≤ 0 := l5 hC0 γ hgam
  obtain ⟨a, ha⟩ : ∃ a, a = (1 - √(1 - C * (1 + apc))) / 2 := ⟨_, rfl⟩
  have hga : γ = -(2 * a * U) := by rw [hγ, ha]; ring
  have hsq' : √(1 - C * (1 + apc))^2 = 1 - C * (1 + apc) := Real.sq_sqrt (by linarith)
  have hnn := Real.sqrt_nonneg (1 - C * (1 + apc))
  have ha0 : 0 ≤ a := by
    by_contra hneg
    have := mul_neg_of_neg_of_pos (not_le.mp hneg) hU
    linarith
  have habs : |γ| = 2 * a * U := by rw [abs_of_nonpos hγ0, hga]; ring
  have H1 := C146_rotor mini R hub shaft vert U0 L G M ho hR hist pts o hta hlo hro hnw γ U hU d hd hdv
  have H2 := C146_wake mini R hub shaft vert U0 L G M ho hR hist pts o hta hlo hro hnw γ U hU d hd hdv
  simp only [← hwrun] at H1 H2
  obtain ⟨u, hu, H1⟩ := H1 hM hgr hgam hc hUg hf hy
  obtain ⟨u', hu', H2⟩ := H2 hM hgr hgam hc hUg hf hy
  have huu : u' = u := by rw [hu] at hu'; exact (Except.ok.inj hu').symm
  subst huu
  obtain ⟨χ, u'', c2, c3, hu'', hdot, hall⟩ := yaw_inside mini R hub shaft vert U0 L G M ho hR hist w hwrun pts o hta hlo hro hnw hM hgr γ hgam hc U hU d hd hdv hUg hf hy
  have huu : u'' = u' := by rw [hu] at hu''; exact (Except.ok.inj hu'').symm
  subst huu
  refine ⟨a, u'', by rw [ha]; nlinarith, ha0, by rw [ha]; linarith, hu, fun i r τ x Q hi hr hrR hx hQ => ?_⟩
  obtain ⟨-, v, v1, -⟩ := hall i r τ (V3.norm r) hi hr le_rfl hrR
  have e0 : ∀ y : V3 ℝ, y + V3.smul 0 d = y := fun y => by ext <;> simp
  have key : ∀ v₁ v₂ : V3 ℝ, u''[i]? = some (V3.fin v₁) → u''[i]? = some (V3.fin v₂) → v₁ = v₂ := fun v₁ v₂ h1 h2 => by
    rw [h1] at h2; exact fin_inj3 _ _ (Option.some.inj h2)
  simp only [hoi, Bool.false_eq_true, if_false, hUg] at H1 H2
  refine ⟨v, v1, fun hτ => ?_, fun hτ => ?_, fun hτ j hj => ?_⟩
  · rw [hτ, e0] at hi
    obtain ⟨v2, k1, k2⟩ := H1 i r hi hr hrR
    rw [← key _ _ v1 k1] at k2
    have := (k2 _ rfl x _ hx rfl).1
    rw [dot_sub_left, dot_smul_left, hd, habs, ← hQ] at this
    convert this using 2
    rw [hga]; ring
  · obtain ⟨v2, k1, k2⟩ := H2 i r τ hi hr hrR hτ
    rw [← key _ _ v1 k1] at k2
    have := (k2 _ rfl x _ hx rfl).1
    rw [dot_sub_left, dot_smul_left, hd, habs, ← hQ] at this
    convert this using 2
    · rw [hga]; ring
    · ring
  · rw [hτ, e0] at hi
    obtain ⟨v2, k1, k2⟩ := H1 i r hi hr hrR
    rw [← key _ _ v1 k1] at k2
    obtain ⟨v', q1, q2⟩ := (k2 _ rfl x _ hx rfl).2 j hj
    refine ⟨v', q1, ?_⟩
    have := (q2 _ rfl).1
    rw [dot_smul_left, dot_add_left, dot_sub_left, dot_sub_left, dot_smul_left, habs, ← hQ] at this
    convert this using 2
    rw [hga]
    change _ = 1/2 * (V3.dot v s - U * V3.dot d s + (V3.dot v' s - U * V3.dot d s)) - _
    ring

/-- a concrete case: a 50 m rotor at Ct=3/4, infinite tip-speed ratio, in a wind of 10 m/s at 36.87 degrees from its shaft (direction (0.6,0,0.8)); at the hub the velocity along the wind is `10(1-a)` with
`4a(1-a)` within 1e-6 of 3/4 -/
example (mini : (ℝ → Num) → ℝ) :
    let w := ((WT.new 50 ⟨1,2,3⟩ ⟨0,0,1⟩ ⟨0,1,0⟩ ⟨6,0,8⟩ none false "VC").run mini []).step mini (.loading { Ct := some ([3/4].map .fin), Lambda := some .pinf, nCyl := some 1 })
    ∃ a u v, 3/4 ≤ 4 * a * (1 - a) ∧ 4 * a * (1 - a) ≤ 3/4 + 1e-6 ∧ a ≤ 1/2 ∧ (w.computeU [⟨1,2,3⟩] {}).1 = .ok u ∧ u[0]? = some (V3.fin v) ∧
      |V3.dot v ⟨0.6,0,0.8⟩ - 10 * (1 - a)| ≤ 0.6 * a := by
  intro w
  have hpi := pi_gt_three
  have hpi2 := pi_lt_d2
  obtain ⟨apc, hap⟩ : ∃ apc, apc = (3/4) * π * 10^2 / 800 / (4 * π * 800 * 50)^2 := ⟨_, rfl⟩
  have h0 : 0 ≤ apc := by rw [hap]; positivity
  have h1 : apc ≤ 1e-6 := by
    have e : apc = (3/4) * 10^2 / 800 / ((4 * 800 * 50)^2 * π) := by rw [hap]; field_simp
    rw [e, div_le_iff₀ (by positivity)]
    nlinarith
  obtain ⟨b1, b2, b3, b4, b5, b6, b7, b8, b9, b10, b11, b12, b13, b14⟩ := loading_frame mini ((WT.new 50 ⟨1,2,3⟩ ⟨0,0,1⟩ ⟨0,1,0⟩ ⟨6,0,8⟩ none false "VC").run mini [])
    { Ct := some ([3/4].map .fin), Lambda := some .pinf, nCyl := some 1 }
  have f2 : w.r_hub = ⟨1,2,3⟩ := b2
  have f5 : w.e_shaft_g = ⟨0,0,1⟩ := by
    refine Eq.trans (b := ((WT.new 50 ⟨1,2,3⟩ ⟨0,0,1⟩ ⟨0,1,0⟩ ⟨6,0,8⟩ none false "VC").run mini []).e_shaft_g) b5 ?_
    have := (frame_run mini ⟨0,0,1⟩ ⟨0,1,0⟩ 50 [] _ (frame_new 50 ⟨1,2,3⟩ ⟨0,0,1⟩ ⟨0,1,0⟩ ⟨6,0,8⟩ none false "VC")).e_shaft_g
    rw [turn_eq] at this
    refine this.trans ?_
    change turn _ 0 _ = _
    unfold turn
    ext <;> simp
  have f12 : w.Ground = false := b12
  have f13 : w.chi = none := b13
  have f14 : w.Model = "VC" := b14
  have H := C146_thrust mini 50 ⟨1,2,3⟩ ⟨0,0,1⟩ ⟨0,1,0⟩ ⟨6,0,8⟩ none false "VC" ⟨by simp [V3.dot], by simp [V3.dot], by simp [V3.dot]⟩ (by norm_num)
    [] [⟨1,2,3⟩] {} rfl rfl rfl rfl rfl 10 (by norm_num) ⟨0.6,0,0.8⟩ (by simp [V3.dot]; norm_num) (by simp [V3.dot]) [3/4] (by simp) .pinf 800 (Or.inr ⟨rfl, rfl⟩) (by norm_num)
    (3/4) (by norm_num) (by norm_num) (by norm_num [Ctc, ac]) apc hap (by nlinarith)
  obtain ⟨a, u, a1, a2, a3, hu, hall⟩ := H (by rw [show _ = _ from f14]; rfl) (by rw [show _ = _ from f12]; rfl) f13 (by change (⟨6,0,8⟩ : V3 ℝ) = _; ext <;> simp [V3.smul] <;> norm_num)
    (by rw [show _ = _ from f5]; simp [V3.dot]; norm_num) (by rw [show _ = _ from f5]; simp [V3.dot, V3.cross]; norm_num)
  have hz : V3.norm (0 : V3 ℝ) = 0 := by simp [V3.norm]
  obtain ⟨v, v1, v2, -⟩ := hall 0 0 0 (50 / ((50 - 0) * 0.8)) _ (by rw [show _ = _ from f2]; simp only [List.getElem?_cons_zero]; congr 1; ext <;> simp) (by simp [V3.dot]) (by rw [hz]; norm_num)
    (by rw [hz, show _ = _ from f5]; simp [V3.dot]) rfl
  refine ⟨a, u, v, by rw [a1]; nlinarith, by rw [a1]; nlinarith, a3, hu, v1, (v2 rfl).trans ?_⟩
  have hs2 : √2 ≤ 1.5 := by rw [Real.sqrt_le_left (by norm_num)]; norm_num
  have hq : π^2/(3 * 179^2) * ((50:ℝ) / ((50 - 0) * 0.8) * ((50:ℝ) / ((50 - 0) * 0.8) + 2)) * (1 + 10 * ((50:ℝ) / ((50 - 0) * 0.8)) + 18 * ((50:ℝ) / ((50 - 0) * 0.8))^2) ≤ 0.02 := by
    norm_num at *
    nlinarith
  have hq0 : 0 ≤ π^2/(3 * 179^2) * ((50:ℝ) / ((50 - 0) * 0.8) * ((50:ℝ) / ((50 - 0) * 0.8) + 2)) * (1 + 10 * ((50:ℝ) / ((50 - 0) * 0.8)) + 18 * ((50:ℝ) / ((50 - 0) * 0.8))^2) := by
    norm_num
    positivity
  generalize π^2/(3 * 179^2) * ((50:ℝ) / ((50 - 0) * 0.8) * ((50:ℝ) / ((50 - 0) * 0.8) + 2)) * (1 + 10 * ((50:ℝ) / ((50 - 0) * 0.8)) + 18 * ((50:ℝ) / ((50 - 0) * 0.8))^2) = Q at *
  have s1 : 2 * a * 10 * Q ≤ 2 * a * 10 * 0.02 := by gcongr
  have s2 : √2 * (2 * a * 10 * Q) ≤ 1.5 * (2 * a * 10 * Q) := by gcongr
  linarith

end
end Wiz
