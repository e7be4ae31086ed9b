import Verif.Lemmas.YawedSolidAngle

/-! # C147: the blockage of a yawed rotor is its solid angle -/
set_option autoImplicit false
namespace Wiz
open Spec Real Set
noncomputable section

/-- C147: the exact field.  Along its own direction `(sin χ, 0, cos χ)` the velocity induced by a skewed semi-infinite sheet of tangential vorticity of intensity `γ` is, whatever the skew,
`γΩ/4π` upstream of the rotor (`Ω`: solid angle of the rotor disk), `γ - γΩ/4π` in the wake, `-γΩ/4π` around it, and in the rotor plane `γ/2` on the disk and `0` outside. -/
theorem C147_field (γ R χ : ℝ) (hR : 0 < R) (hχ : 0 < cos χ) (P : V3 ℝ) (F Ω : ℝ)
    (hF : F = V3.dot (skewTangField γ R (tan χ) P) ⟨sin χ, 0, cos χ⟩) (hΩ : Ω = diskSolidAngle R P) :
    (P.z < 0 → F = γ/(4*π) * Ω) ∧
    (0 < P.z → (P.x - tan χ * P.z)^2 + P.y^2 < R^2 → F = γ - γ/(4*π) * Ω) ∧
    (0 < P.z → R^2 < (P.x - tan χ * P.z)^2 + P.y^2 → F = -(γ/(4*π) * Ω)) ∧
    (P.z = 0 → P.x^2 + P.y^2 < R^2 → F = γ/2) ∧ (P.z = 0 → R^2 < P.x^2 + P.y^2 → F = 0) := by
  have hpi := pi_pos
  have hdot : ∀ v : V3 ℝ, V3.dot v ⟨sin χ, 0, cos χ⟩ = v.x * sin χ + v.z * cos χ := fun v => by simp only [V3.dot]; ring
  have up : ∀ Q : V3 ℝ, Q.z < 0 → (skewTangField γ R (tan χ) Q).x * sin χ + (skewTangField γ R (tan χ) Q).z * cos χ = γ/(4*π) * diskSolidAngle R Q := by
    intro Q hQ
    have o1 : ∀ m, OffWake R m Q := fun m => off_plane hQ.le (fun h => absurd h hQ.ne)
    rw [field_along hχ (o1 _), along_integral hχ hQ.le (o1 _) (o1 _)]
    have := field_along (γ := γ) (χ := 0) (by rw [cos_zero]; exact one_pos) (o1 (tan 0))
    rw [← this, sin_zero, cos_zero, tan_zero, mul_zero, zero_add, mul_one, (C78_fields γ R hR Q (o1 0)).1]
    exact (C111_solid_angle γ R hR Q hQ.ne).2.2.1 hQ
  have down : 0 < P.z → (P.x - tan χ * P.z)^2 + P.y^2 ≠ R^2 → F = (if (P.x - tan χ * P.z)^2 + P.y^2 < R^2 then γ else 0) - γ/(4*π) * Ω := by
    intro hz hne
    have hz' : (V3.smul (-1) P).z < 0 := by simp only [V3.smul_z]; linarith
    have := along_image (γ := γ) hR hχ (off_around hχ hne) (off_plane hz'.le (fun h => absurd h hz'.ne)) hne
    rw [up _ hz', solidAngle_neg hR.le hz.ne', ← hΩ] at this
    rw [hF, hdot]
    linarith
  have plane : P.z = 0 → P.x^2 + P.y^2 ≠ R^2 → F = γ/(4*π) * (if P.x^2 + P.y^2 < R^2 then 2*π else 0) := by
    intro hz hne
    have o1 : ∀ m, OffWake R m P := fun m => off_plane hz.le (fun _ => hne)
    rw [hF, hdot, field_along hχ (o1 _), along_integral hχ hz.le (o1 _) (o1 _), ← circle_winding hR hne]
    simp only [alongI_zero hz]
  refine ⟨fun h => ?_, fun h h1 => ?_, fun h h1 => ?_, fun h h1 => ?_, fun h h1 => ?_⟩
  · rw [hF, hdot, hΩ, up P h]
  · rw [down h h1.ne, if_pos h1]
  · rw [down h h1.ne', if_neg h1.le.not_gt]; ring
  · rw [plane h h1.ne, if_pos h1]; field_simp; ring
  · rw [plane h h1.ne', if_neg h1.le.not_gt]; ring

/-- a concrete case: at 60 degrees of skew, a point 3 diameters upstream of the rotor: the velocity along the wind is the one of the same rotor facing the wind -/
example (γ : ℝ) : V3.dot (skewTangField γ 1 (tan (π/3)) ⟨1, 0, -6⟩) ⟨sin (π/3), 0, cos (π/3)⟩ = V3.dot (skewTangField γ 1 (tan 0) ⟨1, 0, -6⟩) ⟨sin 0, 0, cos 0⟩ := by
  rw [(C147_field γ 1 (π/3) one_pos (by rw [cos_pi_div_three]; norm_num) ⟨1, 0, -6⟩ _ _ rfl rfl).1 (by norm_num),
    (C147_field γ 1 0 one_pos (by rw [cos_zero]; norm_num) ⟨1, 0, -6⟩ _ _ rfl rfl).1 (by norm_num)]

/-- points around the skewed wake, `ρ` or more from its axis, are at distance `(ρ-R) cos χ` or more of its surface -/
theorem outside_dist {R χ x y z ρ : ℝ} (hR : 0 ≤ R) (hχ : 0 < cos χ) (hρ : x^2 + y^2 = ρ^2) (hρR : R ≤ ρ) (θ t : ℝ) :
    (ρ - R) * cos χ ≤ V3.norm ((⟨x + tan χ * z, y, z⟩ : V3 ℝ) - wakePoint R (tan χ) θ t) := by
  rw [wake_norm, skewDir_tan hχ]
  apply Real.le_sqrt_of_sq_le
  have ht : tan χ * cos χ = sin χ := tan_mul_cos hχ.ne'
  obtain ⟨ζ, hζ⟩ : ∃ ζ, ζ = z - t * cos χ := ⟨_, rfl⟩
  obtain ⟨X, hX⟩ : ∃ X, X = x - R * cos θ + tan χ * ζ := ⟨_, rfl⟩
  have e1 : x + tan χ * z - t * sin χ - R * cos θ = X := by rw [hX, hζ, ← ht]; ring
  simp only
  rw [e1, ← hζ]
  have h1 := sin_sq_add_cos_sq θ
  have h2 := sin_sq_add_cos_sq χ
  have hρ0 : 0 ≤ ρ := hR.trans hρR
  rcases eq_or_lt_of_le hρ0 with h0 | h0
  · have : R = 0 := by linarith
    rw [← h0, this]
    simp only [sub_self, zero_mul, ne_eq, OfNat.ofNat_ne_zero, not_false_eq_true, zero_pow]
    positivity
  obtain ⟨a, ha⟩ : ∃ a, a = x / ρ := ⟨_, rfl⟩
  obtain ⟨b, hb⟩ : ∃ b, b = y / ρ := ⟨_, rfl⟩
  have hax : x = a * ρ := by rw [ha]; field_simp
  have hby : y = b * ρ := by rw [hb]; field_simp
  have hab : a^2 + b^2 = 1 := by
    have : (a^2 + b^2) * ρ^2 = 1 * ρ^2 := by linear_combination hρ - (x + a * ρ) * hax - (y + b * ρ) * hby
    exact mul_right_cancel₀ (by positivity) this
  have hle : a * cos θ + b * sin θ ≤ 1 := by nlinarith [sq_nonneg (a - cos θ), sq_nonneg (b - sin θ)]
  have hproj : X * (a * cos χ) + (y - R * sin θ) * (b * cos χ) + ζ * (-(a * sin χ)) = (ρ - R * (a * cos θ + b * sin θ)) * cos χ := by
    rw [hX, ← ht, hax, hby]
    linear_combination (ρ * cos χ) * hab
  have hn : (a * cos χ)^2 + (b * cos χ)^2 + (-(a * sin χ))^2 ≤ 1 := by
    have : (a * cos χ)^2 + (b * cos χ)^2 + (-(a * sin χ))^2 = 1 - (b * sin χ)^2 := by
      linear_combination (sin χ^2 + cos χ^2) * hab + h2
    rw [this]; linarith [sq_nonneg (b * sin χ)]
  have hcs : (X * (a * cos χ) + (y - R * sin θ) * (b * cos χ) + ζ * (-(a * sin χ)))^2 ≤ X^2 + (y - R * sin θ)^2 + ζ^2 := by
    generalize a * cos χ = n1 at *
    generalize b * cos χ = n2 at *
    generalize -(a * sin χ) = n3 at *
    generalize y - R * sin θ = Y at *
    have i1 : (X^2 + Y^2 + ζ^2) * (n1^2 + n2^2 + n3^2) - (X * n1 + Y * n2 + ζ * n3)^2 = (X*n2 - Y*n1)^2 + (X*n3 - ζ*n1)^2 + (Y*n3 - ζ*n2)^2 := by ring
    have i2 := mul_le_mul_of_nonneg_left hn (show 0 ≤ X^2 + Y^2 + ζ^2 by positivity)
    linarith [sq_nonneg (X*n2 - Y*n1), sq_nonneg (X*n3 - ζ*n1), sq_nonneg (Y*n3 - ζ*n2)]
  rw [hproj] at hcs
  refine le_trans ?_ hcs
  rw [mul_pow, mul_pow]
  apply mul_le_mul_of_nonneg_right _ (sq_nonneg _)
  have k1 : 0 ≤ ρ - R := by linarith
  have k2 : ρ - R ≤ ρ - R * (a * cos θ + b * sin θ) := by nlinarith
  exact pow_le_pow_left₀ k1 k2 2

/-- the velocity along the wind that a yawed turbine returns at a point at distance `D` or more of its wake -/
theorem yaw_point (mini : (ℝ → Num) → ℝ) (R : ℝ) (hub shaft vert U0 : V3 ℝ) (L : Option Num) (G : Bool)
    (M : String) (ho : Orthonormal shaft vert) (hR : 0 < R) (h : List Op) (w : WT) (hw : w = (WT.new R hub shaft vert U0 L G M).run mini h)
    (pts : List (V3 ℝ)) (o : Opts) (hta : o.tang = true) (hlo : o.longi = false) (hro : o.root = false) (hnw : o.no_wake = false)
    (hM : o.Model.getD w.Model = "VC") (hgr : o.ground.getD w.Ground = false) (γ : ℝ) (hg : w.gamma_t = some [.fin γ]) (hc : w.chi = none)
    (U : ℝ) (hU : 0 < U) (d : V3 ℝ) (hd : V3.dot d d = 1) (hdv : V3.dot d vert = 0) (hwind : w.U0_g = V3.smul U d)
    (hf : 0 < V3.dot d w.e_shaft_g) (hy : 1e-7 < |V3.dot d (V3.cross vert w.e_shaft_g)|) :
    ∃ χ u, sin χ = V3.dot d (V3.cross vert w.e_shaft_g) ∧ cos χ = V3.dot d w.e_shaft_g ∧ (w.computeU pts o).1 = .ok u ∧
      ∀ (i : ℕ) (p q : V3 ℝ) (D : ℝ), pts[i]? = some p → 0 < D →
        q = ⟨V3.dot (p - w.r_hub) (V3.cross vert w.e_shaft_g), V3.dot (p - w.r_hub) vert, V3.dot (p - w.r_hub) w.e_shaft_g⟩ →
        (∀ θ t, 0 ≤ t → D ≤ V3.norm (q - wakePoint R (tan χ) θ t)) →
        ∃ v : V3 ℝ, u[i]? = some (V3.fin v) ∧ ∀ v0 : V3 ℝ, v0 = v - (if o.only_ind then 0 else w.U0_g) →
          ∀ E, E = |γ| * (π^2/(3 * 179^2) * (R/D * (R/D + 2)) * (1 + 10 * (R/D) + 18 * (R/D)^2)) →
          |V3.dot v0 d - V3.dot (skewTangField γ R (tan χ) q) ⟨sin χ, 0, cos χ⟩| ≤ √2 * E := by
  obtain ⟨χ, c1, c2, c3, -⟩ := wind_chi mini R hub shaft vert U0 L G M ho h w hw hc U hU d hd hdv hwind pts o
  obtain ⟨a1, a2, a3, a4, a5, a6⟩ := rotorAxes_run mini R hub shaft vert U0 L G M ho h
  rw [← hw] at a1 a2 a3 a5 a6
  have hcos : 0 < cos χ := by rw [c3]; exact hf
  have hsk : 1e-7 < |χ| := by
    rw [← c2] at hy
    exact lt_of_lt_of_le hy (abs_sin_le_abs)
  have H := C114_turbine mini R hub shaft vert U0 L G M ho hR h pts o γ χ
  simp only [← hw] at H
  obtain ⟨u, hu, hall⟩ := H hta hlo hro hnw hM hgr hg c1 hsk hcos.ne'
  have hdd : d = V3.smul (sin χ) (V3.cross vert w.e_shaft_g) + V3.smul (cos χ) w.e_shaft_g := by
    have := axes_expand vert w.e_shaft_g a4 a6 a5 d
    rw [c2, c3]
    conv_lhs => rw [← this]
    unfold fromAxes
    simp only [hdv]
    ext <;> simp
  refine ⟨χ, u, c2, c3, hu, fun i p q D hi hD hq hdist => ?_⟩
  obtain ⟨v, v1, v2⟩ := hall i p q D hi hD hq hdist
  refine ⟨v, v1, fun v0 hv0 E hE => ?_⟩
  obtain ⟨b1, -, b3⟩ := v2 v0 _ hv0 rfl E hE
  have := along_le (χ := χ) b1 b3
  convert this using 2
  conv_lhs => rw [hdd]
  simp only [V3.dot, V3.add_x, V3.add_y, V3.add_z, V3.smul_x, V3.smul_y, V3.smul_z]
  ring

/-- the solid angle of the rotor in the frame of the rotor -/
theorem solid_frame {R : ℝ} (hR : 0 < R) (vert s p : V3 ℝ) (hv : V3.dot vert vert = 1) (hs : V3.dot s s = 1) (hsv : V3.dot s vert = 0) (z ρ : ℝ) (hz : z = V3.dot p s)
    (hρ : ρ = V3.norm (p - V3.smul z s)) (hz0 : z ≠ 0) :
    diskSolidAngle R ⟨V3.dot p (V3.cross vert s), V3.dot p vert, V3.dot p s⟩ = diskSolidAngle R ⟨ρ, 0, z⟩ := by
  have hexp := expand_frame vert s p hv hs hsv
  have hn : √((V3.dot p (V3.cross vert s))^2 + (V3.dot p vert)^2) = ρ := by
    rw [hρ]
    have : V3.norm (p - V3.smul z s) = √(V3.dot p p - 2*z*V3.dot p s + z^2*V3.dot s s) := by
      unfold V3.norm V3.dot; congr 1; simp; ring
    rw [this, hs, hexp, ← hz]
    congr 1; ring
  rw [← hz]
  have q1 := polar_form ⟨V3.dot p (V3.cross vert s), V3.dot p vert, z⟩
  have q2 := solidAngle_eq R (polarR (V3.dot p (V3.cross vert s)) (V3.dot p vert)) z (arctan2 (V3.dot p vert) (V3.dot p (V3.cross vert s))) hz0 hR.le
  have q3 := solidAngle_eq R ρ z 0 hz0 hR.le
  simp only at q1
  rw [← q1] at q2
  rw [cos_zero, sin_zero, mul_one, mul_zero] at q3
  rw [q2, q3]
  change saK (√((V3.dot p (V3.cross vert s))^2 + (V3.dot p vert)^2)) |z| R = _
  rw [hn]

/-- C147: a yawed turbine.  After any history, a turbine with one cylinder of intensity `γ` in a horizontal wind of direction `d` (less than 90 degrees from the shaft, skewed by more than 1e-7; no
earlier evaluation), at a point at the axial coordinate `z` and at distance `ρ` from the shaft line, `rr` being its distance to the axis of the wake measured in the rotor plane along the wind.
The induced velocity along the wind is `γΩ/4π` upstream of the rotor, `γ - γΩ/4π` in the wake and `-γΩ/4π` around it, `Ω` being the solid angle of the rotor disk seen from the point, up to the
error of the azimuthal quadrature at the distance of the point to the wake. -/
theorem C147_turbine (mini : (ℝ → Num) → ℝ) (R : ℝ) (hub shaft vert U0 : V3 ℝ) (L : Option Num) (G : Bool)
    (M : String) (ho : Orthonormal shaft vert) (hR : 0 < R) (h : List Op) (pts : List (V3 ℝ)) (o : Opts)
    (hta : o.tang = true) (hlo : o.longi = false) (hro : o.root = false) (hnw : o.no_wake = false) (γ U : ℝ) (hU : 0 < U) (d : V3 ℝ) (hd : V3.dot d d = 1) (hdv : V3.dot d vert = 0)
    (E : ℝ → ℝ) (hE : ∀ D, E D = |γ| * (π^2/(3 * 179^2) * (R/D * (R/D + 2)) * (1 + 10 * (R/D) + 18 * (R/D)^2))) :
    let w := (WT.new R hub shaft vert U0 L G M).run mini h
    let s := w.e_shaft_g
    o.Model.getD w.Model = "VC" → o.ground.getD w.Ground = false → w.gamma_t = some [.fin γ] → w.chi = none → w.U0_g = V3.smul U d →
    0 < V3.dot d s → 1e-7 < |V3.dot d (V3.cross vert s)| →
    ∃ u, (w.computeU pts o).1 = .ok u ∧ ∀ (i : ℕ) (p : V3 ℝ) (z ρ rr Ω : ℝ), pts[i]? = some p → z = V3.dot (p - w.r_hub) s → ρ = V3.norm (p - w.r_hub - V3.smul z s) →
      rr = V3.norm (p - w.r_hub - V3.smul (z / V3.dot d s) d) → Ω = diskSolidAngle R ⟨ρ, 0, z⟩ → z < 0 ∨ rr ≠ R →
      ∃ v : V3 ℝ, u[i]? = some (V3.fin v) ∧ ∀ v0 : V3 ℝ, v0 = v - (if o.only_ind then 0 else w.U0_g) →
        (z < 0 → |V3.dot v0 d - γ/(4*π) * Ω| ≤ √2 * E (-z)) ∧
        (0 < z → rr < R → |V3.dot v0 d - (γ - γ/(4*π) * Ω)| ≤ √2 * E ((R - rr) * V3.dot d s)) ∧
        (0 ≤ z → R < rr → |V3.dot v0 d - -(γ/(4*π) * Ω)| ≤ √2 * E ((rr - R) * V3.dot d s)) := by
  intro w s hM hgr hg hc hwind hf hy
  obtain ⟨χ, u, c2, c3, hu, hall⟩ := yaw_point mini R hub shaft vert U0 L G M ho hR h w rfl pts o hta hlo hro hnw hM hgr γ hg hc U hU d hd hdv hwind hf hy
  obtain ⟨a1, a2, a3, a4, a5, a6⟩ := rotorAxes_run mini R hub shaft vert U0 L G M ho h
  have b5 : V3.dot s s = 1 := a6
  have b6 : V3.dot s vert = 0 := by rw [dot_comm]; exact a5
  have hcos : 0 < cos χ := by rw [c3]; exact hf
  have ht : tan χ * cos χ = sin χ := tan_mul_cos hcos.ne'
  refine ⟨u, hu, fun i p z ρ rr Ω hi hz hρ hrr hΩ hoff => ?_⟩
  obtain ⟨q, hq⟩ : ∃ q : V3 ℝ, q = ⟨V3.dot (p - w.r_hub) (V3.cross vert s), V3.dot (p - w.r_hub) vert, V3.dot (p - w.r_hub) s⟩ := ⟨_, rfl⟩
  have hqz : q.z = z := by rw [hq, hz]
  have hΩ' : z ≠ 0 → diskSolidAngle R q = Ω := fun h0 => by
    rw [hq, hΩ]; exact solid_frame hR vert s _ a4 b5 b6 z ρ hz hρ h0
  obtain ⟨r, hr⟩ : ∃ r, r = p - w.r_hub - V3.smul (z / V3.dot d s) d := ⟨_, rfl⟩
  have hrs : V3.dot r s = 0 := by
    rw [hr, dot_sub_left, dot_smul_left, ← hz, div_mul_cancel₀ _ hf.ne', sub_self]
  have hr2 : V3.dot r (V3.cross vert s)^2 + V3.dot r vert^2 = rr^2 := by
    have e := expand_frame vert s r a4 b5 b6
    rw [hrs] at e
    rw [hrr, ← hr, norm_sq, e]; ring
  have hqr : q = ⟨V3.dot r (V3.cross vert s) + tan χ * z, V3.dot r vert, z⟩ := by
    rw [hq, hr]
    ext
    · simp only
      generalize p - w.r_hub = p'
      rw [dot_sub_left, dot_smul_left, ← c2]
      change _ = _ - z / V3.dot d w.e_shaft_g * sin χ + _
      rw [← c3, ← ht]
      field_simp; ring
    · simp only
      generalize p - w.r_hub = p'
      rw [dot_sub_left, dot_smul_left, hdv]; ring
    · exact hz.symm
  have hx : q.x - tan χ * q.z = V3.dot r (V3.cross vert s) := by rw [hqr]; simp only; ring
  have hy' : q.y = V3.dot r vert := by rw [hqr]
  have hrr0 : 0 ≤ rr := by rw [hrr]; unfold V3.norm; positivity
  obtain ⟨f1, f2, f3, f4, f5⟩ := C147_field γ R χ hR hcos q _ _ rfl rfl
  rw [hx, hy', hr2, hqz] at f2 f3
  rw [hqz] at f1 f5
  have hc3 : cos χ = V3.dot d s := c3
  have p1 : z < 0 → ∃ v : V3 ℝ, u[i]? = some (V3.fin v) ∧ ∀ v0 : V3 ℝ, v0 = v - (if o.only_ind then 0 else w.U0_g) → |V3.dot v0 d - γ/(4*π) * Ω| ≤ √2 * E (-z) := by
    intro hz0
    obtain ⟨v, v1, v2⟩ := hall i p q (-z) hi (by linarith) hq (upstream_dist R _ _ q (by rw [hqz]; linarith) (by linarith))
    refine ⟨v, v1, fun v0 hv0 => ?_⟩
    have := v2 v0 hv0 _ (hE (-z))
    rw [f1 hz0, hΩ' hz0.ne] at this
    exact this
  have p2 : 0 ≤ z → rr < R → ∃ v : V3 ℝ, u[i]? = some (V3.fin v) ∧ ∀ v0 : V3 ℝ, v0 = v - (if o.only_ind then 0 else w.U0_g) →
      0 < z → |V3.dot v0 d - (γ - γ/(4*π) * Ω)| ≤ √2 * E ((R - rr) * V3.dot d s) := by
    intro _ hlt
    obtain ⟨v, v1, v2⟩ := hall i p q ((R - rr) * V3.dot d s) hi (mul_pos (by linarith) hf) hq (fun θ t _ => by
      rw [hqr, ← hc3]; exact inside_dist hcos hr2.le hrr0 hlt.le θ t)
    refine ⟨v, v1, fun v0 hv0 hz0 => ?_⟩
    have := v2 v0 hv0 _ (hE _)
    rw [f2 hz0 (pow_lt_pow_left₀ hlt hrr0 two_ne_zero), hΩ' hz0.ne'] at this
    exact this
  have p3 : 0 ≤ z → R < rr → ∃ v : V3 ℝ, u[i]? = some (V3.fin v) ∧ ∀ v0 : V3 ℝ, v0 = v - (if o.only_ind then 0 else w.U0_g) →
      |V3.dot v0 d - -(γ/(4*π) * Ω)| ≤ √2 * E ((rr - R) * V3.dot d s) := by
    intro hz0 hlt
    obtain ⟨v, v1, v2⟩ := hall i p q ((rr - R) * V3.dot d s) hi (mul_pos (by linarith) hf) hq (fun θ t _ => by
      rw [hqr, ← hc3]; exact outside_dist hR.le hcos hr2 hlt.le θ t)
    refine ⟨v, v1, fun v0 hv0 => ?_⟩
    have := v2 v0 hv0 _ (hE _)
    have hsq := pow_lt_pow_left₀ hlt hR.le two_ne_zero
    rcases eq_or_lt_of_le hz0 with h0 | h0
    · have e0 : Ω = 0 := by rw [hΩ, ← h0]; simp [diskSolidAngle]
      rw [f5 h0.symm (by
        have : q.x = V3.dot r (V3.cross vert s) := by rw [← hx, hqz, ← h0]; ring
        rw [this, hy', hr2]; exact hsq)] at this
      rw [e0, mul_zero, neg_zero]
      exact this
    · rw [f3 h0 hsq, hΩ' h0.ne'] at this
      exact this
  rcases lt_trichotomy z 0 with hz0 | hz0
  · obtain ⟨v, v1, v2⟩ := p1 hz0
    exact ⟨v, v1, fun v0 hv0 => ⟨fun _ => v2 v0 hv0, fun h1 => by linarith, fun h1 => by linarith⟩⟩
  · have hz1 : 0 ≤ z := by rcases hz0 with h0 | h0 <;> linarith
    rcases hoff with h0 | h0
    · linarith
    rcases lt_or_gt_of_ne h0 with h1 | h1
    · obtain ⟨v, v1, v2⟩ := p2 hz1 h1
      exact ⟨v, v1, fun v0 hv0 => ⟨fun h2 => by linarith, fun h2 _ => v2 v0 hv0 h2, fun _ h2 => by linarith⟩⟩
    · obtain ⟨v, v1, v2⟩ := p3 hz1 h1
      exact ⟨v, v1, fun v0 hv0 => ⟨fun h2 => by linarith, fun _ h2 => by linarith, fun _ _ => v2 v0 hv0⟩⟩

/-- C147, from the thrust: a yawed turbine loaded with `update_loading(Ct)` and one cylinder (mean thrust coefficient `C` below the high-thrust limit, tip-speed ratio of 20 or more, or infinite).
At every point upstream of the rotor plane the velocity along the wind is `U(1 - aΩ/2π)`, where `Ω < 2π` is the solid angle of the rotor disk, up to the error of the quadrature: the same as for
a rotor facing the wind, and never below the `U(1-a)` of the rotor disk. -/
theorem C147_thrust (mini : (ℝ → Num) → ℝ) (R : ℝ) (hub shaft vert U0 : V3 ℝ) (L : Option Num) (G : Bool)
    (M : String) (ho : Orthonormal shaft vert) (hR : 0 < R) (h : List Op) (pts : List (V3 ℝ)) (o : Opts)
    (hta : o.tang = true) (hlo : o.longi = false) (hro : o.root = false) (hnw : o.no_wake = false) (hoi : o.only_ind = false)
    (U : ℝ) (hU : 0 < U) (d : V3 ℝ) (hd : V3.dot d d = 1) (hdv : V3.dot d vert = 0)
    (Cts : List ℝ) (hC : Cts ≠ []) (Lam : Num) (om : ℝ) (hom : (∃ l : ℝ, Lam = .fin l ∧ om = l * U / R) ∨ (Lam = .pinf ∧ om = 800))
    (h20 : 20 ≤ om * R / U) (C : ℝ) (hC' : C = Cts.sum / Cts.length) (hC0 : 0 ≤ C) (hC1 : C ≤ Ctc)
    (apc : ℝ) (hap : apc = C * π * U^2 / om / (4 * π * om * R)^2) (hsq : C * (1 + apc) ≤ 1) :
    let w0 := (WT.new R hub shaft vert U0 L G M).run mini h
    let w := w0.step mini (.loading { Ct := some (Cts.map .fin), Lambda := some Lam, nCyl := some 1 })
    let s := w.e_shaft_g
    o.Model.getD w.Model = "VC" → o.ground.getD w.Ground = false → w.chi = none → w0.U0_g = V3.smul U d →
    0 < V3.dot d s → 1e-7 < |V3.dot d (V3.cross vert s)| →
    ∃ a u, 4 * a * (1 - a) = C * (1 + apc) ∧ 0 ≤ a ∧ a ≤ 1/2 ∧ (w.computeU pts o).1 = .ok u ∧
      ∀ (i : ℕ) (p : V3 ℝ) (z ρ Ω x : ℝ), pts[i]? = some p → z = V3.dot (p - w.r_hub) s → z < 0 → ρ = V3.norm (p - w.r_hub - V3.smul z s) →
        Ω = diskSolidAngle R ⟨ρ, 0, z⟩ → x = R / -z →
        0 < Ω ∧ Ω < 2*π ∧ ∃ v : V3 ℝ, u[i]? = some (V3.fin v) ∧
          |V3.dot v d - U * (1 - a * Ω / (2*π))| ≤ √2 * (2 * a * U * (π^2/(3 * 179^2) * (x * (x + 2)) * (1 + 10 * x + 18 * x^2))) := by
  intro w0 w s hM hgr hc hw0 hf hy
  have hfr0 := frame_run mini shaft vert R h _ (frame_new R hub shaft vert U0 L G M)
  have hR0 : w0.R = R := hfr0.R
  have hn : V3.norm w0.U0_g = U := by rw [hw0, norm_smul_unit _ _ hd, abs_of_pos hU]
  have hne : w0.U0_g ≠ 0 := by
    intro h0
    rw [h0, norm_zero3] at hn
    exact hU.ne hn
  have hl := C34_update_loading mini w0 (by rw [hR0]; exact hR) hne Cts hC Lam om (by rw [hn, hR0]; exact hom) (by rw [hn, hR0]; exact h20) none none
  simp only [hn, hR0, ← hC', ← hap] at hl
  obtain ⟨-, l2, -, -, l5⟩ := hl
  obtain ⟨γ, hγ⟩ : ∃ γ, γ = -U * (1 - √(1 - C * (1 + apc))) := ⟨_, rfl⟩
  have hgam : w.gamma_t = some [.fin γ] := by rw [hγ]; exact l2 hC1 (by linarith)
  obtain ⟨b1, b2, b3, b4, b5, b6, b7, b8, b9, b10, b11, b12, b13, b14⟩ := loading_frame mini w0 { Ct := some (Cts.map .fin), Lambda := some Lam, nCyl := some 1 }
  obtain ⟨hist, hh⟩ : ∃ hist, hist = h ++ [Op.loading { Ct := some (Cts.map .fin), Lambda := some Lam, nCyl := some 1 }] := ⟨_, rfl⟩
  have hwrun : w = (WT.new R hub shaft vert U0 L G M).run mini hist := by
    rw [hh]
    simp only [w, w0, WT.run, List.foldl_append, List.foldl_cons, List.foldl_nil]
  have hUg : w.U0_g = V3.smul U d := by
    have k1 : w.U0_g = w0.U0_g := b11
    rw [k1, hw0]
  have hγ0 : γ ≤ 0 := l5 hC0 γ hgam
  obtain ⟨a, ha⟩ : ∃ a, a = (1 - √(1 - C * (1 + apc))) / 2 := ⟨_, rfl⟩
  have hga : γ = -(2 * a * U) := by rw [hγ, ha]; ring
  have hsq' : √(1 - C * (1 + apc))^2 = 1 - C * (1 + apc) := Real.sq_sqrt (by linarith)
  have hnn := Real.sqrt_nonneg (1 - C * (1 + apc))
  have ha0 : 0 ≤ a := by
    by_contra hneg
    have := mul_neg_of_neg_of_pos (not_le.mp hneg) hU
    linarith
  have habs : |γ| = 2 * a * U := by rw [abs_of_nonpos hγ0, hga]; ring
  have H := C147_turbine mini R hub shaft vert U0 L G M ho hR hist pts o hta hlo hro hnw γ U hU d hd hdv _ (fun _ => rfl)
  simp only [← hwrun] at H
  obtain ⟨u, hu, H⟩ := H hM hgr hgam hc hUg hf hy
  refine ⟨a, u, by rw [ha]; nlinarith, ha0, by rw [ha]; linarith, hu, fun i p z ρ Ω x hi hz hz0 hρ hΩ hx => ?_⟩
  obtain ⟨k1, k2, -⟩ := C111_solid_angle γ R hR ⟨ρ, 0, z⟩ hz0.ne
  rw [← hΩ] at k1 k2
  obtain ⟨v, v1, v2⟩ := H i p z ρ _ Ω hi hz hρ rfl hΩ (Or.inl hz0)
  refine ⟨k1, k2, v, v1, ?_⟩
  simp only [hoi, Bool.false_eq_true, if_false] at v2
  have := (v2 _ rfl).1 hz0
  rw [dot_sub_left, hUg, dot_smul_left, hd, habs, ← hx] at this
  convert this using 2
  have hpi := pi_pos
  rw [hga]
  field_simp
  ring

/-- a concrete case: a 50 m rotor at Ct=3/4, infinite tip-speed ratio, in a wind of 10 m/s at 36.87 degrees from its shaft (direction (0.6,0,0.8)), at a point 200 m upstream of the rotor plane and 30 m aside -/
example (mini : (ℝ → Num) → ℝ) :
    let w := ((WT.new 50 ⟨1,2,3⟩ ⟨0,0,1⟩ ⟨0,1,0⟩ ⟨6,0,8⟩ none false "VC").run mini []).step mini (.loading { Ct := some ([3/4].map .fin), Lambda := some .pinf, nCyl := some 1 })
    ∃ a Ω u v, 3/4 ≤ 4 * a * (1 - a) ∧ a ≤ 1/2 ∧ Ω = diskSolidAngle 50 ⟨30, 0, -200⟩ ∧ (w.computeU [⟨31,2,-197⟩] {}).1 = .ok u ∧ u[0]? = some (V3.fin v) ∧
      |V3.dot v ⟨0.6,0,0.8⟩ - 10 * (1 - a * Ω / (2*π))| ≤ 0.02 * a := by
  intro w
  have hpi := pi_gt_three
  have hpi2 := pi_lt_d2
  obtain ⟨apc, hap⟩ : ∃ apc, apc = (3/4) * π * 10^2 / 800 / (4 * π * 800 * 50)^2 := ⟨_, rfl⟩
  have h0 : 0 ≤ apc := by rw [hap]; positivity
  have h1 : apc ≤ 1e-6 := by
    have e : apc = (3/4) * 10^2 / 800 / ((4 * 800 * 50)^2 * π) := by rw [hap]; field_simp
    rw [e, div_le_iff₀ (by positivity)]
    nlinarith
  obtain ⟨b1, b2, b3, b4, b5, b6, b7, b8, b9, b10, b11, b12, b13, b14⟩ := loading_frame mini ((WT.new 50 ⟨1,2,3⟩ ⟨0,0,1⟩ ⟨0,1,0⟩ ⟨6,0,8⟩ none false "VC").run mini [])
    { Ct := some ([3/4].map .fin), Lambda := some .pinf, nCyl := some 1 }
  have f2 : w.r_hub = ⟨1,2,3⟩ := b2
  have f5 : w.e_shaft_g = ⟨0,0,1⟩ := by
    refine Eq.trans (b := ((WT.new 50 ⟨1,2,3⟩ ⟨0,0,1⟩ ⟨0,1,0⟩ ⟨6,0,8⟩ none false "VC").run mini []).e_shaft_g) b5 ?_
    have := (frame_run mini ⟨0,0,1⟩ ⟨0,1,0⟩ 50 [] _ (frame_new 50 ⟨1,2,3⟩ ⟨0,0,1⟩ ⟨0,1,0⟩ ⟨6,0,8⟩ none false "VC")).e_shaft_g
    rw [turn_eq] at this
    refine this.trans ?_
    change turn _ 0 _ = _
    unfold turn
    ext <;> simp
  have f12 : w.Ground = false := b12
  have f13 : w.chi = none := b13
  have f14 : w.Model = "VC" := b14
  have H := C147_thrust mini 50 ⟨1,2,3⟩ ⟨0,0,1⟩ ⟨0,1,0⟩ ⟨6,0,8⟩ none false "VC" ⟨by simp [V3.dot], by simp [V3.dot], by simp [V3.dot]⟩ (by norm_num)
    [] [⟨31,2,-197⟩] {} rfl rfl rfl rfl rfl 10 (by norm_num) ⟨0.6,0,0.8⟩ (by simp [V3.dot]; norm_num) (by simp [V3.dot]) [3/4] (by simp) .pinf 800 (Or.inr ⟨rfl, rfl⟩) (by norm_num)
    (3/4) (by norm_num) (by norm_num) (by norm_num [Ctc, ac]) apc hap (by nlinarith)
  obtain ⟨a, u, a1, a2, a3, hu, hall⟩ := H (by rw [show _ = _ from f14]; rfl) (by rw [show _ = _ from f12]; rfl) f13 (by change (⟨6,0,8⟩ : V3 ℝ) = _; ext <;> simp [V3.smul] <;> norm_num)
    (by rw [show _ = _ from f5]; simp [V3.dot]; norm_num) (by rw [show _ = _ from f5]; simp [V3.dot, V3.cross]; norm_num)
  obtain ⟨-, -, v, v1, v2⟩ := hall 0 ⟨31,2,-197⟩ (-200) 30 _ (50/200) rfl (by rw [show _ = _ from f5, show _ = _ from f2]; simp [V3.dot]; norm_num) (by norm_num)
    (by
      rw [show _ = _ from f5, show _ = _ from f2]
      unfold V3.norm
      simp
      norm_num
      rw [show (900:ℝ) = 30^2 by norm_num, Real.sqrt_sq (by norm_num)]) rfl (by norm_num)
  refine ⟨a, _, u, v, by rw [a1]; nlinarith, a3, rfl, hu, v1, v2.trans ?_⟩
  have hs2 : √2 ≤ 1.5 := by rw [Real.sqrt_le_left (by norm_num)]; norm_num
  have hq : π^2/(3 * 179^2) * ((50:ℝ)/200 * ((50:ℝ)/200 + 2)) * (1 + 10 * ((50:ℝ)/200) + 18 * ((50:ℝ)/200)^2) ≤ 0.0006 := by
    norm_num at *
    nlinarith
  have hq0 : 0 ≤ π^2/(3 * 179^2) * ((50:ℝ)/200 * ((50:ℝ)/200 + 2)) * (1 + 10 * ((50:ℝ)/200) + 18 * ((50:ℝ)/200)^2) := by
    norm_num
    positivity
  generalize π^2/(3 * 179^2) * ((50:ℝ)/200 * ((50:ℝ)/200 + 2)) * (1 + 10 * ((50:ℝ)/200) + 18 * ((50:ℝ)/200)^2) = Q at *
  have s1 : 2 * a * 10 * Q ≤ 2 * a * 10 * 0.0006 := by gcongr
  have s2 : √2 * (2 * a * 10 * Q) ≤ 1.5 * (2 * a * 10 * Q) := by gcongr
  linarith

end
end Wiz
