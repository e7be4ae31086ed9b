import Verif.Props.SolidAngle
import Verif.Props.Flow

/-! # The solid angle of the rotor disk decreases with the distance from the axis -/
namespace Wiz
open Real Spec MeasureTheory intervalIntegral Filter Topology
set_option autoImplicit false

theorem sin2_form {r z R : ℝ} (hr : 0 < r) (hR : 0 < R) (h : ¬ (r = R ∧ z = 0)) :
    (∫ θ in (0:ℝ)..(2*π), cos θ / √(dist2 r z R θ)) = ∫ θ in (0:ℝ)..(2*π), r*R*sin θ^2 / √(dist2 r z R θ)^3 := by
  have hp := dist2_pos hr.le hR h
  have hw : ∀ θ, 0 < √(dist2 r z R θ) := fun θ => sqrt_pos.mpr (hp θ)
  have hwc : Continuous fun θ => √(dist2 r z R θ) := by unfold dist2; fun_prop
  have c1 : Continuous fun θ => cos θ / √(dist2 r z R θ) := continuous_cos.div hwc fun θ => (hw θ).ne'
  have c2 : Continuous fun θ => r*R*sin θ^2 / √(dist2 r z R θ)^3 :=
    Continuous.div (by fun_prop) (hwc.pow 3) fun θ => (pow_pos (hw θ) 3).ne'
  have hd : ∀ θ, HasDerivAt (fun θ => sin θ / √(dist2 r z R θ)) (cos θ / √(dist2 r z R θ) - r*R*sin θ^2 / √(dist2 r z R θ)^3) θ := by
    intro θ
    have h1 : HasDerivAt (fun θ => dist2 r z R θ) (2*(r*R*sin θ)) θ := by
      unfold dist2
      have := ((hasDerivAt_cos θ).const_mul (2*r*R)).const_sub (r^2+R^2+z^2)
      refine this.congr_deriv ?_
      ring
    have h2 := h1.sqrt (hp θ).ne'
    refine ((hasDerivAt_sin θ).fun_div h2 (hw θ).ne').congr_deriv ?_
    have := hw θ
    clear h1 h2
    generalize √(dist2 r z R θ) = w at *
    field_simp
  have h0 := integral_eq_sub_of_hasDerivAt (a := 0) (b := 2*π) (fun θ _ => hd θ) ((c1.sub c2).intervalIntegrable _ _)
  rw [intervalIntegral.integral_sub (c1.intervalIntegrable _ _) (c2.intervalIntegrable _ _)] at h0
  simp only [sin_two_pi, sin_zero, zero_div, sub_self] at h0
  linarith

/-- the radial velocity grows towards the rotor plane, at a positive rate -/
theorem sin2_slope {r R z0 : ℝ} (hr : 0 < r) (hR : 0 < R) (hz : z0 < 0) :
    ∃ k : ℝ, 0 < k ∧ ∀ z1 z2 : ℝ, 2*z0 ≤ z1 → z1 ≤ z2 → z2 ≤ z0/2 →
      k*(z2 - z1) ≤ (∫ θ in (0:ℝ)..(2*π), r*R*sin θ^2 / √(dist2 r z2 R θ)^3) - ∫ θ in (0:ℝ)..(2*π), r*R*sin θ^2 / √(dist2 r z1 R θ)^3 := by
  obtain ⟨W, hW⟩ : ∃ W, W = r + R - 2*z0 := ⟨_, rfl⟩
  have hW0 : 0 < W := by linarith
  refine ⟨r*R*(-z0)/(2*W^5)*π, by have := pi_pos; have : 0 < -z0 := by linarith
                                  positivity, fun z1 z2 h1 h2 h3 => ?_⟩
  have hne : ∀ z, z ≤ z0/2 → ¬ (r = R ∧ z = 0) := fun z h h' => by linarith [h'.2]
  have hw : ∀ z, z ≤ z0/2 → ∀ θ, 0 < √(dist2 r z R θ) := fun z h θ => sqrt_pos.mpr (dist2_pos hr.le hR (hne z h) θ)
  have hwc : ∀ z, Continuous fun θ => √(dist2 r z R θ) := by intro z; unfold dist2; fun_prop
  have c2 : ∀ z, z ≤ z0/2 → Continuous fun θ => r*R*sin θ^2 / √(dist2 r z R θ)^3 := fun z h =>
    Continuous.div (by fun_prop) ((hwc z).pow 3) fun θ => (pow_pos (hw z h θ) 3).ne'
  rw [← intervalIntegral.integral_sub ((c2 z2 h3).intervalIntegrable _ _) ((c2 z1 (h2.trans h3)).intervalIntegrable _ _)]
  have hs : (∫ θ in (0:ℝ)..(2*π), (r*R*(-z0)/(2*W^5)*(z2 - z1))*sin θ^2) = r*R*(-z0)/(2*W^5)*π*(z2 - z1) := by
    rw [intervalIntegral.integral_const_mul, integral_sin_sq]
    simp
    ring
  rw [← hs]
  apply intervalIntegral.integral_mono_on (by have := pi_pos; positivity)
    (Continuous.intervalIntegrable (by fun_prop) _ _) (((c2 z2 h3).sub (c2 z1 (h2.trans h3))).intervalIntegrable _ _)
  intro θ _
  simp only [Pi.sub_apply]
  have b1 := hw z1 (h2.trans h3) θ
  have b2 := hw z2 h3 θ
  have q1 : √(dist2 r z1 R θ)^2 = dist2 r z1 R θ := sq_sqrt (dist2_pos hr.le hR (hne z1 (h2.trans h3)) θ).le
  have q2 : √(dist2 r z2 R θ)^2 = dist2 r z2 R θ := sq_sqrt (dist2_pos hr.le hR (hne z2 h3) θ).le
  have d : dist2 r z1 R θ - dist2 r z2 R θ = (z2 - z1)*(-z1 - z2) := by unfold dist2; ring
  have e1 : dist2 r z1 R θ ≤ W^2 := by
    rw [hW]; unfold dist2
    nlinarith [neg_one_le_cos θ, mul_pos hr hR, mul_nonneg (mul_pos hr hR).le (by linarith [neg_one_le_cos θ] : 0 ≤ 1 + cos θ)]
  have e2 : √(dist2 r z1 R θ) ≤ W := by rw [sqrt_le_left hW0.le]; exact e1
  have e3 : √(dist2 r z2 R θ) ≤ √(dist2 r z1 R θ) := by
    apply sqrt_le_sqrt
    nlinarith [mul_nonneg (sub_nonneg.2 h2) (by linarith : 0 ≤ -z1 - z2)]
  generalize √(dist2 r z1 R θ) = w1 at *
  generalize √(dist2 r z2 R θ) = w2 at *
  have d' : (z2 - z1)*(-z0) ≤ (w1 - w2)*(w1 + w2) := by
    have : (w1 - w2)*(w1+w2) = (z2 - z1)*(-z1 - z2) := by rw [← d, ← q1, ← q2]; ring
    rw [this]
    apply mul_le_mul_of_nonneg_left (by linarith) (by linarith)
  have d2 : (z2 - z1)*(-z0)/(2*W) ≤ w1 - w2 := by
    rw [div_le_iff₀ (by positivity)]
    nlinarith [mul_nonneg (sub_nonneg.2 e3) (by linarith : 0 ≤ 2*W - (w1 + w2))]
  have d3 : (w1 - w2)/W^4 ≤ 1/w2^3 - 1/w1^3 := by
    have hh : 1/w2^3 - 1/w1^3 = (w1 - w2)*(w1^2 + w1*w2 + w2^2)/(w1^3*w2^3) := by field_simp; ring
    rw [hh, div_le_div_iff₀ (by positivity) (by positivity), mul_assoc]
    apply mul_le_mul_of_nonneg_left _ (sub_nonneg.2 e3)
    have f1 : w1^3*w2^3 ≤ w1^2*W^4 := by
      have : w1*w2^3 ≤ W*W^3 := mul_le_mul e2 (pow_le_pow_left₀ b2.le (e3.trans e2) 3) (by positivity) hW0.le
      nlinarith [mul_le_mul_of_nonneg_left this (sq_nonneg w1)]
    have f2 : 0 ≤ (w1*w2 + w2^2)*W^4 := by positivity
    nlinarith
  have d4 : (z2 - z1)*(-z0)/(2*W^5) ≤ 1/w2^3 - 1/w1^3 := by
    refine le_trans ?_ d3
    have : (z2 - z1)*(-z0)/(2*W^5) = ((z2 - z1)*(-z0)/(2*W))/W^4 := by field_simp
    rw [this]
    gcongr
  have hs2 : 0 ≤ r*R*sin θ^2 := by positivity
  calc r*R*(-z0)/(2*W^5)*(z2 - z1)*sin θ^2 = (r*R*sin θ^2)*((z2 - z1)*(-z0)/(2*W^5)) := by ring
    _ ≤ (r*R*sin θ^2)*(1/w2^3 - 1/w1^3) := mul_le_mul_of_nonneg_left d4 hs2
    _ = _ := by ring

theorem off_upstream (R : ℝ) {P : V3 ℝ} (h : P.z < 0) : OffWake R 0 P := by
  intro θ s hs e
  have := congrArg V3.z e
  simp [wakePoint, rim, skewDir] at this
  linarith

/-- the axial velocity upstream decreases away from the axis, at a positive rate off the axis and the sheet's radius -/
theorem axial_slope {R x z : ℝ} (hR : 0 < R) (hz : z < 0) :
    ∃ d : ℝ, HasDerivAt (fun x => (cylinderField 1 R ⟨x, 0, z⟩).z) d x ∧ (0 < x → x ≠ R → d < 0) := by
  obtain ⟨gx, gy, gz, h1, h2, h3, -, h5, -⟩ := ((C88_cylinder 1 R 0 hR ⟨x, 0, z⟩ (off_upstream R hz)).2 rfl).2
  have a3 := HasGrad.along (c := fun x => ⟨x, 0, z⟩) (c' := ⟨1, 0, 0⟩) (t := x) h3 (hasDerivAt_id _) (hasDerivAt_const _ _) (hasDerivAt_const _ _)
  have a1 := HasGrad.along (c := fun z => ⟨x, 0, z⟩) (c' := ⟨0, 0, 1⟩) (t := z) h1 (hasDerivAt_const _ _) (hasDerivAt_const _ _) (hasDerivAt_id _)
  refine ⟨_, a3, fun hx hne => ?_⟩
  simp only [V3.dot, mul_zero, mul_one, add_zero, zero_add] at a1 ⊢
  rw [← h5]
  have hv : ∀ s : ℝ, (cylinderField 1 R ⟨x, 0, s⟩).x = -(R/(4*π)) * ∫ θ in (0:ℝ)..(2*π), x*R*sin θ^2 / √(dist2 x s R θ)^3 := by
    intro s
    have h := cylinderField_eq 1 R x s 0 hx hR hne
    rw [cos_zero, sin_zero, mul_one, mul_zero] at h
    rw [h, mul_one, vcUr_int 1 R x s hx hR (fun e => hne e.1), sin2_form hx hR (fun e => hne e.1), one_mul]
  simp only [hv] at a1
  obtain ⟨k, hk, hs⟩ := sin2_slope hx hR hz
  have hc : 0 < R/(4*π) := by have := pi_pos; positivity
  have key : gx.z ≤ -(R/(4*π)*k) := by
    refine le_of_tendsto (hasDerivAt_iff_tendsto_slope.1 a1) ?_
    have hn : ∀ᶠ s in 𝓝[≠] z, 2*z < s ∧ s < z/2 := nhdsWithin_le_nhds ((lt_mem_nhds (by linarith)).and (gt_mem_nhds (by linarith)))
    filter_upwards [hn, self_mem_nhdsWithin] with s ⟨s1, s2⟩ s3
    have s3 : s ≠ z := s3
    rw [slope_def_field]
    rcases lt_or_gt_of_ne s3 with l | l
    · have := hs s z s1.le l.le (by linarith)
      rw [div_le_iff_of_neg (by linarith)]
      nlinarith
    · have := hs z s (by linarith) l.le s2.le
      rw [div_le_iff₀ (by linarith)]
      nlinarith
  have : 0 < R/(4*π)*k := by positivity
  linarith

theorem axial_strictAnti {R z : ℝ} (hR : 0 < R) (hz : z < 0) : StrictAntiOn (fun x => (cylinderField 1 R ⟨x, 0, z⟩).z) (Set.Ici 0) := by
  have hc : Continuous fun x => (cylinderField 1 R ⟨x, 0, z⟩).z :=
    continuous_iff_continuousAt.2 fun x => (axial_slope (x := x) hR hz).choose_spec.1.continuousAt
  have hd : ∀ x, 0 < x → x ≠ R → deriv (fun x => (cylinderField 1 R ⟨x, 0, z⟩).z) x < 0 := by
    intro x hx hne
    obtain ⟨d, h1, h2⟩ := axial_slope (x := x) hR hz
    rw [h1.deriv]; exact h2 hx hne
  have A : StrictAntiOn (fun x => (cylinderField 1 R ⟨x, 0, z⟩).z) (Set.Icc 0 R) := by
    apply strictAntiOn_of_deriv_neg (convex_Icc 0 R) hc.continuousOn
    intro x hx; rw [interior_Icc] at hx; exact hd x hx.1 hx.2.ne
  have B : StrictAntiOn (fun x => (cylinderField 1 R ⟨x, 0, z⟩).z) (Set.Ici R) := by
    apply strictAntiOn_of_deriv_neg (convex_Ici R) hc.continuousOn
    intro x hx; rw [interior_Ici] at hx; exact hd x (hR.trans hx) (ne_of_gt hx)
  intro a ha b hb hab
  rcases le_or_gt b R with h | h
  · exact A ⟨ha, hab.le.trans h⟩ ⟨hb, h⟩ hab
  · rcases le_or_gt R a with h' | h'
    · exact B h' h.le hab
    · exact (B (Set.mem_Ici.2 le_rfl) h.le h).trans (A ⟨ha, h'.le⟩ ⟨hR.le, le_rfl⟩ h')

/-- the solid angle only depends on the distances to the axis and to the plane of the disk -/
theorem solidAngle_polar (R : ℝ) (hR : 0 ≤ R) (P : V3 ℝ) (hz : P.z ≠ 0) : diskSolidAngle R P = diskSolidAngle R ⟨√(P.x^2 + P.y^2), 0, -|P.z|⟩ := by
  have hp := polar_form P
  conv_lhs => rw [hp]
  rw [solidAngle_eq R _ _ _ hz hR]
  have := solidAngle_eq R (polarR P.x P.y) (-|P.z|) 0 (by simpa using hz) hR
  rw [cos_zero, sin_zero, mul_one, mul_zero, abs_neg, abs_abs] at this
  exact this.symm

theorem solidAngle_decreases (R : ℝ) (hR : 0 < R) (P Q : V3 ℝ) (hz : P.z ≠ 0) (h : |Q.z| = |P.z|) (hr : √(P.x^2 + P.y^2) < √(Q.x^2 + Q.y^2)) :
    diskSolidAngle R Q < diskSolidAngle R P := by
  have hz' : Q.z ≠ 0 := by rw [← abs_pos, h]; exact abs_pos.2 hz
  have hneg : -|P.z| < 0 := by have := abs_pos.2 hz; linarith
  have ha := axial_strictAnti hR hneg (Set.mem_Ici.2 (sqrt_nonneg _)) (Set.mem_Ici.2 (sqrt_nonneg _)) hr
  simp only at ha
  rw [(C111_solid_angle 1 R hR ⟨√(P.x^2+P.y^2), 0, -|P.z|⟩ hneg.ne).2.2.1 hneg,
    (C111_solid_angle 1 R hR ⟨√(Q.x^2+Q.y^2), 0, -|P.z|⟩ hneg.ne).2.2.1 hneg] at ha
  rw [solidAngle_polar R hR.le P hz, solidAngle_polar R hR.le Q hz', h]
  have hpi : 0 < 1/(4*π) := by have := pi_pos; positivity
  exact lt_of_mul_lt_mul_left ha hpi.le

end Wiz
