import Verif.Lemmas.FarWake
import Verif.Props.SkewedGround

/-! # C100: the velocity on the rotor disk and in the far wake of a skewed cylinder

The claims of `test_SVC_rotor` and `test_SVC_farwake` (wiz/VortexCylinderSkewed.py:505-600), for every radius,
strength, skew angle in `(-π/2, π/2)` and point, instead of one cylinder and a few points. -/
namespace Wiz
open Spec Real MeasureTheory Set Filter Topology

/-- what `svc_tang_u` returns at a point off the wake, as the number of azimuths grows -/
theorem svcTang_tendsto {P : V3 ℝ} {R m : ℝ} (γ : ℝ) (hR : 0 < R) (hoff : OffWake R m P) :
    ∃ u : ℕ → V3 ℝ, (∀ n, svcTang [P] (.fin γ) R (.fin m) (n+1) false = [V3.fin (u n)]) ∧
      Tendsto (fun n => (u n).x) atTop (𝓝 (skewTangField γ R m P).x) ∧
      Tendsto (fun n => (u n).y) atTop (𝓝 (skewTangField γ R m P).y) ∧
      Tendsto (fun n => (u n).z) atTop (𝓝 (skewTangField γ R m P).z) := by
  obtain ⟨c1, c2, c3, -⟩ := gen_continuous R m _ hoff γ
  have p := fun θ => gen_periodic R m P γ θ
  refine ⟨fun n => turnRuleV (π/2) n (tangGenerator γ R m P), fun n => ?_, ?_, ?_, ?_⟩
  · have := (C65_cartesian [P] γ R m hR n 0 P rfl hoff).1
    unfold svcTang at *
    simpa using this
  · exact turnRule_tendsto _ c1 (fun x => by rw [(p x).1]) (fun _ => π/2)
  · exact turnRule_tendsto _ c2 (fun x => by rw [(p x).1]) (fun _ => π/2)
  · exact turnRule_tendsto _ c3 (fun x => by rw [(p x).1]) (fun _ => π/2)

theorem offWake_disk0 {R x y : ℝ} (hR : 0 < R) (h : x^2 + y^2 < R^2) (m : ℝ) : OffWake R m ⟨x, y, 0⟩ := by
  have := offWake_disk hR h m 0; rwa [mul_zero, add_zero] at this

theorem skewComponents_tan {χ : ℝ} (hχ : 0 < cos χ) (ux uz : ℝ) :
    skewComponents (.fin ux) (.fin uz) (.fin (tan χ)) = (.fin (uz * cos χ + ux * sin χ), .fin (-uz * sin χ + ux * cos χ)) := by
  have hsec : √(1 + tan χ ^ 2) = 1 / cos χ := by
    rw [← inv_sqrt_one_add_tan_sq hχ, one_div, inv_inv]
  have hc : (1/cos χ) ≠ 0 := by positivity
  have hc0 := hχ.ne'
  unfold skewComponents
  simp only [Num.one_def, Num.fin_pow, Num.fin_add, Num.sqrt_fin (by positivity : (0:ℝ) ≤ 1 + tan χ^2), hsec, Num.fin_div hc, Num.fin_mul, Num.fin_neg]
  rw [tan_eq_sin_div_cos, show (1:ℝ)/(1/cos χ) = cos χ by field_simp, show sin χ/cos χ/(1/cos χ) = sin χ by field_simp]

/-- C100: over the whole rotor disk the velocity component along the wake (`u_zeta`) converges to `γ_t/2`,
the same at every point. -/
theorem C100_along_wake (R γ χ x y : ℝ) (hR : 0 < R) (hχ : -(π/2) < χ ∧ χ < π/2) (h : x^2 + y^2 < R^2) :
    ∃ (u : ℕ → V3 ℝ) (ζ ξ : ℕ → ℝ),
      (∀ n, svcTang [⟨x, y, 0⟩] (.fin γ) R (.fin (tan χ)) (n+1) false = [V3.fin (u n)] ∧
        skewComponents (.fin (u n).x) (.fin (u n).z) (.fin (tan χ)) = (.fin (ζ n), .fin (ξ n))) ∧
      Tendsto ζ atTop (𝓝 (γ/2)) := by
  have hc := cos_pos_of_mem_Ioo (⟨hχ.1, hχ.2⟩ : χ ∈ Ioo (-(π/2)) (π/2))
  obtain ⟨u, hu, tx, -, tz⟩ := svcTang_tendsto γ hR (offWake_disk0 hR h (tan χ))
  refine ⟨u, _, _, fun n => ⟨hu n, skewComponents_tan hc _ _⟩, ?_⟩
  obtain ⟨fx, -, fz⟩ := field_disk (γ := γ) hR h hc
  have := (tz.mul_const (cos χ)).add (tx.mul_const (sin χ))
  rw [fx, fz] at this
  convert this using 2
  rw [tan_half_cos hc]
  have h1 := sin_sq_add_cos_sq χ
  have : 1 + cos χ ≠ 0 := by linarith
  field_simp
  linear_combination (-4) * π * γ * h1

/-- C100: the velocities at two opposite points of the rotor disk add up, in the limit, to twice the velocity of
the rotor centre, `(γ_t/2)·(tan(χ/2), 0, 1)`: the variation over the disk is antisymmetric. -/
theorem C100_opposite (R γ χ x y : ℝ) (hR : 0 < R) (hχ : -(π/2) < χ ∧ χ < π/2) (h : x^2 + y^2 < R^2) :
    ∃ u v o : ℕ → V3 ℝ,
      (∀ n, svcTang [⟨x, y, 0⟩] (.fin γ) R (.fin (tan χ)) (n+1) false = [V3.fin (u n)] ∧
        svcTang [⟨-x, -y, 0⟩] (.fin γ) R (.fin (tan χ)) (n+1) false = [V3.fin (v n)] ∧
        svcTang [⟨0, 0, 0⟩] (.fin γ) R (.fin (tan χ)) (n+1) false = [V3.fin (o n)]) ∧
      Tendsto (fun n => (o n).x) atTop (𝓝 (γ/2 * tan (χ/2))) ∧ Tendsto (fun n => (o n).y) atTop (𝓝 0) ∧
      Tendsto (fun n => (o n).z) atTop (𝓝 (γ/2)) ∧
      Tendsto (fun n => (u n).x + (v n).x) atTop (𝓝 (2 * (γ/2 * tan (χ/2)))) ∧ Tendsto (fun n => (u n).y + (v n).y) atTop (𝓝 0) ∧
      Tendsto (fun n => (u n).z + (v n).z) atTop (𝓝 (2 * (γ/2))) := by
  have hc := cos_pos_of_mem_Ioo (⟨hχ.1, hχ.2⟩ : χ ∈ Ioo (-(π/2)) (π/2))
  have h' : (-x)^2 + (-y)^2 < R^2 := by nlinarith
  have h0 : (0:ℝ)^2 + 0^2 < R^2 := by nlinarith
  obtain ⟨u, hu, ux, uy, uz⟩ := svcTang_tendsto γ hR (offWake_disk0 hR h (tan χ))
  obtain ⟨v, hv, vx, vy, vz⟩ := svcTang_tendsto γ hR (offWake_disk0 hR h' (tan χ))
  obtain ⟨o, ho, ox, oy, oz⟩ := svcTang_tendsto γ hR (offWake_disk0 hR h0 (tan χ))
  obtain ⟨fx, fy, fz⟩ := field_disk (γ := γ) hR h hc
  obtain ⟨gx, gy, gz⟩ := field_disk (γ := γ) hR h' hc
  obtain ⟨ex, ey, ez⟩ := field_disk (γ := γ) hR h0 hc
  rw [fx] at ux; rw [fy] at uy; rw [fz] at uz
  rw [gx, diskA_neg] at vx; rw [gy, diskB_neg] at vy; rw [gz, diskA_neg] at vz
  rw [ex, diskA_zero] at ox; rw [ey, diskB_zero] at oy; rw [ez, diskA_zero] at oz
  refine ⟨u, v, o, fun n => ⟨hu n, hv n, ho n⟩, ?_, ?_, ?_, ?_, ?_, ?_⟩
  · convert ox using 2; ring
  · convert oy using 2; ring
  · convert oz using 2; ring
  · convert ux.add vx using 2; ring
  · convert uy.add vy using 2; ring
  · convert uz.add vz using 2; ring

/-- C100: on the diameter across the skew (`x = 0`) the velocity in the plane of the skew is uniform:
`u_x → (γ_t/2) tan(χ/2)`, `u_z → γ_t/2`, `u_zeta → γ_t/2` and `u_xi → -(γ_t/2) tan(χ/2)`. -/
theorem C100_diameter (R γ χ y : ℝ) (hR : 0 < R) (hχ : -(π/2) < χ ∧ χ < π/2) (h : |y| < R) :
    ∃ (u : ℕ → V3 ℝ) (ζ ξ : ℕ → ℝ),
      (∀ n, svcTang [⟨0, y, 0⟩] (.fin γ) R (.fin (tan χ)) (n+1) false = [V3.fin (u n)] ∧
        skewComponents (.fin (u n).x) (.fin (u n).z) (.fin (tan χ)) = (.fin (ζ n), .fin (ξ n))) ∧
      Tendsto (fun n => (u n).x) atTop (𝓝 (γ/2 * tan (χ/2))) ∧ Tendsto (fun n => (u n).z) atTop (𝓝 (γ/2)) ∧
      Tendsto ζ atTop (𝓝 (γ/2)) ∧ Tendsto ξ atTop (𝓝 (-(γ/2 * tan (χ/2)))) := by
  have hc := cos_pos_of_mem_Ioo (⟨hχ.1, hχ.2⟩ : χ ∈ Ioo (-(π/2)) (π/2))
  have h' : (0:ℝ)^2 + y^2 < R^2 := by
    have := sq_lt_sq' (by have := abs_nonneg y; linarith) h
    rw [sq_abs] at this; linarith
  obtain ⟨u, hu, tx, -, tz⟩ := svcTang_tendsto γ hR (offWake_disk0 hR h' (tan χ))
  obtain ⟨fx, -, fz⟩ := field_disk (γ := γ) hR h' hc
  rw [fx, diskA_across, mul_zero, sub_zero] at tx
  rw [fz, diskA_across, mul_zero, add_zero] at tz
  have h1 := sin_sq_add_cos_sq χ
  have h2 : 1 + cos χ ≠ 0 := by linarith
  refine ⟨u, _, _, fun n => ⟨hu n, skewComponents_tan hc _ _⟩, tx, tz, ?_, ?_⟩
  · have := (tz.mul_const (cos χ)).add (tx.mul_const (sin χ))
    convert this using 2
    rw [tan_half_cos hc]
    field_simp
    linear_combination (-γ) * h1
  · have := (tz.neg.mul_const (sin χ)).add (tx.mul_const (cos χ))
    convert this using 2
    rw [tan_half_cos hc]
    field_simp
    ring

/-- the exact field far downstream -/
theorem field_far {R γ χ x y z : ℝ} (hR : 0 < R) (h : x^2 + y^2 < R^2) (hχ : 0 < cos χ) (hz : 2 * R * cos χ < z) :
    |(skewTangField γ R (tan χ) ⟨x + tan χ * z, y, z⟩).x - γ * tan (χ/2)| ≤ |γ| * R/(z/cos χ - 2*R) ∧
    |(skewTangField γ R (tan χ) ⟨x + tan χ * z, y, z⟩).y| ≤ |γ| * R/(z/cos χ - 2*R) ∧
    |(skewTangField γ R (tan χ) ⟨x + tan χ * z, y, z⟩).z - γ| ≤ |γ| * R/(z/cos χ - 2*R) := by
  have hpi := pi_pos
  have hχ' : 0 < cos (-χ) := by rwa [cos_neg]
  have o1 := offWake_disk hR h (tan χ) z
  have o2 := offWake_disk0 hR h (tan χ)
  have o3 := offWake_disk0 hR h (tan (-χ))
  obtain ⟨a1, a2, a3, -⟩ := gen_continuous R _ _ o1 γ
  obtain ⟨b1, b2, b3, -⟩ := gen_continuous R _ _ o2 γ
  obtain ⟨d1, d2, d3, -⟩ := gen_continuous R _ _ o3 γ
  have io := fun (f : ℝ → ℝ) (hf : Continuous f) => (hf.integrableOn_Ioc (μ := volume) (a := 0) (b := 2*π))
  have bound : ∀ f g : ℝ → ℝ, Continuous f → Continuous g → (∀ θ, |f θ - g θ| ≤ |γ|/(4*π) * (2 * R/(z/cos χ - 2 * R))) →
      |(∫ θ in Ioc 0 (2*π), f θ) - ∫ θ in Ioc 0 (2*π), g θ| ≤ |γ| * R/(z/cos χ - 2*R) := by
    intro f g hf hg hb
    rw [← integral_sub (io f hf) (io g hg)]
    have := norm_setIntegral_le_of_norm_le_const (μ := volume) (s := Ioc 0 (2*π)) (C := |γ|/(4*π) * (2 * R/(z/cos χ - 2 * R)))
      (f := fun θ => f θ - g θ) (by rw [Real.volume_Ioc]; exact ENNReal.ofReal_lt_top) (fun θ _ => by rw [Real.norm_eq_abs]; exact hb θ)
    rw [Real.norm_eq_abs] at this
    refine this.trans (le_of_eq ?_)
    rw [Measure.real, Real.volume_Ioc, sub_zero, ENNReal.toReal_ofReal (by positivity)]
    generalize z/cos χ - 2 * R = D
    field_simp
    ring
  obtain ⟨fx, fy, fz⟩ := field_disk (γ := γ) hR h hχ
  obtain ⟨gx, gy, gz⟩ := field_disk (γ := γ) hR h hχ'
  rw [diskA_flip, sin_neg] at gz
  rw [diskA_flip, cos_neg, neg_div, tan_neg (χ/2)] at gx
  rw [diskB_flip, cos_neg] at gy
  refine ⟨?_, ?_, ?_⟩
  · have := bound _ _ a1 (b1.add d1.neg) (fun θ => gen_far hR h hχ hz θ V3.x (Or.inl rfl))
    rw [integral_add' (io _ b1) (io _ d1.neg), integral_neg'] at this
    convert this using 2
    change _ = _ - ((skewTangField γ R (tan χ) ⟨x, y, 0⟩).x + -(skewTangField γ R (tan (-χ)) ⟨x, y, 0⟩).x)
    rw [fx, gx]
    change (skewTangField γ R (tan χ) ⟨x + tan χ * z, y, z⟩).x - _ = (skewTangField γ R (tan χ) ⟨x + tan χ * z, y, z⟩).x - _
    ring
  · have := bound _ _ a2 (b2.add d2.neg) (fun θ => gen_far hR h hχ hz θ V3.y (Or.inr (Or.inl rfl)))
    rw [integral_add' (io _ b2) (io _ d2.neg), integral_neg'] at this
    convert this using 2
    change _ = _ - ((skewTangField γ R (tan χ) ⟨x, y, 0⟩).y + -(skewTangField γ R (tan (-χ)) ⟨x, y, 0⟩).y)
    rw [fy, gy]
    change (skewTangField γ R (tan χ) ⟨x + tan χ * z, y, z⟩).y = (skewTangField γ R (tan χ) ⟨x + tan χ * z, y, z⟩).y - _
    ring
  · have := bound _ _ a3 (b3.add d3) (fun θ => gen_far hR h hχ hz θ V3.z (Or.inr (Or.inr rfl)))
    rw [integral_add' (io _ b3) (io _ d3)] at this
    convert this using 2
    change _ = _ - ((skewTangField γ R (tan χ) ⟨x, y, 0⟩).z + (skewTangField γ R (tan (-χ)) ⟨x, y, 0⟩).z)
    rw [fz, gz]
    change (skewTangField γ R (tan χ) ⟨x + tan χ * z, y, z⟩).z - _ = (skewTangField γ R (tan χ) ⟨x + tan χ * z, y, z⟩).z - _
    ring

/-- C100: in the far wake, anywhere inside the skewed cylinder, the velocity tends to the uniform
`γ_t·(tan(χ/2), 0, 1)`, twice the velocity of the rotor centre: at the axial distance `z` behind the rotor the
limit velocity differs from it, in each component, by at most `|γ_t| R/(z/cos χ - 2R)`. -/
theorem C100_far_wake (R γ χ x y z : ℝ) (hR : 0 < R) (hχ : -(π/2) < χ ∧ χ < π/2) (h : x^2 + y^2 < R^2) (hz : 2 * R * cos χ < z) :
    ∃ (u : ℕ → V3 ℝ) (V : V3 ℝ),
      (∀ n, svcTang [⟨x + tan χ * z, y, z⟩] (.fin γ) R (.fin (tan χ)) (n+1) false = [V3.fin (u n)]) ∧
      Tendsto (fun n => (u n).x) atTop (𝓝 V.x) ∧ Tendsto (fun n => (u n).y) atTop (𝓝 V.y) ∧ Tendsto (fun n => (u n).z) atTop (𝓝 V.z) ∧
      |V.x - γ * tan (χ/2)| ≤ |γ| * R/(z/cos χ - 2*R) ∧ |V.y - 0| ≤ |γ| * R/(z/cos χ - 2*R) ∧ |V.z - γ| ≤ |γ| * R/(z/cos χ - 2*R) := by
  have hc := cos_pos_of_mem_Ioo (⟨hχ.1, hχ.2⟩ : χ ∈ Ioo (-(π/2)) (π/2))
  obtain ⟨u, hu, tx, ty, tz⟩ := svcTang_tendsto γ hR (offWake_disk hR h (tan χ) z)
  refine ⟨u, _, hu, tx, ty, tz, ?_⟩
  rw [sub_zero]
  exact field_far hR h hc hz

/-- the hypotheses are met, e.g. by the cylinder of the tests of the project -/
example : -(π/2) < π/6 ∧ π/6 < π/2 ∧ (5:ℝ)^2 + 2^2 < 10^2 ∧ 2 * 10 * cos (π/6) < 1000 * 10 := by
  have := pi_pos
  have := cos_le_one (π/6)
  refine ⟨by linarith, by linarith, by norm_num, by linarith⟩

end Wiz
