import Verif.Props.CylinderAccuracy2
/-! # C120: the wake boundary is a vortex sheet of strength `γ` -/
namespace Wiz
open Spec Classical Real Filter Topology
noncomputable section

/-- the solid angle under which a point above the edge sees the disk -/
theorem saK_edge {R h : ℝ} (hR : 0 < R) (hh : 0 < h) :
    saK R h R = π - h * (2/√((R+R)^2+h^2)) * ellK (4*R*R/((R+R)^2+h^2)) := by
  have hp : ∀ θ, 0 < dist2 R h R θ := saDist_pos hh R R
  have hw : ∀ θ, 0 < √(dist2 R h R θ) := fun θ => sqrt_pos.mpr (hp θ)
  have c0 : Continuous fun θ => √(dist2 R h R θ) := by unfold dist2; fun_prop
  have c1 : Continuous fun θ => 1 / √(dist2 R h R θ) := continuous_const.div c0 fun θ => (hw θ).ne'
  have e : ∀ θ, R*(R - R*cos θ) / (√(dist2 R h R θ) * (√(dist2 R h R θ) + h)) = 1/2 - h/2 * (1/√(dist2 R h R θ)) := by
    intro θ
    have hq := sq_sqrt (hp θ).le
    have hn : R*(R - R*cos θ) = (√(dist2 R h R θ)^2 - h^2)/2 := by rw [hq]; unfold dist2; ring
    rw [hn]
    have := hw θ
    generalize √(dist2 R h R θ) = w at *
    field_simp
    ring
  unfold saK
  simp only [e]
  rw [intervalIntegral.integral_sub (by simp) ((c1.const_mul _).intervalIntegrable _ _), intervalIntegral.integral_const_mul,
    ring_I1 hR.le hR (fun h' => hh.ne' h'.2)]
  simp
  ring

/-- the solid angle is continuous across the edge radius -/
theorem saK_continuous {R h : ℝ} (hh : 0 < h) : Continuous fun r => saK r h R := by
  unfold saK
  apply intervalIntegral.continuous_parametric_intervalIntegral_of_continuous'
  have hw : ∀ q : ℝ × ℝ, 0 < √(dist2 q.1 h R q.2) := fun q => sqrt_pos.mpr (saDist_pos hh _ _ _)
  simp only [Function.uncurry_def]
  refine Continuous.div (by fun_prop) (by unfold dist2; fun_prop) fun q => ?_
  have := hw q
  positivity

/-- C120: crossing the radius of the cylinder downstream of the rotor, the axial velocity of the semi-infinite cylinder (Biot–Savart)
jumps by exactly the sheet strength `γ`: the limits from inside and from outside are `γ - γΩ/4π` and `-γΩ/4π`, where `Ω` is the solid angle
under which the boundary point sees the rotor disk.  Upstream there is no sheet and the axial velocity is continuous. -/
theorem C120_jump (γ R ψ z : ℝ) (hR : 0 < R) (hz : z ≠ 0) (Ω : ℝ) (hΩ : Ω = diskSolidAngle R ⟨R*cos ψ, R*sin ψ, z⟩) :
    (0 < z → Tendsto (fun r => (cylinderField γ R ⟨r*cos ψ, r*sin ψ, z⟩).z) (𝓝[<] R) (𝓝 (γ - γ/(4*π)*Ω)) ∧
      Tendsto (fun r => (cylinderField γ R ⟨r*cos ψ, r*sin ψ, z⟩).z) (𝓝[>] R) (𝓝 (-(γ/(4*π)*Ω)))) ∧
    (z < 0 → Tendsto (fun r => (cylinderField γ R ⟨r*cos ψ, r*sin ψ, z⟩).z) (𝓝 R) (𝓝 (γ/(4*π)*Ω))) := by
  rw [solidAngle_eq R R z ψ hz hR.le] at hΩ
  subst hΩ
  have hcont : Tendsto (fun r => saK r |z| R) (𝓝 R) (𝓝 (saK R |z| R)) := (saK_continuous (abs_pos.mpr hz)).tendsto R
  have hpos : ∀ᶠ r in 𝓝 R, 0 < r := lt_mem_nhds hR
  refine ⟨fun h => ⟨?_, ?_⟩, fun h => ?_⟩
  · have h0 : Tendsto (fun r => saK r |z| R) (𝓝[<] R) (𝓝 (saK R |z| R)) := hcont.mono_left nhdsWithin_le_nhds
    have h1 := (h0.const_mul (γ/(4*π))).const_sub γ
    refine h1.congr' ?_
    filter_upwards [self_mem_nhdsWithin, nhdsWithin_le_nhds hpos] with r hr hr0
    have hr : r < R := hr
    rw [cylinder_z γ R r z ψ hr0 hR hz hr.ne, if_neg (not_lt.mpr h.le), if_pos hr, solidAngle_eq R r z ψ hz hR.le]
  · have h0 : Tendsto (fun r => saK r |z| R) (𝓝[>] R) (𝓝 (saK R |z| R)) := hcont.mono_left nhdsWithin_le_nhds
    have h1 := (h0.const_mul (γ/(4*π))).neg
    refine h1.congr' ?_
    filter_upwards [self_mem_nhdsWithin] with r hr
    have hr : R < r := hr
    rw [cylinder_z γ R r z ψ (hR.trans hr) hR hz hr.ne', if_neg (not_lt.mpr h.le), if_neg (not_lt.mpr hr.le), zero_sub, solidAngle_eq R r z ψ hz hR.le]
  · refine (hcont.const_mul (γ/(4*π))).congr' ?_
    filter_upwards [hpos] with r hr0
    rw [cylinder_up_z γ R r z ψ hr0.le hR h, abs_of_neg h]

/-- C120: the velocity across the axis is continuous at the boundary, off the edge of the rotor: in both lateral components the Biot–Savart
field has one limit as the boundary is approached from either side, and that limit is the value `vc_tang_u` returns on the boundary.  On the
boundary itself `vc_tang_u` returns, along the axis, the mean `γ/2 - γΩ/4π` of the limits from inside and outside (downstream) or the
continuous value `γΩ/4π` (upstream) — exactly, for every batch. -/
theorem C120_boundary (pts : List (V3 ℝ)) (γ R ψ z : ℝ) (hR : 0 < R) (hz : 1e-8 * R ≤ |z|) (i : ℕ)
    (hi : pts[i]? = some ⟨R*cos ψ, R*sin ψ, z⟩) (Ω : ℝ) (hΩ : Ω = diskSolidAngle R ⟨R*cos ψ, R*sin ψ, z⟩) :
    ∃ u : V3 ℝ, (vcTang pts (.fin γ) R 0)[i]? = some (V3.fin u) ∧
      u.z = (if z < 0 then γ/(4*π)*Ω else γ/2 - γ/(4*π)*Ω) ∧
      Tendsto (fun r => (cylinderField γ R ⟨r*cos ψ, r*sin ψ, z⟩).x) (𝓝[≠] R) (𝓝 u.x) ∧
      Tendsto (fun r => (cylinderField γ R ⟨r*cos ψ, r*sin ψ, z⟩).y) (𝓝[≠] R) (𝓝 u.y) := by
  have hz0 : z ≠ 0 := by
    rintro rfl
    rw [abs_zero] at hz
    have : (0:ℝ) < 1e-8*R := by positivity
    linarith
  have hza := abs_pos.mpr hz0
  rw [solidAngle_eq R R z ψ hz0 hR.le, saK_edge hR hza] at hΩ
  have hpol : polarR (R*cos ψ) (R*sin ψ) = R := by
    unfold polarR
    rw [show (R*cos ψ)^2 + (R*sin ψ)^2 = R^2 by linear_combination R^2*sin_sq_add_cos_sq ψ, sqrt_sq hR.le]
  have hval : vcVal (piReal (vcBatch pts R 0)) γ R R z = (vcUr γ R R z, vcUz γ R R z (piReal (vcBatch pts R 0) (vcN R R) (vcM R R z))) := by
    unfold vcVal
    rw [if_neg (fun h => not_lt.mpr hz h.2), if_neg (by norm_num; linarith)]
  have hd := vcVal_dir (piReal (vcBatch pts R 0)) γ R (R*cos ψ) (R*sin ψ) z hR
  rw [hpol, hval] at hd
  simp only at hd
  rw [mul_div_cancel_left₀ _ hR.ne', mul_div_cancel_left₀ _ hR.ne'] at hd
  have hcontR : Tendsto (fun r => vcUr γ R r z) (𝓝 R) (𝓝 (vcUr γ R R z)) := by
    have hc : Continuous fun r => ∫ θ in (0:ℝ)..(2*π), cos θ / √(dist2 r |z| R θ) := by
      apply intervalIntegral.continuous_parametric_intervalIntegral_of_continuous'
      simp only [Function.uncurry_def]
      refine Continuous.div (by fun_prop) (by unfold dist2; fun_prop) fun q => ?_
      exact (sqrt_pos.mpr (saDist_pos hza _ _ _)).ne'
    have hab : ∀ r θ, dist2 r |z| R θ = dist2 r z R θ := fun r θ => by unfold dist2; rw [sq_abs]
    simp only [hab] at hc
    rw [vcUr_int γ R R z hR hR (fun h => hz0 h.2)]
    refine ((hc.tendsto R).const_mul (-(γ*R/(4*π)))).congr' ?_
    filter_upwards [lt_mem_nhds hR] with r hr
    rw [vcUr_int γ R r z hr hR (fun h => hz0 h.2)]
  have hnear : ∀ᶠ r in 𝓝[≠] R, 0 < r ∧ r ≠ R := by
    filter_upwards [self_mem_nhdsWithin, nhdsWithin_le_nhds (lt_mem_nhds hR)] with r h1 h2
    exact ⟨h2, h1⟩
  refine ⟨⟨vcUr γ R R z * cos ψ, vcUr γ R R z * sin ψ, vcUz γ R R z (piReal (vcBatch pts R 0) (vcN R R) (vcM R R z))⟩, ?_, ?_, ?_, ?_⟩
  · rw [vcTang_eval pts γ R hR, List.getElem?_map, hi]
    simp only [Option.map_some, hpol, hval]
    rw [hd.1, hd.2]
  · simp only
    unfold vcUz vcT
    rw [if_neg (lt_irrefl _), if_pos rfl, sub_self, zero_div, zero_mul, add_zero, vcM_eq]
    have hD : 0 < (R+R)^2 + z^2 := by positivity
    have hs : √(4*R*R/((R+R)^2+z^2)) = 2*R/√((R+R)^2+z^2) := by
      rw [sqrt_div (by positivity), show 4*R*R = (2*R)^2 by ring, sqrt_sq (by positivity)]
    rw [hs, sqrt_mul_self hR.le, hΩ, sq_abs]
    have hq := sqrt_pos.mpr hD
    have hpi := pi_pos
    split_ifs with h
    · rw [abs_of_neg h]; field_simp; ring
    · rw [abs_of_nonneg (not_lt.mp h)]; field_simp; ring
  · refine ((hcontR.mono_left nhdsWithin_le_nhds).mul_const (cos ψ)).congr' ?_
    filter_upwards [hnear] with r h
    rw [cylinderField_eq γ R r z ψ h.1 hR h.2]
  · refine ((hcontR.mono_left nhdsWithin_le_nhds).mul_const (sin ψ)).congr' ?_
    filter_upwards [hnear] with r h
    rw [cylinderField_eq γ R r z ψ h.1 hR h.2]

/-- C120 for returned values: of two points of a batch downstream of the rotor, one in the wake and one outside it, the axial velocities
returned by `vc_tang_u` differ by `γ`, up to `γ/4π` times the difference of the solid angles and the 3% accuracy of each value. -/
theorem C120_slip (pts : List (V3 ℝ)) (γ R : ℝ) (hR : 0 < R) (i j : ℕ) (p q : V3 ℝ) (hi : pts[i]? = some p) (hj : pts[j]? = some q)
    (hp : 0 < p.z) (hq : 0 < q.z) (hin0 : 0 < √(p.x^2 + p.y^2)) (hin : √(p.x^2 + p.y^2) < R) (hout : R < √(q.x^2 + q.y^2))
    (hpo : ¬ (|√(p.x^2 + p.y^2) - R| < 1e-8 * R ∧ |p.z| < 1e-8 * R)) (hqo : ¬ (|√(q.x^2 + q.y^2) - R| < 1e-8 * R ∧ |q.z| < 1e-8 * R)) :
    ∃ u v : V3 ℝ, (vcTang pts (.fin γ) R 0)[i]? = some (V3.fin u) ∧ (vcTang pts (.fin γ) R 0)[j]? = some (V3.fin v) ∧
      |u.z - v.z - γ| ≤ |γ|/(4*π) * |diskSolidAngle R p - diskSolidAngle R q| + 6/100*|γ| := by
  obtain ⟨u, hu, -, -, u3⟩ := C119_batch pts γ R hR i p hi hin.ne hpo
  obtain ⟨v, hv, -, -, v3⟩ := C119_batch pts γ R hR j q hj hout.ne' hqo
  refine ⟨u, v, hu, hv, ?_⟩
  rw [(C111_solid_angle γ R hR p hp.ne').2.2.2.1 hp hin0 hin] at u3
  rw [(C111_solid_angle γ R hR q hq.ne').2.2.2.2 hq hout] at v3
  have e : u.z - v.z - γ = (u.z - (γ - γ/(4*π)*diskSolidAngle R p)) - (v.z - -(γ/(4*π)*diskSolidAngle R q))
      - γ/(4*π)*(diskSolidAngle R p - diskSolidAngle R q) := by ring
  have e2 : |γ/(4*π)*(diskSolidAngle R p - diskSolidAngle R q)| = |γ|/(4*π) * |diskSolidAngle R p - diskSolidAngle R q| := by
    rw [abs_mul, abs_div, abs_of_pos (by positivity : 0 < 4*π)]
  rw [e]
  refine (abs_sub _ _).trans ?_
  rw [e2]
  have := abs_sub (u.z - (γ - γ/(4*π)*diskSolidAngle R p)) (v.z - -(γ/(4*π)*diskSolidAngle R q))
  linarith

/-- points next to the boundary, two radii behind the rotor, meet the hypotheses -/
example : 0 < √((99/100:ℝ)^2 + 0^2) ∧ √((99/100:ℝ)^2 + 0^2) < 1 ∧ 1 < √((101/100:ℝ)^2 + 0^2) ∧
    ¬ (|√((99/100:ℝ)^2 + 0^2) - 1| < 1e-8 * 1 ∧ |(2:ℝ)| < 1e-8 * 1) ∧ (1e-8:ℝ) * 1 ≤ |2| := by
  have h1 : √((99/100:ℝ)^2 + 0^2) = 99/100 := by rw [zero_pow two_ne_zero, add_zero, sqrt_sq (by norm_num)]
  have h2 : √((101/100:ℝ)^2 + 0^2) = 101/100 := by rw [zero_pow two_ne_zero, add_zero, sqrt_sq (by norm_num)]
  rw [h1, h2]
  refine ⟨by norm_num, by norm_num, by norm_num, fun h => ?_, ?_⟩
  · have := h.2
    rw [abs_of_pos (by norm_num)] at this
    norm_num at this
  · rw [abs_of_pos (by norm_num)]; norm_num

end
end Wiz
