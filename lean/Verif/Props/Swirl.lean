import Verif.Props.WakeBoundary
import Verif.Props.VortexCylinderLongi
import Verif.Props.FarWakeStraight
import Verif.Props.TurbineValue
import Verif.Props.CylinderAccuracy3
/-! # C121: the swirl of the longitudinal vorticity -/
namespace Wiz
open Spec Classical Real Filter Topology
noncomputable section

theorem zero_div_zero : (Num.fin 0 / Num.fin 0 : Num) = .nan := by
  rw [Num.fin_div_zero]; simp [Num.infSign]

theorem longi_uniform (pts : List (V3 ℝ)) (R : ℝ) (hR : 0 < R) (p : V3 ℝ) (hp : p ∈ pts) (hr : 0 < polarR p.x p.y)
    (hne : polarR p.x p.y ≠ R) :
    √((1 - vcN R (polarR p.x p.y))*((vcN R (polarR p.x p.y) - vcM R (polarR p.x p.y) p.z)/vcN R (polarR p.x p.y))) *
      |piReal (longiBatch pts R) (vcN R (polarR p.x p.y)) (vcM R (polarR p.x p.y) p.z) - ellPi (vcN R (polarR p.x p.y)) (vcM R (polarR p.x p.y) p.z)| ≤ 188/1000 := by
  obtain ⟨nm, hnm⟩ : ∃ nm : List (ℝ × ℝ), nm = pts.map fun p => (vcN R (polarR p.x p.y), vcM R (polarR p.x p.y) p.z) := ⟨_, rfl⟩
  have hbatch : longiBatch pts R = nm.map fun p => (.fin p.1, .fin p.2) := by
    unfold longiBatch
    rw [hnm, List.map_map, List.map_map]
    apply List.map_congr_left
    intro q _
    have h0 := polarR_nonneg q.x q.y
    simp only [Function.comp_def]
    generalize polarR q.x q.y = r at *
    have h1 : (r+R)^2 + q.z^2 ≠ 0 := by positivity
    have h2 : (r+R)^2 ≠ 0 := by positivity
    unfold vcN vcM
    rw [add_comm R r]
    simp only [Num.ofNat_def, Num.fin_mul, Num.fin_add, Num.fin_pow, Num.fin_div h1, Num.fin_div h2]
  have hN := vcN_lt hR hr.le hne
  have hMN : vcM R (polarR p.x p.y) p.z ≤ vcN R (polarR p.x p.y) := by
    unfold vcM vcN
    apply div_le_div_of_nonneg_left (by positivity) (by positivity)
    nlinarith [sq_nonneg p.z]
  have hM0 : 0 ≤ vcM R (polarR p.x p.y) p.z := by unfold vcM; positivity
  have hmem : (vcN R (polarR p.x p.y), vcM R (polarR p.x p.y) p.z) ∈ nm := by
    rw [hnm]; exact List.mem_map.mpr ⟨p, hp, rfl⟩
  have hP := piOf_map (longiBatch pts R)
  have hm1 : ∀ q ∈ nm, q.2 ≤ 1 := by
    intro q hq
    rw [hnm] at hq
    obtain ⟨q', hq', rfl⟩ := List.mem_map.mp hq
    have h0 := polarR_nonneg q'.x q'.y
    simp only
    unfold vcM
    rw [div_le_one (by positivity)]
    nlinarith [sq_nonneg (R - polarR q'.x q'.y), sq_nonneg q'.z]
  have hP' : ellipticPiCarlson (nm.map fun p => (.fin p.1, .fin p.2)) = nm.map fun p => piOf (longiBatch pts R) (.fin p.1) (.fin p.2) := by
    rw [← hbatch, hP]
    generalize piOf (longiBatch pts R) = Q
    rw [hbatch, List.map_map]
    rfl
  obtain ⟨c, hc, hb⟩ := carlson_uniform nm hm1 _ _ hmem hM0 hMN hN (piOf (longiBatch pts R)) hP'
  have : piReal (longiBatch pts R) (vcN R (polarR p.x p.y)) (vcM R (polarR p.x p.y) p.z) = c := by
    unfold piReal
    rw [hc]; rfl
  rw [this]
  exact hb

/-- the error of the third-kind integral in the velocity, uniformly -/
theorem weight_bound {γ R r z D : ℝ} (hR : 0 < R) (hr : 0 < r) (h : √((1 - vcN R r)*((vcN R r - vcM R r z)/vcN R r)) * |D| ≤ 188/1000) :
    |γ/2 * (z * √(vcM R r z) / (2*π*√(r*R))) * ((R - r)/(R + r)) * D| ≤ 3/100*|γ| := by
  have hw : √((1 - vcN R r)*((vcN R r - vcM R r z)/vcN R r)) = |R - r|/(R + r) * (|z|/√((R+r)^2+z^2)) := by
    have e1 : 1 - vcN R r = ((R-r)/(R+r))^2 := by unfold vcN; field_simp; ring
    have e2 : (vcN R r - vcM R r z)/vcN R r = z^2/((R+r)^2+z^2) := by
      have : (R+r)^2+z^2 ≠ 0 := by positivity
      unfold vcN vcM; field_simp; ring
    rw [e1, e2, sqrt_mul (by positivity), sqrt_sq_eq_abs, abs_div, abs_of_pos (by positivity : 0 < R + r), sqrt_div (by positivity), sqrt_sq_eq_abs]
  have hs : √(vcM R r z)/√(r*R) = 2/√((R+r)^2+z^2) := by
    unfold vcM
    rw [← sqrt_div (by positivity), show 4*r*R/((R+r)^2+z^2)/(r*R) = 2^2/((R+r)^2+z^2) by
      have : (R+r)^2+z^2 ≠ 0 := by positivity
      field_simp; norm_num, sqrt_div (by positivity), sqrt_sq (by norm_num)]
  have e : γ/2 * (z * √(vcM R r z) / (2*π*√(r*R))) * ((R - r)/(R + r)) * D = γ/(2*π) * (((R-r)/(R+r)) * (z/√((R+r)^2+z^2)) * D) := by
    rw [show z * √(vcM R r z) / (2*π*√(r*R)) = z/(2*π)*(√(vcM R r z)/√(r*R)) by ring, hs]
    ring
  rw [e, abs_mul, abs_mul, abs_mul, abs_div, abs_div (R-r), abs_div z, abs_of_pos (by positivity : 0 < R + r), abs_of_nonneg (sqrt_nonneg _),
    abs_of_pos (by positivity : 0 < 2*π), ← hw]
  calc |γ|/(2*π)*(√((1 - vcN R r)*((vcN R r - vcM R r z)/vcN R r))*|D|) ≤ |γ|/(2*π)*(188/1000) := by gcongr
    _ ≤ 3/100*|γ| := by
      rw [div_mul_eq_mul_div, div_le_iff₀ (by positivity)]
      have hpi := pi_gt_d2
      have := abs_nonneg γ
      norm_num at hpi
      nlinarith

/-- C121 (accuracy): whatever the batch, at every point off the axis and off the radius of the sheet the velocity `vc_longi_u` returns is
the Biot–Savart velocity of the axial filaments plus a swirl error of at most `3%·|γ_l|·R/r`. -/
theorem C121_accuracy (pts : List (V3 ℝ)) (γ R : ℝ) (hR : 0 < R) (i : ℕ) (p : V3 ℝ) (hi : pts[i]? = some p)
    (r : ℝ) (hrd : r = √(p.x^2 + p.y^2)) (hr : 0 < r) (hne : r ≠ R) :
    ∃ d : ℝ, |d| ≤ 3/100*|γ| * (R/r) ∧
      (vcLongi pts (.fin γ) R false)[i]? = some (V3.fin (longiField γ R p + V3.smul d ⟨-(p.y/r), p.x/r, 0⟩)) := by
  have hrp : r = polarR p.x p.y := hrd
  subst hrp
  obtain ⟨c, hc, h1, -⟩ := vcLongi_real pts γ R hR i p hi hr hne
  have hu := longi_uniform pts R hR p (List.mem_of_getElem? hi) hr hne
  rw [← hc] at hu
  have hxy : p.x ≠ 0 ∨ p.y ≠ 0 := by
    by_contra h0
    push Not at h0
    rw [polarR_eq_zero.mpr h0] at hr
    exact lt_irrefl _ hr
  have hp : p = ⟨polarR p.x p.y * cos (arctan2 p.y p.x), polarR p.x p.y * sin (arctan2 p.y p.x), p.z⟩ := by
    rw [r_cos, r_sin]
  have hF : longiField γ R p = _ := (congrArg (longiField γ R) hp).trans
    (longiField_eq γ R (polarR p.x p.y) p.z (arctan2 p.y p.x) hr hR hne)
  refine ⟨-((R/polarR p.x p.y) * (γ/2 * (p.z * √(vcM R (polarR p.x p.y) p.z) / (2*π*√(polarR p.x p.y*R))) *
    ((R - polarR p.x p.y)/(R + polarR p.x p.y)) * (c - ellPi (vcN R (polarR p.x p.y)) (vcM R (polarR p.x p.y) p.z)))), ?_, ?_⟩
  · rw [abs_neg, abs_mul, abs_of_pos (div_pos hR hr), mul_comm]
    exact mul_le_mul_of_nonneg_right (weight_bound hR hr hu) (div_pos hR hr).le
  · rw [h1, hF, cos_arctan2 hxy, sin_arctan2 hxy]
    congr 2
    ext
    · simp only [V3.add_x, V3.smul_x, vcUpsi]; ring
    · simp only [V3.add_y, V3.smul_y, vcUpsi]; ring
    · simp

/-- C121 (where it is finite): `vc_longi_u` returns a number exactly off the axis and off the radius of the sheet; on them it returns `nan`
(there is no special handling as in `vc_tang_u`). -/
theorem C121_finite_iff (pts : List (V3 ℝ)) (γ R : ℝ) (hR : 0 < R) (i : ℕ) (p : V3 ℝ) (hi : pts[i]? = some p) :
    ((∃ u : V3 ℝ, (vcLongi pts (.fin γ) R false)[i]? = some (V3.fin u)) ↔ 0 < √(p.x^2 + p.y^2) ∧ √(p.x^2 + p.y^2) ≠ R) ∧
    (¬ (0 < √(p.x^2 + p.y^2) ∧ √(p.x^2 + p.y^2) ≠ R) → (vcLongi pts (.fin γ) R false)[i]? = some ⟨.nan, .nan, 0⟩) := by
  change ((∃ u : V3 ℝ, _) ↔ 0 < polarR p.x p.y ∧ polarR p.x p.y ≠ R) ∧ (¬ (0 < polarR p.x p.y ∧ polarR p.x p.y ≠ R) → _)
  have h2 : ¬ (0 < polarR p.x p.y ∧ polarR p.x p.y ≠ R) → (vcLongi pts (.fin γ) R false)[i]? = some ⟨.nan, .nan, 0⟩ := by
    intro h
    have hu : (vcLongiUpsi (pts.map fun p => (⟨polarR p.x p.y, arctan2 p.y p.x, p.z⟩ : PolarPt)) (.fin γ) R)[i]? = some .nan := by
      unfold vcLongiUpsi
      simp only
      rw [piOf_map]
      generalize piOf _ = Q
      simp only [List.map_map, List.zipWith_map, List.zipWith_self]
      rw [List.getElem?_map, hi, Option.map_some]
      simp only [Function.comp_def]
      generalize Q _ _ = PI
      have h0 := polarR_nonneg p.x p.y
      generalize polarR p.x p.y = r at *
      congr 1
      by_cases hrR : r = R
      · subst hrR
        have : (Num.fin r - Num.fin r + Num.abs (Num.fin r - Num.fin r)) / (2 * Num.abs (Num.fin r - Num.fin r)) = (.nan : Num) := by
          simp [Num.ofNat_def, zero_div_zero]
        rw [this]; simp
      · have hr : r = 0 := by
          by_contra h'
          exact h ⟨lt_of_le_of_ne h0 (Ne.symm h'), hrR⟩
        subst hr
        have hm : Num.sqrt (4 * Num.fin 0 * Num.fin R / ((Num.fin 0 + Num.fin R)^2 + (Num.fin p.z)^2)) = .fin 0 := by
          have h1 : (0 + R)^2 + p.z^2 ≠ 0 := by positivity
          simp only [Num.ofNat_def, Num.fin_mul, Num.fin_add, Num.fin_pow, Num.fin_div h1]
          rw [Num.sqrt_fin (by simp)]; simp
        rw [hm]
        have : Num.fin p.z * Num.fin 0 / (2 * Num.fin π * Num.sqrt (Num.fin 0 * Num.fin R)) = .nan := by
          simp only [Num.ofNat_def, Num.fin_mul, zero_mul, mul_zero]
          rw [Num.sqrt_fin le_rfl]
          simp [zero_div_zero]
        rw [this]; simp
    unfold vcLongi vcLongiPolar
    rw [List.getElem?_zipWith, hu, List.getElem?_map, hi]
    simp
  refine ⟨⟨fun ⟨u, hu⟩ => ?_, fun h => ?_⟩, h2⟩
  · by_contra h
    rw [h2 h] at hu
    have := congrArg V3.x (Option.some.inj hu)
    exact nomatch this
  · obtain ⟨c, -, h1, -⟩ := vcLongi_real pts γ R hR i p hi h.1 h.2
    exact ⟨_, h1⟩

/-- swirl and axial velocity of the two sheets of equal strength add up to a term without third-kind integral -/
theorem upsi_uz (γ R r z q : ℝ) (hr : 0 < r) (hR : 0 < R) (h : ¬ (r = R ∧ z = 0)) :
    vcUpsi γ R r z q = R/r * (γ/2*(1 + z/(2*π) * ∫ θ in (0:ℝ)..(2*π), 1/√(dist2 r z R θ)) - vcUz γ R r z q) := by
  have hs : √(vcM R r z)/√(r*R) = 2/√((r+R)^2+z^2) := by
    rw [vcM_eq, ← sqrt_div (by positivity), show 4*r*R/((r+R)^2+z^2)/(r*R) = 2^2/((r+R)^2+z^2) by
      have : (r+R)^2+z^2 ≠ 0 := by positivity
      field_simp; norm_num, sqrt_div (by positivity), sqrt_sq (by norm_num)]
  rw [ring_I1 hr.le hR h, ← vcM_eq, show 4/√((r+R)^2+z^2) = 2*(2/√((r+R)^2+z^2)) by ring, ← hs]
  unfold vcUpsi vcUz
  field_simp
  ring

theorem swirl_eq (γ R r z ψ : ℝ) (hr : 0 < r) (hR : 0 < R) (h : r ≠ R) :
    -(longiField γ R ⟨r*cos ψ, r*sin ψ, z⟩).x * sin ψ + (longiField γ R ⟨r*cos ψ, r*sin ψ, z⟩).y * cos ψ =
      R/r * (γ/2*(1 + z/(2*π) * ∫ θ in (0:ℝ)..(2*π), 1/√(dist2 r z R θ)) - (cylinderField γ R ⟨r*cos ψ, r*sin ψ, z⟩).z) := by
  rw [longiField_eq γ R r z ψ hr hR h, cylinderField_eq γ R r z ψ hr hR h, ← upsi_uz γ R r z _ hr hR (fun h' => h h'.1)]
  simp only
  linear_combination (vcUpsi γ R r z (ellPi (vcN R r) (vcM R r z))) * sin_sq_add_cos_sq ψ

/-- C121 (jump): crossing the radius of the sheet downstream of the rotor the swirl of the Biot–Savart field of the axial filaments jumps by
exactly `γ_l`, from `-γ_lΩ/4π` inside to `γ_l(1-Ω/4π)` outside (`Ω`: solid angle of the rotor disk seen from the boundary point); upstream it
is continuous. -/
theorem C121_jump (γ R ψ z : ℝ) (hR : 0 < R) (hz : z ≠ 0) (Ω : ℝ) (hΩ : Ω = diskSolidAngle R ⟨R*cos ψ, R*sin ψ, z⟩)
    (swirl : ℝ → ℝ) (hs : ∀ r, swirl r = -(longiField γ R ⟨r*cos ψ, r*sin ψ, z⟩).x * sin ψ + (longiField γ R ⟨r*cos ψ, r*sin ψ, z⟩).y * cos ψ) :
    (0 < z → Tendsto swirl (𝓝[<] R) (𝓝 (-(γ/(4*π)*Ω))) ∧ Tendsto swirl (𝓝[>] R) (𝓝 (γ - γ/(4*π)*Ω))) ∧
    (z < 0 → Tendsto swirl (𝓝[≠] R) (𝓝 (γ/(4*π)*Ω))) := by
  obtain ⟨j1, j2⟩ := C120_jump γ R ψ z hR hz Ω hΩ
  have hza := abs_pos.mpr hz
  rw [solidAngle_eq R R z ψ hz hR.le, saK_edge hR hza] at hΩ
  have hpi := pi_pos
  have hI : ∫ θ in (0:ℝ)..(2*π), 1/√(dist2 R z R θ) = 2*(π - Ω)/|z| := by
    rw [ring_I1 hR.le hR (fun h => hz h.2), hΩ, sq_abs]
    field_simp
    ring
  have hc : Continuous fun r => ∫ θ in (0:ℝ)..(2*π), 1 / √(dist2 r |z| R θ) := by
    apply intervalIntegral.continuous_parametric_intervalIntegral_of_continuous'
    simp only [Function.uncurry_def]
    refine Continuous.div (by fun_prop) (by unfold dist2; fun_prop) fun q => ?_
    exact (sqrt_pos.mpr (saDist_pos hza _ _ _)).ne'
  have hab : ∀ r θ, dist2 r |z| R θ = dist2 r z R θ := fun r θ => by unfold dist2; rw [sq_abs]
  simp only [hab] at hc
  have hg : Tendsto (fun r => γ/2*(1 + z/(2*π) * ∫ θ in (0:ℝ)..(2*π), 1/√(dist2 r z R θ))) (𝓝 R) (𝓝 (γ/2*(1 + z/(2*π) * (2*(π - Ω)/|z|)))) := by
    rw [← hI]
    exact (((hc.tendsto R).const_mul _).const_add _).const_mul _
  have hq : Tendsto (fun r : ℝ => R/r) (𝓝 R) (𝓝 (R/R)) := tendsto_const_nhds.div tendsto_id hR.ne'
  rw [div_self hR.ne'] at hq
  have key : ∀ (l : Filter ℝ) (L : ℝ), l ≤ 𝓝[≠] R → Tendsto (fun r => (cylinderField γ R ⟨r*cos ψ, r*sin ψ, z⟩).z) l (𝓝 L) →
      Tendsto swirl l (𝓝 (γ/2*(1 + z/(2*π) * (2*(π - Ω)/|z|)) - L)) := by
    intro l L hl hL
    have hl' : l ≤ 𝓝 R := hl.trans nhdsWithin_le_nhds
    have h1 := (hq.mono_left hl').mul ((hg.mono_left hl').sub hL)
    rw [one_mul] at h1
    refine h1.congr' ?_
    have hev : ∀ᶠ r in 𝓝[≠] R, 0 < r ∧ r ≠ R := by
      filter_upwards [self_mem_nhdsWithin, nhdsWithin_le_nhds (lt_mem_nhds hR)] with r h1 h2
      exact ⟨h2, h1⟩
    filter_upwards [hl hev] with r h
    rw [hs, swirl_eq γ R r z ψ h.1 hR h.2]
  have hlt : 𝓝[<] R ≤ 𝓝[≠] R := nhdsWithin_mono _ fun x hx => ne_of_lt hx
  have hgt : 𝓝[>] R ≤ 𝓝[≠] R := nhdsWithin_mono _ fun x hx => ne_of_gt hx
  refine ⟨fun h => ⟨?_, ?_⟩, fun h => ?_⟩
  · have := key _ _ hlt (j1 h).1
    rw [abs_of_pos h] at this
    convert this using 2
    field_simp; ring
  · have := key _ _ hgt (j1 h).2
    rw [abs_of_pos h] at this
    convert this using 2
    field_simp; ring
  · have := key _ _ le_rfl ((j2 h).mono_left nhdsWithin_le_nhds)
    rw [abs_of_neg h] at this
    convert this using 2
    field_simp; ring

theorem inv_dist_far {r z R : ℝ} (hr : 0 < r) (hR : 0 < R) (hz : z ≠ 0) :
    |1 - |z|/(2*π) * ∫ θ in (0:ℝ)..(2*π), 1/√(dist2 r z R θ)| ≤ (r+R)/|z| := by
  have hza := abs_pos.mpr hz
  have hab : ∀ θ, dist2 r z R θ = dist2 r |z| R θ := fun θ => by unfold dist2; rw [sq_abs]
  simp only [hab]
  have hp : ∀ θ, 0 < dist2 r |z| R θ := saDist_pos hza r R
  have hlo : ∀ θ, |z| ≤ √(dist2 r |z| R θ) := fun θ => by
    apply le_sqrt_of_sq_le
    unfold dist2
    nlinarith [cos_le_one θ, mul_pos hr hR, sq_nonneg (r-R)]
  have hhi : ∀ θ, √(dist2 r |z| R θ) ≤ r + R + |z| := fun θ => by
    rw [sqrt_le_left (by positivity)]
    unfold dist2
    nlinarith [neg_one_le_cos θ, mul_pos hr hR, mul_pos hr hza, mul_pos hR hza]
  have c0 : Continuous fun θ => √(dist2 r |z| R θ) := by unfold dist2; fun_prop
  have c1 : Continuous fun θ => 1 / √(dist2 r |z| R θ) := continuous_const.div c0 fun θ => (sqrt_pos.mpr (hp θ)).ne'
  have u1 : ∫ θ in (0:ℝ)..(2*π), 1/√(dist2 r |z| R θ) ≤ ∫ θ in (0:ℝ)..(2*π), 1/|z| :=
    intervalIntegral.integral_mono_on (by positivity) (c1.intervalIntegrable _ _) (by simp) fun θ _ => one_div_le_one_div_of_le hza (hlo θ)
  have u2 : ∫ θ in (0:ℝ)..(2*π), 1/(r + R + |z|) ≤ ∫ θ in (0:ℝ)..(2*π), 1/√(dist2 r |z| R θ) :=
    intervalIntegral.integral_mono_on (by positivity) (by simp) (c1.intervalIntegrable _ _) fun θ _ => one_div_le_one_div_of_le (sqrt_pos.mpr (hp θ)) (hhi θ)
  simp only [intervalIntegral.integral_const, sub_zero, smul_eq_mul] at u1 u2
  generalize (∫ θ in (0:ℝ)..(2*π), 1/√(dist2 r |z| R θ)) = I at *
  have hpi := pi_pos
  have v1 : |z|/(2*π) * I ≤ 1 := by
    calc |z|/(2*π) * I ≤ |z|/(2*π) * (2*π*(1/|z|)) := by gcongr
      _ = 1 := by field_simp
  have v2 : |z|/(r+R+|z|) ≤ |z|/(2*π) * I := by
    calc |z|/(r+R+|z|) = |z|/(2*π) * (2*π*(1/(r+R+|z|))) := by field_simp
      _ ≤ _ := by gcongr
  rw [abs_of_nonneg (by linarith)]
  have v3 : 1 - |z|/(r+R+|z|) = (r+R)/(r+R+|z|) := by field_simp; ring
  have v4 : (r+R)/(r+R+|z|) ≤ (r+R)/|z| := by
    apply div_le_div_of_nonneg_left (by positivity) hza (by linarith)
  linarith

/-- C121 (far wake): more than `5R` upstream or downstream of the rotor, the swirl returned by `vc_longi_u` in any batch is `γ_l R/r`
outside the wake (the circulation `2πRγ_l` of the whole sheet) and zero inside it and upstream, up to `6|γ_l|(R/r)(r+R)/|z|` and the 3% accuracy
of the elliptic integral. -/
theorem C121_far (pts : List (V3 ℝ)) (γ R : ℝ) (hR : 0 < R) (i : ℕ) (p : V3 ℝ) (hi : pts[i]? = some p)
    (r : ℝ) (hrd : r = √(p.x^2 + p.y^2)) (hr : 0 < r) (hne : r ≠ R) (hz : 5*R ≤ |p.z|) :
    ∃ v : ℝ, (vcLongi pts (.fin γ) R false)[i]? = some (V3.fin (V3.smul v ⟨-(p.y/r), p.x/r, 0⟩)) ∧
      |v - (if 0 < p.z ∧ R < r then γ*(R/r) else 0)| ≤ |γ| * (R/r) * (6*((r+R)/|p.z|) + 3/100) := by
  have hrp : r = polarR p.x p.y := hrd
  obtain ⟨d, hd, hv⟩ := C121_accuracy pts γ R hR i p hi r hrd hr hne
  have hz0 : p.z ≠ 0 := fun h => by rw [h, abs_zero] at hz; linarith
  have hza := abs_pos.mpr hz0
  have hxy : p.x ≠ 0 ∨ p.y ≠ 0 := by
    by_contra h0
    push Not at h0
    rw [hrp, polarR_eq_zero.mpr h0] at hr
    exact lt_irrefl _ hr
  have hp : p = ⟨r * cos (arctan2 p.y p.x), r * sin (arctan2 p.y p.x), p.z⟩ := by
    rw [hrp, r_cos, r_sin]
  obtain ⟨ψ, hψ⟩ : ∃ ψ, ψ = arctan2 p.y p.x := ⟨_, rfl⟩
  have hcx : cos ψ = p.x/r := by rw [hψ, hrp]; exact cos_arctan2 hxy
  have hsx : sin ψ = p.y/r := by rw [hψ, hrp]; exact sin_arctan2 hxy
  rw [← hψ] at hp
  have hsw := swirl_eq γ R r p.z ψ hr hR hne
  rw [← hp] at hsw
  have hL : longiField γ R p = V3.smul (-(longiField γ R p).x * sin ψ + (longiField γ R p).y * cos ψ) ⟨-(p.y/r), p.x/r, 0⟩ := by
    have e : longiField γ R p = _ := (congrArg (longiField γ R) hp).trans (longiField_eq γ R r p.z ψ hr hR hne)
    rw [e, ← hcx, ← hsx]
    ext
    · simp only [V3.smul_x]; linear_combination (vcUpsi γ R r p.z (ellPi (vcN R r) (vcM R r p.z)) * sin ψ) * sin_sq_add_cos_sq ψ
    · simp only [V3.smul_y]; linear_combination -(vcUpsi γ R r p.z (ellPi (vcN R r) (vcM R r p.z)) * cos ψ) * sin_sq_add_cos_sq ψ
    · simp
  refine ⟨(-(longiField γ R p).x * sin ψ + (longiField γ R p).y * cos ψ) + d, ?_, ?_⟩
  · rw [hv]
    congr 2
    conv_lhs => rw [hL]
    ext <;> simp <;> ring
  · rw [hsw]
    have hI := inv_dist_far (z := p.z) hr hR hz0
    obtain ⟨-, -, hF⟩ := cylinder_far γ R hR p hz (hrp ▸ hr) (hrp ▸ hne)
    rw [← hrp] at hF
    generalize (∫ θ in (0:ℝ)..(2*π), 1/√(dist2 r p.z R θ)) = I at *
    have hDp : |p.z| ≤ √(p.x^2 + p.y^2 + p.z^2) := abs_le_sqrt (by nlinarith [sq_nonneg p.x, sq_nonneg p.y])
    have hsink : |(γ * R^2 / 4) / √(p.x^2 + p.y^2 + p.z^2)^3 * p.z| ≤ |γ| * (R/|p.z|) * (1/20) := by
      have hD := lt_of_lt_of_le hza hDp
      rw [abs_mul, abs_div, abs_div, abs_mul, abs_of_pos (pow_pos hD 3), abs_of_pos (by positivity : 0 < R^2), abs_of_pos (by norm_num : (0:ℝ) < 4)]
      calc |γ| * R^2/4/√(p.x^2 + p.y^2 + p.z^2)^3 * |p.z| ≤ |γ| * R^2/4/|p.z|^3 * |p.z| := by gcongr
        _ = |γ| * (R/|p.z|) * (R/|p.z|/4) := by field_simp
        _ ≤ |γ| * (R/|p.z|) * (1/20) := by
          have : R/|p.z| ≤ 1/5 := by rw [div_le_div_iff₀ hza (by norm_num)]; linarith
          exact mul_le_mul_of_nonneg_left (by linarith) (by positivity)
    have hcube : 126 * |γ| * (R/|p.z|)^3 ≤ |γ| * (R/|p.z|) * (126/25) := by
      have h5 : R/|p.z| ≤ 1/5 := by rw [div_le_div_iff₀ hza (by norm_num)]; linarith
      have h6 : 0 ≤ R/|p.z| := by positivity
      have h7 : (R/|p.z|)^2 ≤ 1/25 := by nlinarith
      calc 126 * |γ| * (R/|p.z|)^3 = 126 * (|γ| * (R/|p.z|)) * (R/|p.z|)^2 := by ring
        _ ≤ 126 * (|γ| * (R/|p.z|)) * (1/25) := by gcongr
        _ = _ := by ring
    have hu : |(cylinderField γ R p).z - (if 0 < p.z ∧ r < R then γ else 0)| ≤ |γ| * (R/|p.z|) * (51/10) := by
      have e : (cylinderField γ R p).z - (if 0 < p.z ∧ r < R then γ else 0) =
          ((cylinderField γ R p).z - ((if 0 < p.z ∧ r < R then γ else 0) - (γ * R^2 / 4) / √(p.x^2 + p.y^2 + p.z^2)^3 * p.z))
          - (γ * R^2 / 4) / √(p.x^2 + p.y^2 + p.z^2)^3 * p.z := by ring
      rw [e]
      refine (abs_sub _ _).trans ?_
      have : 0 ≤ |γ| * (R/|p.z|) := by positivity
      linarith
    have hK : |γ/2*(1 + p.z/(2*π) * I) - (if 0 < p.z then γ else 0)| ≤ |γ|/2 * ((r+R)/|p.z|) := by
      split_ifs with h
      · rw [abs_of_pos h] at hI ⊢
        have e : γ/2*(1 + p.z/(2*π) * I) - γ = -(γ/2*(1 - p.z/(2*π)*I)) := by ring
        rw [e, abs_neg, abs_mul, abs_div, abs_of_pos (by norm_num : (0:ℝ) < 2)]
        gcongr
      · rw [abs_of_nonpos (not_lt.mp h)] at hI ⊢
        have e : γ/2*(1 + p.z/(2*π) * I) - 0 = γ/2*(1 - -p.z/(2*π)*I) := by ring
        rw [e, abs_mul, abs_div, abs_of_pos (by norm_num : (0:ℝ) < 2)]
        gcongr
    have htgt : (if 0 < p.z ∧ R < r then γ*(R/r) else 0) = R/r * ((if 0 < p.z then γ else 0) - (if 0 < p.z ∧ r < R then γ else 0)) := by
      by_cases h : 0 < p.z
      · rcases lt_or_gt_of_ne hne with h1 | h1
        · rw [if_neg (fun h' => absurd h'.2 (not_lt.mpr h1.le)), if_pos h, if_pos ⟨h, h1⟩]; ring
        · rw [if_pos ⟨h, h1⟩, if_pos h, if_neg (fun h' => absurd h'.2 (not_lt.mpr h1.le))]; ring
      · rw [if_neg (fun h' => h h'.1), if_neg h, if_neg (fun h' => h h'.1)]; ring
    rw [htgt]
    have e : R/r * (γ/2*(1 + p.z/(2*π) * I) - (cylinderField γ R p).z) + d - R/r * ((if 0 < p.z then γ else 0) - (if 0 < p.z ∧ r < R then γ else 0))
        = R/r * ((γ/2*(1 + p.z/(2*π) * I) - (if 0 < p.z then γ else 0)) - ((cylinderField γ R p).z - (if 0 < p.z ∧ r < R then γ else 0))) + d := by ring
    rw [e]
    have hq : 0 < R/r := div_pos hR hr
    refine (abs_add_le _ _).trans ?_
    rw [abs_mul, abs_of_pos hq]
    have h1 := (abs_sub (γ/2*(1 + p.z/(2*π) * I) - (if 0 < p.z then γ else 0)) ((cylinderField γ R p).z - (if 0 < p.z ∧ r < R then γ else 0))).trans (add_le_add hK hu)
    have h2 : R/|p.z| ≤ (r+R)/|p.z| := by gcongr; linarith
    have h3 : |γ|/2 * ((r+R)/|p.z|) + |γ| * (R/|p.z|) * (51/10) ≤ |γ| * (6*((r+R)/|p.z|)) := by
      have : |γ| * (R/|p.z|) ≤ |γ| * ((r+R)/|p.z|) := by gcongr
      have : 0 ≤ |γ| * ((r+R)/|p.z|) := by positivity
      linarith
    have h4 := mul_le_mul_of_nonneg_left (h1.trans h3) hq.le
    calc _ ≤ R/r*(|γ| * (6*((r+R)/|p.z|))) + 3/100*|γ| * (R/r) := add_le_add h4 hd
      _ = _ := by ring

/-- points in the far wake meet the hypotheses, inside and outside the wake -/
example : ∀ x ∈ [(0.5:ℝ), 3], 0 < √(x^2 + 0^2) ∧ √(x^2 + 0^2) ≠ 2 ∧ 5*(2:ℝ) ≤ |(40:ℝ)| := by
  intro x hx
  have h0 : 0 ≤ x := by fin_cases hx <;> norm_num
  rw [show x^2 + 0^2 = x^2 by ring, sqrt_sq h0]
  fin_cases hx <;> norm_num [abs_of_pos]


theorem num_add_nan (x : Num) : x + .nan = .nan := by cases x <;> rfl
theorem num_nan_add (x : Num) : Num.nan + x = .nan := by cases x <;> rfl
theorem num_fin_mul_nan (x : ℝ) : Num.fin x * .nan = .nan := rfl

/-- a rotated vector with an undefined first component is undefined -/
theorem transform_nan (A : M3 ℝ) (u v : V3 Num) (h : u.x = .nan) : transform (M3.fin A) u + v = ⟨.nan, .nan, .nan⟩ := by
  ext <;> simp [transform, M3.mulVec, M3.fin, V3.fin, h, num_fin_mul_nan, num_nan_add]

/-- a sum with an undefined term is undefined -/
theorem sum_nan {α : Type} (l : List α) (f : α → V3 Num) (c : α) (hc : c ∈ l) (h : (f c).x = .nan) : ((l.map f).sum).x = .nan := by
  induction l with
  | nil => cases hc
  | cons d l ih =>
    rw [List.map_cons, List.sum_cons, V3.add_x]
    rcases List.mem_cons.mp hc with e | e
    · rw [← e, h, num_nan_add]
    · rw [ih e, num_add_nan]

/-- C121 (turbine, undefined points): after any history, a straight wake with longitudinal vorticity switched on makes `compute_u` return
`nan` in all three components at every point on the shaft axis or at the rotor radius from it (or from the axis of the ground image),
at any distance upstream or downstream, however the other options are set. -/
theorem C121_turbine_nan (mini : (ℝ → Num) → ℝ) (R : ℝ) (hub shaft vert U0 : V3 ℝ) (L : Option Num) (G : Bool)
    (M : String) (ho : Orthonormal shaft vert) (hR : 0 < R) (h : List Op) (pts : List (V3 ℝ)) (o : Opts) (hnw : o.no_wake = false) (hlo : o.longi = true) :
    let w := (WT.new R hub shaft vert U0 L G M).run mini h
    let s := w.e_shaft_g
    let a := V3.cross vert s
    let centres := if o.ground.getD w.Ground then [w.r_hub, groundImage vert w.r_hub] else [w.r_hub]
    ∀ (g chi : Num) (γl : ℝ) (u : List (V3 Num)), w.gamma_t = some [g] → w.gamma_l = some [.fin γl] → γl ≠ 0 →
      (w.computeU pts o).2.chi = some chi → ¬ (Num.fin 1e-7 < Num.abs chi) → (w.computeU pts o).1 = .ok u →
      ∀ (i : ℕ) (p : V3 ℝ), pts[i]? = some p → ∀ c ∈ centres, ∀ r : ℝ, r = √(V3.dot (p - c) a^2 + V3.dot (p - c) vert^2) → r = 0 ∨ r = R →
      u[i]? = some ⟨.nan, .nan, .nan⟩ := by
  intro w s a centres g chi γl u hg hgl h0 hchi hsk hu i p hpi c hc r hr hrr
  obtain ⟨ul, uv⟩ := C16_field mini R hub shaft vert U0 L G M ho h pts o hnw g chi u hg hchi hu
  have hil : i < pts.length := by
    by_contra h
    rw [List.getElem?_eq_none (by omega)] at hpi; exact nomatch hpi
  have uv := uv i hil
  have hY : (rotorAxes a vert s c pts)[i]? = some ⟨V3.dot (p - c) a, V3.dot (p - c) vert, V3.dot (p - c) s⟩ := by
    simp only [rotorAxes, List.getElem?_map, hpi, Option.map_some]
  have hn := (C121_finite_iff (rotorAxes a vert s c pts) γl R hR i _ hY).2 (by
    simp only
    rw [← hr]
    rintro ⟨x, y⟩
    rcases hrr with e | e
    · rw [e] at x; exact lt_irrefl _ x
    · exact y e)
  have hx : ((centres.map fun c => (wakeLongi chi (.fin γl) R (rotorAxes a vert s c pts)).getD i 0).sum).x = .nan := by
    refine sum_nan _ _ c hc ?_
    unfold wakeLongi
    rw [if_neg (show ¬ skewed chi from hsk), List.getD_eq_getElem?_getD, hn]
    rfl
  have e3 : (match w.gamma_l with
      | some [gl'] => if o.longi = true ∧ ¬ Num.Eqv gl' 0 then
          (centres.map fun c => (wakeLongi chi gl' R (rotorAxes a vert s c pts)).getD i 0).sum else 0
      | _ => 0) = (centres.map fun c => (wakeLongi chi (.fin γl) R (rotorAxes a vert s c pts)).getD i 0).sum := by
    rw [hgl]
    simp only
    rw [if_pos ⟨hlo, by simpa using h0⟩]
  have uv : u.getD i 0 = ⟨.nan, .nan, .nan⟩ := by
    refine uv.trans (transform_nan _ _ _ ?_)
    refine (congrArg V3.x (congrArg (_ + ·) e3)).trans ?_
    rw [V3.add_x, hx, num_add_nan]
  rw [List.getD_eq_getElem?_getD, List.getElem?_eq_getElem (by omega)] at uv
  rw [List.getElem?_eq_getElem (by omega)]
  exact congrArg some uv

/-- C121 (turbine): the swirl part of `compute_u` of a straight wake, after any history, with or without ground effect: at every point off the
shaft axis and off the rotor radius (of the rotor and, over the ground, of its image) it is the Biot–Savart velocity of the axial filaments,
in rotor axes, plus swirl errors of at most `3%·|γ_l|·R/r` for each of the two wakes. -/
theorem C121_turbine (mini : (ℝ → Num) → ℝ) (R : ℝ) (hub shaft vert U0 : V3 ℝ) (L : Option Num) (G : Bool)
    (M : String) (ho : Orthonormal shaft vert) (hR : 0 < R) (h : List Op) (pts : List (V3 ℝ)) (hp : pts ≠ []) (o : Opts) (hnw : o.no_wake = false)
    (hlo : o.longi = true) (hta : o.tang = false) (hro : o.root = false) :
    let w := (WT.new R hub shaft vert U0 L G M).run mini h
    let s := w.e_shaft_g
    let a := V3.cross vert s
    let centres := if o.ground.getD w.Ground then [w.r_hub, groundImage vert w.r_hub] else [w.r_hub]
    ∀ (g chi : Num) (γl : ℝ), w.gamma_t = some [g] → w.gamma_l = some [.fin γl] → γl ≠ 0 → o.Model.getD w.Model = "VC" →
      (w.computeU pts o).2.chi = some chi → ¬ (Num.fin 1e-7 < Num.abs chi) →
    ∃ u, (w.computeU pts o).1 = .ok u ∧ ∀ (i : ℕ) (p : V3 ℝ), pts[i]? = some p →
      ∀ (q : V3 ℝ → V3 ℝ) (r : V3 ℝ → ℝ), (∀ c, q c = ⟨V3.dot (p - c) a, V3.dot (p - c) vert, V3.dot (p - c) s⟩) →
      (∀ c, r c = √((q c).x^2 + (q c).y^2)) → (∀ c ∈ centres, 0 < r c ∧ r c ≠ R) →
      ∃ (d : V3 ℝ → ℝ) (F v : V3 ℝ), (∀ c ∈ centres, |d c| ≤ 3/100*|γl| * (R/r c)) ∧
        F = (centres.map fun c => longiField γl R (q c) + V3.smul (d c) ⟨-((q c).y/r c), (q c).x/r c, 0⟩).sum ∧ u[i]? = some (V3.fin v) ∧
        v = (if o.only_ind then 0 else w.U0_g) + V3.smul F.x a + V3.smul F.y vert + V3.smul F.z s := by
  intro w s a centres g chi γl hg hgl h0 hM hchi hsk
  obtain ⟨u, hu⟩ : ∃ u, (w.computeU pts o).1 = .ok u := by
    refine (C16_single w g hg (Or.inr ⟨_, hgl⟩) pts hp o _ hchi).mpr ⟨fun _ => Or.inl hM, fun _ _ _ _ => hM⟩
  obtain ⟨ul, uv⟩ := C16_field mini R hub shaft vert U0 L G M ho h pts o hnw g chi u hg hchi hu
  refine ⟨u, hu, fun i p hpi q r hq hr hoff => ?_⟩
  have hil : i < pts.length := by
    by_contra h
    rw [List.getElem?_eq_none (by omega)] at hpi; exact nomatch hpi
  have uv := uv i hil
  have hacc : ∀ c, ∃ d : ℝ, c ∈ centres → |d| ≤ 3/100*|γl| * (R/r c) ∧
      (wakeLongi chi (.fin γl) R (rotorAxes a vert s c pts)).getD i 0 =
        V3.fin (longiField γl R (q c) + V3.smul d ⟨-((q c).y/r c), (q c).x/r c, 0⟩) := by
    intro c
    by_cases hc : c ∈ centres
    · have hY : (rotorAxes a vert s c pts)[i]? = some (q c) := by
        simp only [rotorAxes, List.getElem?_map, hpi, Option.map_some, hq]
      obtain ⟨d, hd, hv⟩ := C121_accuracy (rotorAxes a vert s c pts) γl R hR i (q c) hY (r c) (hr c) (hoff c hc).1 (hoff c hc).2
      refine ⟨d, fun _ => ⟨hd, ?_⟩⟩
      unfold wakeLongi
      rw [if_neg (show ¬ skewed chi from hsk), List.getD_eq_getElem?_getD, hv]; rfl
    · exact ⟨0, fun h => absurd h hc⟩
  choose d hd using hacc
  have hsum : (centres.map fun c => (wakeLongi chi (.fin γl) R (rotorAxes a vert s c pts)).getD i 0).sum =
      V3.fin (centres.map fun c => longiField γl R (q c) + V3.smul (d c) ⟨-((q c).y/r c), (q c).x/r c, 0⟩).sum := by
    have : ∀ l : List (V3 ℝ), (∀ c ∈ l, c ∈ centres) → (l.map fun c => (wakeLongi chi (.fin γl) R (rotorAxes a vert s c pts)).getD i 0).sum =
      V3.fin (l.map fun c => longiField γl R (q c) + V3.smul (d c) ⟨-((q c).y/r c), (q c).x/r c, 0⟩).sum := by
      intro l
      induction l with
      | nil => intro _; rfl
      | cons c l ih =>
        intro hl
        rw [List.map_cons, List.sum_cons, List.map_cons, List.sum_cons, ih fun c hc => hl c (List.mem_cons_of_mem _ hc),
          (hd c (hl c List.mem_cons_self)).2]
        ext <;> simp
    exact this centres fun _ h => h
  have e1 : (match w.Gamma_r with
      | some Gr => if o.root = true ∧ ¬ Num.Eqv Gr 0 then
          (centres.map fun c => (wakeRoot chi Gr (rotorAxes a vert s c pts)).getD i 0).sum else 0
      | none => 0) = V3.fin 0 := by
    rw [hro]
    split
    · rw [if_neg (fun h => Bool.false_ne_true h.1)]; rfl
    · rfl
  have e2 : (if o.tang = true ∧ ¬ Num.Eqv g 0 then
              (centres.map fun c => (wakeTang chi (o.Model.getD w.Model) g R o.R_far_field (rotorAxes a vert s c pts)).getD i 0).sum else 0) = V3.fin 0 := by
    rw [hta, if_neg (fun h => Bool.false_ne_true h.1)]; rfl
  have e3 : (match w.gamma_l with
      | some [gl'] => if o.longi = true ∧ ¬ Num.Eqv gl' 0 then
          (centres.map fun c => (wakeLongi chi gl' R (rotorAxes a vert s c pts)).getD i 0).sum else 0
      | _ => 0) = (centres.map fun c => (wakeLongi chi (.fin γl) R (rotorAxes a vert s c pts)).getD i 0).sum := by
    rw [hgl]
    simp only
    rw [if_pos ⟨hlo, by simpa using h0⟩]
  obtain ⟨F, hF⟩ : ∃ F, F = (centres.map fun c => longiField γl R (q c) + V3.smul (d c) ⟨-((q c).y/r c), (q c).x/r c, 0⟩).sum := ⟨_, rfl⟩
  rw [← hF] at hsum
  have uv : u.getD i 0 = V3.fin (fromAxes a vert s F + if o.only_ind then 0 else w.U0_g) := by
    refine uv.trans ?_
    refine (congrArg (fun z => transform (M3.fin (M3.ofCols a vert s)) z + _) (congrArg₂ (· + ·) (congrArg₂ (· + ·) e1 e2) (e3.trans hsum))).trans ?_
    have e4 : ∀ x y : V3 ℝ, V3.fin x + V3.fin y = V3.fin (x + y) := fun x y => by ext <;> simp
    have e5 : (0 : V3 ℝ) + 0 + F = F := by ext <;> simp
    rw [e4, e4, e5, transform_fin, mulVec_fromAxes]
    cases o.only_ind <;> ext <;> simp <;> rfl
  rw [List.getD_eq_getElem?_getD, List.getElem?_eq_getElem (by omega)] at uv
  refine ⟨d, F, fromAxes a vert s F + (if o.only_ind then 0 else w.U0_g), fun c hc => (hd c hc).1, hF, ?_, ?_⟩
  · rw [List.getElem?_eq_getElem (by omega)]
    exact congrArg some uv
  · unfold fromAxes
    ext <;> simp <;> ring

/-- `WakeVorticityFromGamma` for one station inside the rotor -/
theorem fromGamma_one (r Γ R U0 Ω : ℝ) (hr : 0 < r) (hrR : r ≤ R) (hU : 0 < U0) (hΩ : 0 < Ω) (hL : Ω*R/U0 < 20) :
    ∃ (v : WakeVort) (g : ℝ), wakeVorticityFromGamma [.fin r] [.fin Γ] (.fin R) (.fin U0) (.fin Ω) = .ok v ∧ v.gamma_t = [.fin g] ∧
      v.gamma_l = some [.fin (Γ/(2*π*r))] ∧ v.Gamma_r = some (.fin (-Γ)) := by
  have hR : 0 < R := lt_of_lt_of_le hr hrR
  obtain ⟨h, e, -⟩ := discr_eval_swirl 1 (fun _ => r) (fun _ => Γ) (fun _ => R) (.fin R) U0 Ω 1 true true one_pos hU.ne' hΩ.ne'
    (fun _ _ => hr.ne') (fun _ _ => hR.ne') ⟨0, one_pos, fun _ _ => hrR⟩ (by simp)
  unfold wakeVorticityFromGamma
  have h1 : capOmega (.fin Ω) = .fin Ω := by
    unfold capOmega; rw [if_neg (by intro h; exact h)]
  have h2 : decide ((Num.fin Ω * Num.fin R / Num.fin U0 : Num) < 20) = true := by
    rw [decide_eq_true_iff, Num.fin_mul, Num.fin_div hU.ne', Num.ofNat_def, Num.lt_fin]
    exact_mod_cast hL
  simp only [h1, h2]
  have h3 : wakeVorticityDiscr [.fin r] [.fin Γ] (.fin R) (.fin U0) (.fin Ω) 1 true true true none =
    wakeVorticityDiscr (farr 1 fun _ => r) (farr 1 fun _ => Γ) (.fin R) (.fin U0) (.fin Ω) (.fin 1) true true true (some (farr 1 fun _ => R)) := rfl
  rw [h3, e]
  refine ⟨_, _, rfl, rfl, ?_, ?_⟩
  · simp [farr, arr]
  · simp
/-- the vorticity stored by a successful solver call -/
theorem loading_stored (mini : (ℝ → Num) → ℝ) (w : WT) (a : LoadArgs) (r : Option (List ℝ)) (Ct Γ : Option (List Num)) (lam : Num) (gt : List Num)
    (gl : Option (List Num)) (Gr : Option Num) (h1 : reinterp w.R a = .ok (r, Ct, Γ)) (h2 : a.Lambda = some lam)
    (h3 : loadingSolve mini w.R (.fin (V3.norm w.U0_g)) (lam * .fin (V3.norm w.U0_g) / .fin w.R) r Ct Γ a.gamma_t_Ct = .ok (gt, gl, Gr)) :
    (w.updateLoading mini a).2.gamma_t = some gt ∧ (w.updateLoading mini a).2.gamma_l = gl := by
  unfold WT.updateLoading
  simp only [h1, h2, h3, and_self]

/-- a turbine loaded with a circulation at tip-speed ratio 7 has longitudinal vorticity: the hypotheses of `C121_turbine_nan` and
`C121_turbine` are met (on its shaft for the first, off it for the second) -/
example (mini : (ℝ → Num) → ℝ) :
    let w := (WT.new 50 ⟨1,2,3⟩ ⟨0,0,1⟩ ⟨0,1,0⟩ ⟨0,0,10⟩ none true "VC").run mini
      [.chi (some 0), .loading { Gamma := some [.fin 100], r := some [40], Lambda := some (.fin 7), nCyl := none }]
    ∃ g γl : ℝ, w.gamma_t = some [.fin g] ∧ w.gamma_l = some [.fin γl] ∧ γl ≠ 0 := by
  intro w
  have hn : V3.norm (⟨0,0,10⟩ : V3 ℝ) = 10 := by
    unfold V3.norm; simp
  obtain ⟨v, g, e, e1, e2, -⟩ := fromGamma_one 40 100 50 10 (7*10/50) (by norm_num) (by norm_num) (by norm_num) (by norm_num) (by norm_num)
  have hw : w = ((WT.new 50 ⟨1,2,3⟩ ⟨0,0,1⟩ ⟨0,1,0⟩ ⟨0,0,10⟩ none true "VC").run mini [.chi (some 0)] |>.updateLoading mini
    { Gamma := some [.fin 100], r := some [40], Lambda := some (.fin 7), nCyl := none }).2 := rfl
  have e' : (Num.fin 7 * .fin (V3.norm (⟨0,0,10⟩ : V3 ℝ)) / .fin (50:ℝ) : Num) = .fin (7*10/50) := by
    rw [hn, Num.fin_mul, Num.fin_div (by norm_num)]
  have e3 : loadingSolve mini 50 (.fin (V3.norm (⟨0,0,10⟩ : V3 ℝ))) (Num.fin 7 * .fin (V3.norm (⟨0,0,10⟩ : V3 ℝ)) / .fin 50) (some [40]) none (some [.fin 100]) none
      = .ok (v.gamma_t, v.gamma_l, v.Gamma_r) := by
    rw [e', hn]
    unfold loadingSolve
    simp only [List.map_cons, List.map_nil]
    rw [e]
  obtain ⟨a, b⟩ := loading_stored mini ((WT.new 50 ⟨1,2,3⟩ ⟨0,0,1⟩ ⟨0,1,0⟩ ⟨0,0,10⟩ none true "VC").run mini [.chi (some 0)])
    { Gamma := some [.fin 100], r := some [40], Lambda := some (.fin 7), nCyl := none } (some [40]) none (some [.fin 100]) (.fin 7) _ _ _ rfl rfl e3
  rw [hw]
  refine ⟨g, _, by rw [a, e1], by rw [b, e2], ?_⟩
  have := pi_pos
  positivity

end
end Wiz
