import Verif.Lemmas.FarPair
import Verif.Spec.FarAccuracy
import Verif.Props.FarField
import Verif.Props.YawedFarm

/-! # C136: accuracy of the far-field models at the default cut-off of six radii -/
set_option autoImplicit false
namespace Wiz
open Spec Classical Real
noncomputable section

/-- six radii or more from the rotor and outside of the wake, the Biot–Savart velocity of a semi-infinite cylinder is that of a point sink
up to a relative error of `3/2 (R/d)²` in every component -/
theorem far_cyl (γ R : ℝ) (hR : 0 < R) (P : V3 ℝ) (r d : ℝ) (hr : r = √(P.x^2 + P.y^2)) (hd : d = √(P.x^2 + P.y^2 + P.z^2)) (h6 : 6*R ≤ d)
    (hout : R < r ∨ (P.z < 0 ∧ r ≠ R)) (S : V3 ℝ) (hS : S = V3.smul (-(γ * R^2/4)/d^3) P) :
    |(cylinderField γ R P).x - S.x| ≤ 3/2*(R/d)^2*|S.x| ∧ |(cylinderField γ R P).y - S.y| ≤ 3/2*(R/d)^2*|S.y| ∧
      |(cylinderField γ R P).z - S.z| ≤ 3/2*(R/d)^2*|S.z| := by
  have hpi := pi_pos
  have hd0 : 0 < d := by linarith
  have hr0 : 0 ≤ r := by rw [hr]; exact sqrt_nonneg _
  have hr2 : r^2 = P.x^2 + P.y^2 := by rw [hr]; exact sq_sqrt (by positivity)
  have hd2 : d^2 = r^2 + P.z^2 := by rw [hd, sq_sqrt (by positivity), hr2]
  have hne : r ≠ R := by rcases hout with h | h; exacts [h.ne', h.2]
  have hp := polar_form P
  have hpr : polarR P.x P.y = r := hr.symm
  rw [hpr] at hp
  have hz : |(cylinderField γ R P).z - S.z| ≤ 3/2*(R/d)^2*|S.z| := by
    have hSz : S.z = -(γ * R^2/4)/d^3*P.z := by rw [hS]; rfl
    by_cases hz0 : P.z = 0
    · have hlt : R < r := by
        rcases hout with h | h
        · exact h
        · linarith [h.1]
      have hcz : (cylinderField γ R P).z = 0 := by
        rw [hp, cylinderField_eq γ R r P.z _ (hR.trans hlt) hR hne, hz0]
        simp only [vcUz, vcT, zero_mul, zero_div, add_zero]
        rw [if_neg (not_lt.2 hlt.le), if_neg hne, mul_zero]
      rw [hcz, hSz, hz0]; simp
    · obtain ⟨-, -, g1, -, g3⟩ := C111_solid_angle γ R hR P hz0
      have hsa : diskSolidAngle R P = saK r |P.z| R := by
        conv_lhs => rw [hp]
        exact solidAngle_eq R _ _ _ hz0 hR.le
      have hf := saK_far (r := r) (abs_pos.2 hz0) hR.le hd0 (by rw [sq_abs]; exact hd2) h6
      rw [← hsa] at hf
      have hk : |γ/(4*π)| * (3/2*(R/d)^2*(π*R^2*|P.z|/d^3)) = 3/2*(R/d)^2*|S.z| := by
        rw [hSz]
        simp only [abs_mul, abs_div, abs_neg, abs_pow]
        rw [abs_of_pos hR, abs_of_pos hd0, abs_of_pos hpi, abs_of_pos (by norm_num : (0:ℝ) < 4)]
        field_simp
      rw [← hk]
      rcases lt_or_gt_of_ne hz0 with hl | hl
      · rw [g1 hl]
        have e : γ/(4*π) * diskSolidAngle R P - S.z = γ/(4*π) * (diskSolidAngle R P - π*R^2*|P.z|/d^3) := by
          rw [hSz, abs_of_neg hl]; field_simp
        rw [e, abs_mul]
        exact mul_le_mul_of_nonneg_left hf (abs_nonneg _)
      · have hlt : R < r := by
          rcases hout with h | h
          · exact h
          · linarith [h.1]
        rw [g3 hl (by rw [← hr]; exact hlt)]
        have e : -(γ/(4*π) * diskSolidAngle R P) - S.z = -(γ/(4*π)) * (diskSolidAngle R P - π*R^2*|P.z|/d^3) := by
          rw [hSz, abs_of_pos hl]; field_simp; ring
        rw [e, abs_mul, abs_neg]
        exact mul_le_mul_of_nonneg_left hf (abs_nonneg _)
  rcases hr0.eq_or_lt with h0 | hpos
  · -- on the axis
    have h00 : P.x^2 + P.y^2 = 0 := by rw [← hr2, ← h0]; ring
    have hx : P.x = 0 := by nlinarith [sq_nonneg P.x, sq_nonneg P.y]
    have hy : P.y = 0 := by nlinarith [sq_nonneg P.x, sq_nonneg P.y]
    have ha : 0 < √(R^2 + P.z^2) := sqrt_pos.mpr (by positivity)
    have ha2 : √(R^2 + P.z^2)^2 = R^2 + P.z^2 := sq_sqrt (by positivity)
    obtain ⟨k1, k2⟩ := cyl_near_axis_xy (x := P.x) (y := P.y) (z := P.z) γ hR hr0 hr2 (by linarith) ha ha2
    have hoff : OffWake R 0 ⟨P.x, P.y, P.z⟩ := offWake_axis' hR hr0 hr2 (by linarith)
    have hc := (C78_fields γ R hR P hoff).1
    change skewTangField γ R 0 ⟨P.x, P.y, P.z⟩ = _ at hc
    rw [hc, hx, ← h0] at k1
    rw [hc, hy, ← h0] at k2
    simp only [zero_mul, mul_zero, zero_div, neg_zero, sub_zero, ne_eq, OfNat.ofNat_ne_zero, not_false_eq_true, zero_pow] at k1 k2
    have hSx : S.x = 0 := by rw [hS, V3.smul_x, hx, mul_zero]
    have hSy : S.y = 0 := by rw [hS, V3.smul_y, hy, mul_zero]
    refine ⟨?_, ?_, hz⟩
    · rw [hSx, sub_zero, abs_zero, mul_zero]; exact k1
    · rw [hSy, sub_zero, abs_zero, mul_zero]; exact k2
  · have hnd : ¬ (r = R ∧ P.z = 0) := fun h => hne h.1
    have hf := ring_sin2 (r := r) (z := P.z) hd0 hd2 hR.le h6
    have hur : vcUr γ R r P.z = -(γ*R/(4*π)) * (r*R*∫ θ in (0:ℝ)..(2*π), sin θ^2 * (1/√(dist2 r P.z R θ)^3)) := by
      rw [vcUr_int γ R r P.z hpos hR hnd, sin2_form hpos hR hnd, ← intervalIntegral.integral_const_mul (r*R)]
      congr 1
      apply intervalIntegral.integral_congr
      intro θ _
      beta_reduce
      ring
    have hrel : |vcUr γ R r P.z - -(γ * R^2/4)/d^3*r| ≤ 3/2*(R/d)^2*|-(γ * R^2/4)/d^3*r| := by
      have e : vcUr γ R r P.z - -(γ * R^2/4)/d^3*r = -(γ*R/(4*π))*(r*R)*((∫ θ in (0:ℝ)..(2*π), sin θ^2 * (1/√(dist2 r P.z R θ)^3)) - π/d^3) := by
        rw [hur]; field_simp; ring
      have hk : |-(γ*R/(4*π))*(r*R)| * (3/2*π*(R/d)^2/d^3) = 3/2*(R/d)^2*|-(γ * R^2/4)/d^3*r| := by
        simp only [abs_mul, abs_div, abs_neg, abs_pow]
        rw [abs_of_pos hR, abs_of_pos hd0, abs_of_pos hpi, abs_of_pos hpos, abs_of_pos (by norm_num : (0:ℝ) < 4)]
        field_simp
      rw [e, abs_mul, ← hk]
      exact mul_le_mul_of_nonneg_left hf (abs_nonneg _)
    have hcyl := cylinderField_eq γ R r P.z (arctan2 P.y P.x) hpos hR hne
    rw [← hp] at hcyl
    have hx : P.x = r * cos (arctan2 P.y P.x) := congrArg V3.x hp
    have hy : P.y = r * sin (arctan2 P.y P.x) := congrArg V3.y hp
    refine ⟨?_, ?_, hz⟩
    · have e1 : (cylinderField γ R P).x = vcUr γ R r P.z * cos (arctan2 P.y P.x) := congrArg V3.x hcyl
      have e2 : S.x = -(γ * R^2/4)/d^3*r * cos (arctan2 P.y P.x) := by
        rw [hS, V3.smul_x]; linear_combination (-(γ * R^2/4)/d^3) * hx
      rw [e1, e2, ← sub_mul, abs_mul, abs_mul, ← mul_assoc]
      exact mul_le_mul_of_nonneg_right hrel (abs_nonneg _)
    · have e1 : (cylinderField γ R P).y = vcUr γ R r P.z * sin (arctan2 P.y P.x) := congrArg V3.y hcyl
      have e2 : S.y = -(γ * R^2/4)/d^3*r * sin (arctan2 P.y P.x) := by
        rw [hS, V3.smul_y]; linear_combination (-(γ * R^2/4)/d^3) * hy
      rw [e1, e2, ← sub_mul, abs_mul, abs_mul, ← mul_assoc]
      exact mul_le_mul_of_nonneg_right hrel (abs_nonneg _)

/-- the same in terms of the intensity -/
theorem far_abs (γ R : ℝ) (hR : 0 < R) (p : V3 ℝ) (r d : ℝ) (hr : r = √(p.x^2 + p.y^2)) (hd : d = √(p.x^2 + p.y^2 + p.z^2)) (h6 : 6*R ≤ d)
    (hout : R < r ∨ (p.z < 0 ∧ r ≠ R)) (S : V3 ℝ) (hS : S = V3.smul (-(γ * R^2/4)/d^3) p) :
    |S.x - (cylinderField γ R p).x| ≤ 3e-4*|γ| ∧ |S.y - (cylinderField γ R p).y| ≤ 3e-4*|γ| ∧ |S.z - (cylinderField γ R p).z| ≤ 3e-4*|γ| := by
  have hγ := abs_nonneg γ
  have hd0 : 0 < d := by linarith
  obtain ⟨k1, k2, k3⟩ := far_cyl γ R hR p r d hr hd h6 hout _ hS
  have hd2 : d^2 = p.x^2 + p.y^2 + p.z^2 := by rw [hd]; exact sq_sqrt (by positivity)
  have hcomp : ∀ a : ℝ, a^2 ≤ d^2 → 3/2*(R/d)^2*|-(γ * R^2/4)/d^3*a| ≤ 3e-4*|γ| := by
    intro a ha
    have ha' : |a| ≤ d := abs_le_of_sq_le_sq ha hd0.le
    have hq : R/d ≤ 1/6 := by rw [div_le_iff₀ hd0]; linarith
    have hq0 : 0 ≤ R/d := by positivity
    have hq2 : (R/d)^2 ≤ 1/36 := by nlinarith
    have e : |-(γ * R^2/4)/d^3*a| = |γ|/4*(R/d)^2*(|a|/d) := by
      simp only [abs_mul, abs_div, abs_neg, abs_pow]
      rw [abs_of_pos hR, abs_of_pos hd0, abs_of_pos (by norm_num : (0:ℝ) < 4)]
      field_simp
    rw [e]
    have h1 : |a|/d ≤ 1 := by rw [div_le_one hd0]; exact ha'
    have h2 : |γ|/4*(R/d)^2*(|a|/d) ≤ |γ|/4*(1/36)*1 := by gcongr
    calc 3/2*(R/d)^2*(|γ|/4*(R/d)^2*(|a|/d)) ≤ 3/2*(1/36)*(|γ|/4*(1/36)*1) := by gcongr
      _ ≤ 3e-4*|γ| := by norm_num; linarith
  have hx := hcomp p.x (by rw [hd2]; nlinarith [sq_nonneg p.y, sq_nonneg p.z])
  have hy := hcomp p.y (by rw [hd2]; nlinarith [sq_nonneg p.x, sq_nonneg p.z])
  have hz := hcomp p.z (by rw [hd2]; nlinarith [sq_nonneg p.y, sq_nonneg p.x])
  subst hS
  rw [abs_sub_comm, abs_sub_comm _ (cylinderField γ R p).y, abs_sub_comm _ (cylinderField γ R p).z]
  exact ⟨k1.trans hx, k2.trans hy, k3.trans hz⟩

theorem xy_of_r {p : V3 ℝ} (h : √(p.x^2 + p.y^2) = 0) : p.x = 0 ∧ p.y = 0 := by
  have h2 : p.x^2 + p.y^2 = 0 := (sqrt_eq_zero (by positivity)).1 h
  constructor <;> nlinarith [sq_nonneg p.x, sq_nonneg p.y]

/-- the value of `vc_tang_u_doublet` beyond the cut-off -/
theorem vcff_sink (pts : List (V3 ℝ)) (γ R rCut : ℝ) (hR : 0 < R) (i : ℕ) (p : V3 ℝ) (hi : pts[i]? = some p)
    (hout : rCut * R < √(p.x^2 + p.y^2 + p.z^2)) (hw : R < √(p.x^2 + p.y^2) ∨ p.z < 0)
    (hr : √(p.x^2 + p.y^2) = 0 ∨ 1e-8 < √(p.x^2 + p.y^2)) (hz : p.z = 0 ∨ 1e-8 < |p.z|) :
    (vcTangDoublet pts (.fin γ) R rCut)[i]? =
      some (V3.fin (V3.smul (-(γ * R^2 / 4) / √(p.x^2 + p.y^2 + p.z^2)^3) p)) := by
  have hpi := pi_pos
  have hk : -(γ * R^2 * π / (4*π)) = -(γ * R^2/4) := by field_simp
  have hc : ¬ ¬ vcCut R rCut p := by rw [vcCut_iff]; exact not_not.mpr hout
  rcases hr with hr | hr
  · -- on the axis
    obtain ⟨hx, hy⟩ := xy_of_r hr
    have hz0 : p.z < 0 := by
      rcases hw with h | h
      · linarith
      · exact h
    have hz1 : p.z < -1e-8 := by
      rcases hz with h | h
      · linarith
      · rw [abs_of_neg hz0] at h; linarith
    have hsq : √(p.x^2 + p.y^2 + p.z^2) = -p.z := by
      rw [hx, hy]
      simp only [ne_eq, OfNat.ofNat_ne_zero, not_false_eq_true, zero_pow, add_zero, zero_add]
      rw [sqrt_sq_eq_abs, abs_of_neg hz0]
    rw [vcTangDoublet_get pts γ R rCut hR i p hi, vcdPt, if_neg hc, Num.fin_pow, Num.fin_mul, Num.fin_mul]
    have hpr : polarR p.x p.y = 0 := hr
    simp only [hpr]
    rw [(C59_polar_masks 0 p.z _).2.2.2.1 le_rfl (by norm_num) hz1, hsq]
    unfold polarToCart
    simp only [Num.fin_mul, zero_mul]
    congr 1
    ext
    · simp only [V3.fin_x, V3.smul_x, hx, mul_zero]
    · simp only [V3.fin_y, V3.smul_y, hy, mul_zero]
    · simp only [V3.fin_z, V3.smul_z, Num.fin_inj]
      have := hz0.ne
      rw [neg_pow]
      field_simp
      ring
  · rcases hz with hz | hz
    · rw [vcTangDoublet_get pts γ R rCut hR i p hi, vcdPt, if_neg hc, Num.fin_pow, Num.fin_mul, Num.fin_mul]
      have hr' : 1e-8 < polarR p.x p.y := hr
      rw [(C59_polar_masks _ p.z _).2.2.2.2 hr' (by rw [hz, abs_zero]; norm_num)]
      unfold polarToCart
      simp only [Num.fin_mul, polarR_sq, neg_mul, hk, hz]
      have ec := r_cos p.x p.y
      have es := r_sin p.x p.y
      congr 1
      ext
      · simp only [V3.fin_x, V3.smul_x, Num.fin_inj]
        linear_combination (-(γ * R^2/4)/√(p.x^2+p.y^2+0^2)^3) * ec
      · simp only [V3.fin_y, V3.smul_y, Num.fin_inj]
        linear_combination (-(γ * R^2/4)/√(p.x^2+p.y^2+0^2)^3) * es
      · simp only [V3.fin_z, V3.smul_z, hz, mul_zero]
    · exact C49_outside pts γ R rCut hR i p hi hout hr.le hz.le

/-- C136: beyond a cut-off of six radii or more and outside of the wake, the `VCFF` velocity (`vc_tang_u_doublet`) is within `3/2 (R/d)²`
(4.2% at the default cut-off) of the Biot–Savart velocity of the cylinder, component by component, `d` being the distance to the rotor centre. -/
theorem C136_far (pts : List (V3 ℝ)) (γ R rCut : ℝ) (hR : 0 < R) (hcut : 6 ≤ rCut) (i : ℕ) (p : V3 ℝ) (hi : pts[i]? = some p) (r d : ℝ)
    (hr : r = √(p.x^2 + p.y^2)) (hd : d = √(p.x^2 + p.y^2 + p.z^2)) (hout : rCut * R < d) (hw : R < r ∨ (p.z < 0 ∧ r ≠ R))
    (hr8 : r = 0 ∨ 1e-8 < r) (hz8 : p.z = 0 ∨ 1e-8 < |p.z|) :
    ∃ u : V3 ℝ, (vcTangDoublet pts (.fin γ) R rCut)[i]? = some (V3.fin u) ∧
      |(cylinderField γ R p).x - u.x| ≤ 3/2*(R/d)^2*|u.x| ∧ |(cylinderField γ R p).y - u.y| ≤ 3/2*(R/d)^2*|u.y| ∧
      |(cylinderField γ R p).z - u.z| ≤ 3/2*(R/d)^2*|u.z| ∧ 3/2*(R/d)^2 ≤ 3/2/rCut^2 := by
  have h6 : 6*R ≤ d := by nlinarith
  have hv := vcff_sink pts γ R rCut hR i p hi (by rw [← hd]; exact hout) (by rw [← hr]; exact hw.imp id And.left) (by rw [← hr]; exact hr8) hz8
  rw [← hd] at hv
  obtain ⟨k1, k2, k3⟩ := far_cyl γ R hR p r d hr hd h6 hw _ rfl
  refine ⟨_, hv, k1, k2, k3, ?_⟩
  have hd0 : 0 < d := by linarith
  rw [div_pow, ← mul_div_assoc, div_le_div_iff₀ (by positivity) (by positivity)]
  have : (rCut*R)^2 ≤ d^2 := pow_le_pow_left₀ (by positivity) hout.le 2
  nlinarith

/-- C136: the `VD` velocity (`doublet_line_u`) has the same accuracy six radii or more away from the rotor and outside of the wake. -/
theorem C136_doublet (p : V3 ℝ) (γ R : ℝ) (hR : 0 < R) (r d : ℝ)
    (hr : r = √(p.x^2 + p.y^2)) (hd : d = √(p.x^2 + p.y^2 + p.z^2)) (h6 : 6*R ≤ d) (hw : R < r ∨ (p.z < 0 ∧ r ≠ R)) (hr8 : p.z < 0 ∨ 2e-8 ≤ r) :
    ∃ u : V3 ℝ, doubletLineU p (.fin (γ * (π*R^2))) 0 none = V3.fin u ∧
      |(cylinderField γ R p).x - u.x| ≤ 3/2*(R/d)^2*|u.x| ∧ |(cylinderField γ R p).y - u.y| ≤ 3/2*(R/d)^2*|u.y| ∧
      |(cylinderField γ R p).z - u.z| ≤ 3/2*(R/d)^2*|u.z| := by
  obtain ⟨k1, k2, k3⟩ := far_cyl γ R hR p r d hr hd h6 hw _ rfl
  refine ⟨_, ?_, k1, k2, k3⟩
  rw [C59_point_source p _ ?_, sink_value, hd]
  rintro ⟨h1, h2, h3⟩
  rcases hr8 with h | h
  · linarith
  · have h5 : r^2 = p.x^2 + p.y^2 := by rw [hr]; exact sq_sqrt (by positivity)
    rw [abs_lt] at h1 h2
    norm_num at h1 h2 h
    have : p.y^2 ≤ (1/100000000)^2 := by nlinarith
    have : p.x^2 ≤ (1/100000000)^2 := by nlinarith
    nlinarith

/-- a point 12 radii upstream and off the axis, with the default cut-off -/
example : let p : V3 ℝ := ⟨3, 4, -12⟩
    (6:ℝ) * 1 < √(p.x^2 + p.y^2 + p.z^2) ∧ ((1:ℝ) < √(p.x^2 + p.y^2) ∨ (p.z < 0 ∧ √(p.x^2 + p.y^2) ≠ 1)) ∧
    (√(p.x^2 + p.y^2) = 0 ∨ 1e-8 < √(p.x^2 + p.y^2)) ∧ (p.z = 0 ∨ 1e-8 < |p.z|) := by
  intro p
  have h1 : √(p.x^2 + p.y^2) = 5 := by
    rw [show p.x^2 + p.y^2 = 5^2 by norm_num [p]]; exact sqrt_sq (by norm_num)
  have h2 : √(p.x^2 + p.y^2 + p.z^2) = 13 := by
    rw [show p.x^2 + p.y^2 + p.z^2 = 13^2 by norm_num [p]]; exact sqrt_sq (by norm_num)
  rw [h1, h2]
  norm_num [p]

/-- C136: the velocity of `vc_tang_u_doublet` in any batch, on either side of the cut-off (six radii or more). -/
theorem C136_batch (pts : List (V3 ℝ)) (γ R rCut : ℝ) (hR : 0 < R) (hcut : 6 ≤ rCut) (i : ℕ) (p : V3 ℝ) (hi : pts[i]? = some p) (r d : ℝ)
    (hr : r = √(p.x^2 + p.y^2)) (hd : d = √(p.x^2 + p.y^2 + p.z^2)) (hne : r ≠ R) (hoff : ¬ (|r - R| < 1e-8 * R ∧ |p.z| < 1e-8 * R))
    (hfar : rCut * R < d → (R < r ∨ p.z < 0) ∧ (r = 0 ∨ 1e-8 < r) ∧ (p.z = 0 ∨ 1e-8 < |p.z|)) :
    ∃ u : V3 ℝ, (vcTangDoublet pts (.fin γ) R rCut)[i]? = some (V3.fin u) ∧
      |u.x - (cylinderField γ R p).x| ≤ 3e-4*|γ| ∧ |u.y - (cylinderField γ R p).y| ≤ 3e-4*|γ| ∧ |u.z - (cylinderField γ R p).z| ≤ 3/100*|γ| := by
  have hγ := abs_nonneg γ
  by_cases hc : rCut * R < d
  · obtain ⟨w1, w2, w3⟩ := hfar hc
    have hw : R < r ∨ (p.z < 0 ∧ r ≠ R) := w1.imp id fun h => ⟨h, hne⟩
    have h6 : 6*R ≤ d := by nlinarith
    have hd0 : 0 < d := by linarith
    have hv := vcff_sink pts γ R rCut hR i p hi (by rw [← hd]; exact hc) (by rw [← hr]; exact w1) (by rw [← hr]; exact w2) w3
    rw [← hd] at hv
    obtain ⟨k1, k2, k3⟩ := far_abs γ R hR p r d hr hd h6 hw _ rfl
    refine ⟨_, hv, k1, k2, k3.trans ?_⟩
    norm_num; linarith
  · have hcc : ¬ vcCut R rCut p := by rw [vcCut_iff, ← hd]; exact hc
    obtain ⟨ins, hins⟩ : ∃ ins, ins = pts.filter fun p => ¬ vcCut R rCut p := ⟨_, rfl⟩
    have hmem : p ∈ ins := by
      rw [hins, List.mem_filter]
      exact ⟨List.mem_of_getElem? hi, by simpa using hcc⟩
    obtain ⟨j, hj⟩ := List.mem_iff_getElem?.1 hmem
    obtain ⟨u, hu, b1, b2, b3⟩ := C119_batch ins γ R hR j p hj (by rw [← hr]; exact hne) (by rw [← hr]; exact hoff)
    have ev := congrArg (fun l => l[j]?) (vcTang_eval ins γ R hR)
    simp only [List.getElem?_map, hj, Option.map_some, hu] at ev
    have hg := vcTangDoublet_get pts γ R rCut hR i p hi
    rw [vcdPt, if_pos hcc, ← hins] at hg
    refine ⟨u, ?_, ?_, ?_, b3⟩
    · rw [hg, ev]; rfl
    · refine b1.trans ?_; norm_num; linarith
    · refine b2.trans ?_; norm_num; linarith

/-- a turbine without skew can be evaluated with any of the models "VC", "VCFF" and "VD" -/
theorem straight_ok (w : WT) (g chi : Num) (hg : w.gamma_t = some [g]) (pts : List (V3 ℝ)) (o : Opts) (hr : o.root = false) (hl : o.longi = false)
    (Mn : String) (hM : o.Model.getD w.Model = Mn) (hMn : Mn = "VC" ∨ Mn = "VCFF" ∨ Mn = "VD")
    (hchi : (w.computeU pts o).2.chi = some chi) (hsk : ¬ (Num.fin 1e-7 < Num.abs chi)) : ∃ u, (w.computeU pts o).1 = .ok u := by
  have hc : usedChi w = chi := by
    rw [computeU_state] at hchi
    exact Option.some.inj hchi
  rw [computeU_val, hg]
  simp only
  rw [inducedC_single _ _ _ _ _ hr, hM]
  have hb : ∀ Y u, ∃ u', singleBody (usedChi w) (usedChi w).tan Mn g w.gamma_l w.R o Y u = .ok u' := by
    intro Y u
    rw [singleBody_noLongi _ _ _ _ _ _ _ hl]
    by_cases h : o.tang = true ∧ ¬ Num.Eqv g 0
    · rw [if_pos h]
      unfold tangPart
      have hy : ¬ yawed (usedChi w) := by rw [hc]; exact hsk
      rw [if_neg hy]
      rcases hMn with rfl | rfl | rfl
      · rw [if_pos rfl]; exact ⟨_, rfl⟩
      · rw [if_neg (by decide), if_pos rfl]; exact ⟨_, rfl⟩
      · rw [if_neg (by decide), if_neg (by decide), if_pos rfl]; exact ⟨_, rfl⟩
    · rw [if_neg h]; exact ⟨_, rfl⟩
  have ho : ∀ L u, ∃ u', overY (singleBody (usedChi w) (usedChi w).tan Mn g w.gamma_l w.R o) u L = .ok u' := by
    intro L
    induction L with
    | nil => intro u; exact ⟨u, rfl⟩
    | cons Y L ih =>
      intro u
      obtain ⟨u', hu'⟩ := hb Y u
      unfold overY
      rw [hu']
      exact ih u'
  obtain ⟨u', hu'⟩ := ho (if o.ground.getD w.Ground then [relC w pts, mirrorPts (pts.map (transformT w.T_c2g)) (transformT w.T_c2g w.r_hub)] else [relC w pts])
    (pts.map fun _ => 0)
  rw [hu']
  exact ⟨_, rfl⟩

theorem inRotor_norm (c v s p : V3 ℝ) (hv : V3.dot v v = 1) (hs : V3.dot s s = 1) (ho : V3.dot v s = 0) :
    V3.norm (inRotor c v s p) = V3.norm (p - c) := by
  rw [← axes_norm v s hv hs ho (inRotor c v s p)]
  exact congrArg V3.norm (axes_expand v s hv hs ho (p - c))

theorem norm_le_mixed (e : V3 ℝ) (g : ℝ) (hg : 0 ≤ g) (h1 : |e.x| ≤ 3e-4*g) (h2 : |e.y| ≤ 3e-4*g) (h3 : |e.z| ≤ 3/100*g) : V3.norm e ≤ 0.0301*g := by
  unfold V3.norm
  rw [Real.sqrt_le_left (by positivity)]
  have a1 := sq_le_sq' (by linarith [abs_le.1 h1]) (abs_le.1 h1).2
  have a2 := sq_le_sq' (by linarith [abs_le.1 h2]) (abs_le.1 h2).2
  have a3 := sq_le_sq' (by linarith [abs_le.1 h3]) (abs_le.1 h3).2
  norm_num at *
  nlinarith [sq_nonneg g]

/-- the velocity of each model, in the axes of the rotor, where it is meant to be used -/
theorem model_value (chi : Num) (hsk : ¬ (Num.fin 1e-7 < Num.abs chi)) (Mn : String) (γ R cut : ℝ) (hR : 0 < R) (hcut : 6 ≤ cut) (v s c : V3 ℝ)
    (hv : V3.dot v v = 1) (hs : V3.dot s s = 1) (ho : V3.dot v s = 0) (pts : List (V3 ℝ)) (i : ℕ) (p : V3 ℝ) (hpi : pts[i]? = some p)
    (hdom : InDomain Mn cut R c v s p) :
    ∃ u : V3 ℝ, (wakeTang chi Mn (.fin γ) R cut (rotorAxes (V3.cross v s) v s c pts)).getD i 0 = V3.fin u ∧
      |u.x - (cylinderField γ R (inRotor c v s p)).x| ≤ 3e-4*|γ| ∧ |u.y - (cylinderField γ R (inRotor c v s p)).y| ≤ 3e-4*|γ| ∧
      |u.z - (cylinderField γ R (inRotor c v s p)).z| ≤ 3/100*|γ| := by
  have hγ := abs_nonneg γ
  have hY : (rotorAxes (V3.cross v s) v s c pts)[i]? = some (inRotor c v s p) := by
    simp only [rotorAxes, List.getElem?_map, hpi, Option.map_some, inRotor]
  have hn := inRotor_norm c v s p hv hs ho
  unfold wakeTang
  rw [if_neg (show ¬ skewed chi from hsk)]
  rcases hdom with ⟨rfl, hoff⟩ | ⟨rfl, hoff, hfar⟩ | ⟨rfl, h8, h6, hoff, hout⟩
  · rw [if_pos rfl]
    obtain ⟨u, hu, b1, b2, b3⟩ := C119_batch _ γ R hR i _ hY hoff.1 hoff.2
    refine ⟨u, getElem_getD hu, ?_, ?_, b3⟩
    · refine b1.trans ?_; norm_num; linarith
    · refine b2.trans ?_; norm_num; linarith
  · rw [if_neg (by decide), if_pos rfl]
    obtain ⟨u, hu, b⟩ := C136_batch _ γ R cut hR hcut i _ hY _ _ rfl rfl hoff.1 hoff.2 (by
      intro h
      obtain ⟨w1, w2⟩ := hfar (by rw [← hn]; exact h)
      exact ⟨w1, w2.1, w2.2⟩)
    exact ⟨u, getElem_getD hu, b⟩
  · rw [if_neg (by decide), if_neg (by decide), if_pos rfl]
    have h6' : 6*R ≤ V3.norm (inRotor c v s p) := by rw [hn]; exact h6
    have hw : R < √((inRotor c v s p).x^2 + (inRotor c v s p).y^2) ∨ ((inRotor c v s p).z < 0 ∧ √((inRotor c v s p).x^2 + (inRotor c v s p).y^2) ≠ R) :=
      hout.imp id fun h => ⟨h, hoff.1⟩
    obtain ⟨k1, k2, k3⟩ := far_abs γ R hR (inRotor c v s p) _ _ rfl rfl h6' hw _ rfl
    refine ⟨_, ?_, k1, k2, k3.trans (by norm_num; linarith)⟩
    apply getElem_getD
    rw [List.getElem?_map, hY, Option.map_some, Num.fin_mul]
    congr 1
    rw [C59_point_source _ _ ?_, sink_value]
    rintro ⟨h1, h2, h3⟩
    rcases hout with h | h
    · generalize inRotor c v s p = q at *
      obtain ⟨r, hr⟩ : ∃ r, r = √(q.x^2 + q.y^2) := ⟨_, rfl⟩
      have h5 : r^2 = q.x^2 + q.y^2 := by rw [hr]; exact sq_sqrt (by positivity)
      change R < √(q.x^2 + q.y^2) at h
      rw [← hr] at h
      rw [abs_lt] at h1 h2
      norm_num at h1 h2 h8
      have : q.y^2 ≤ (1/100000000)^2 := by nlinarith
      have : q.x^2 ≤ (1/100000000)^2 := by nlinarith
      nlinarith
    · exact absurd h (not_lt.2 h3)

/-- C136: the velocity field of a farm of turbines without skew, each evaluated with one of the models "VC", "VCFF" (any cut-off of six radii
or more) and "VD": wherever each model is meant to be used it is the free stream plus the Biot–Savart velocities of the cylinders that leave the rotors and their
images, up to 3.01% of the sum of their intensities. -/
theorem C136_farm (mini : (ℝ → Num) → ℝ) (args : ℕ → TurbineArgs) (hist : ℕ → List Op) (ts : List ℕ) (γ : ℕ → ℝ) (model : ℕ → String)
    (pts : List (V3 ℝ)) (o : Opts) (hnw : o.no_wake = false) (hta : o.tang = true) (hlo : o.longi = false) (hro : o.root = false) (hcut : 6 ≤ o.R_far_field)
    (U0 : Option (V3 ℝ)) (w : ℕ → WT) (hw : ∀ t, w t = ((args t).build).run mini (hist t))
    (ho : ∀ t ∈ ts, Orthonormal (args t).shaft (args t).vert) (hR : ∀ t ∈ ts, 0 < (args t).R)
    (hg : ∀ t ∈ ts, (w t).gamma_t = some [.fin (γ t)])
    (hM : ∀ t ∈ ts, o.Model.getD (w t).Model = model t ∧ (model t = "VC" ∨ model t = "VCFF" ∨ model t = "VD"))
    (hchi : ∀ t ∈ ts, ∃ chi, ((w t).computeU pts o).2.chi = some chi ∧ ¬ (Num.fin 1e-7 < Num.abs chi)) :
    let q := frun mini (ts.map .turbine) w []
    let wakes := fun t => wakeCentres (o.ground.getD (w t).Ground) (args t).vert (w t).r_hub
    ∃ u, (farmVelocity q.1 q.2 pts o U0).1 = .ok u ∧ ∀ (i : ℕ) (p : V3 ℝ), pts[i]? = some p →
      (∀ t ∈ ts, ∀ c ∈ wakes t, InDomain (model t) o.R_far_field (args t).R c (args t).vert (w t).e_shaft_g p) →
      ∃ v, u[i]? = some (V3.fin v) ∧
        V3.norm (v - (U0.getD 0 + (ts.map fun t => ((wakes t).map fun c => wakeFlow (γ t) (args t).R c (args t).vert (w t).e_shaft_g p).sum).sum)) ≤
          0.0301 * (ts.map fun t => (wakes t).length * |γ t|).sum := by
  intro q wakes
  rw [← sum_map_const_mul]
  refine farm_within mini ts w pts o U0 (fun t p => ((wakes t).map fun c => wakeFlow (γ t) (args t).R c (args t).vert (w t).e_shaft_g p).sum)
    (fun t => 0.0301 * ((wakes t).length * |γ t|)) (fun t p => ∀ c ∈ wakes t, InDomain (model t) o.R_far_field (args t).R c (args t).vert (w t).e_shaft_g p) ?_
  intro t ht
  have ew : w t = (WT.new (args t).R (args t).hub (args t).shaft (args t).vert (args t).U0 (args t).Lambda (args t).Ground (args t).Model).run mini (hist t) := hw t
  obtain ⟨a1, a2, a3, a4, a5, a6⟩ := rotorAxes_run mini (args t).R (args t).hub (args t).shaft (args t).vert (args t).U0 (args t).Lambda (args t).Ground (args t).Model (ho t ht) (hist t)
  rw [← ew] at a1 a2 a3 a5 a6
  obtain ⟨chi, c1, c2⟩ := hchi t ht
  have c1' : ((w t).computeU pts { o with only_ind := true }).2.chi = some chi := by rw [computeU_state] at c1 ⊢; exact c1
  obtain ⟨u, hu⟩ := straight_ok (w t) _ chi (hg t ht) pts { o with only_ind := true } hro hlo (model t) (hM t ht).1 (hM t ht).2 c1' c2
  refine ⟨u, hu, fun i p hpi hgood => ?_⟩
  have hv := fun c hc => model_value chi c2 (model t) (γ t) (args t).R o.R_far_field (hR t ht) hcut (args t).vert (w t).e_shaft_g c (ho t ht).vert a6 a5 pts i p hpi (hgood c hc)
  choose! val h1 b1 b2 b3 using hv
  have hs := model_sum mini (args t).R (args t).hub (args t).shaft (args t).vert (args t).U0 (args t).Lambda (args t).Ground (args t).Model (ho t ht) (hist t) pts
    { o with only_ind := true } hnw hta hlo hro (w t) ew (γ t) chi (hg t ht) (model t) (hM t ht).1 c1' u hu i p hpi (fun c => if γ t = 0 then 0 else val c)
    (fun h0 c hc => by rw [if_neg h0]; exact h1 c hc) (fun h0 c => if_pos h0)
  refine ⟨_, hs, ?_⟩
  have e0 : ∀ x : V3 ℝ, x + (if ({ o with only_ind := true } : Opts).only_ind = true then 0 else (w t).U0_g) = x := fun x => by
    rw [if_pos rfl]; ext <;> simp
  rw [e0, fromAxes_sum, sum_map_sub]
  have hb := norm_sum_le (wakes t) (fun c => fromAxes (V3.cross (args t).vert (w t).e_shaft_g) (args t).vert (w t).e_shaft_g (if γ t = 0 then 0 else val c) -
    wakeFlow (γ t) (args t).R c (args t).vert (w t).e_shaft_g p) (fun _ => 0.0301 * |γ t|) (by
      intro c hc
      change V3.norm (_ - fromAxes (V3.cross (args t).vert (w t).e_shaft_g) (args t).vert (w t).e_shaft_g (cylinderField (γ t) (args t).R (inRotor c (args t).vert (w t).e_shaft_g p))) ≤ _
      rw [← fromAxes_sub, axes_norm _ _ (ho t ht).vert a6 a5]
      have d1 := b1 c hc
      have d2 := b2 c hc
      have d3 := b3 c hc
      by_cases h0 : γ t = 0
      · rw [if_pos h0, h0]
        have hz : cylinderField 0 (args t).R (inRotor c (args t).vert (w t).e_shaft_g p) = 0 := cylinderField_zero _ _
        rw [hz, abs_zero, mul_zero]
        have : (0 : V3 ℝ) - 0 = 0 := by ext <;> simp
        rw [this, norm_zero3]
      · rw [if_neg h0]
        exact norm_le_mixed _ _ (abs_nonneg _) d1 d2 d3)
  refine hb.trans (le_of_eq ?_)
  rw [List.map_const', List.sum_replicate, nsmul_eq_mul]
  ring

/-- the intensity of a turbine loaded with `update_loading(Ct=C)` -/
theorem thrust_strength (mini : (ℝ → Num) → ℝ) (a : TurbineArgs) (C U Ω apc : ℝ) (ho : Orthonormal a.shaft a.vert) (hR : 0 < a.R)
    (hU : 0 < U) (hw : a.U0 = V3.smul U a.shaft)
    (hΩ : ((∃ l : ℝ, a.Lambda = some (.fin l) ∧ Ω = l * U / a.R) ∨ (a.Lambda = some .pinf ∧ Ω = 800)) ∧ 20 ≤ Ω * a.R / U)
    (hapc : apc = C * π * U^2 / Ω / (4 * π * Ω * a.R)^2) (hC : C ≤ Ctc ∧ 0 ≤ 1 - C * (1 + apc)) :
    ((a.build).run mini [.loading { Ct := some [.fin C] }]).gamma_t = some [.fin (-U * (1 - √(1 - C * (1 + apc))))] := by
  have hn : V3.norm (a.build).U0_g = U := by
    change V3.norm a.U0 = U
    rw [hw, norm_smul_unit _ _ ho.shaft, abs_of_pos hU]
  have hne : (a.build).U0_g ≠ 0 := by
    intro h
    rw [h, norm_zero3] at hn
    exact hU.ne hn
  obtain ⟨o1, o2⟩ := hΩ
  have key : ∀ L : Num, a.Lambda = some L → ((∃ l : ℝ, L = .fin l ∧ Ω = l * U / a.R) ∨ (L = .pinf ∧ Ω = 800)) →
      ((a.build).run mini [.loading { Ct := some [.fin C] }]).gamma_t = some [.fin (-U * (1 - √(1 - C * (1 + apc))))] := by
    intro L hL hLO
    have hd := updateLoading_default mini a.build L hL { Ct := some [.fin C] } rfl
    obtain ⟨r1, r2, -⟩ := C34_update_loading mini a.build hR hne [C] (by simp) L Ω (by rw [hn]; exact hLO) (by rw [hn]; exact o2) none none
    simp only [List.map_cons, List.map_nil, List.sum_cons, List.sum_nil, add_zero, List.length_singleton, Nat.cast_one, div_one] at r2
    rw [hn] at r2
    change apc = C * π * U^2 / Ω / (4 * π * Ω * (a.build).R)^2 at hapc
    rw [← hapc] at r2
    have := r2 hC.1 hC.2
    change (a.build.updateLoading mini { Ct := some [.fin C] }).2.gamma_t = _
    rw [hd]
    exact this
  rcases o1 with ⟨l, h1, h2⟩ | ⟨h1, h2⟩
  · exact key _ h1 (Or.inl ⟨l, rfl, h2⟩)
  · exact key _ h1 (Or.inr ⟨rfl, h2⟩)

/-- C136 for the standard workflow: turbines built with the wind along their shafts and with the model "VC", "VCFF" or "VD", loaded with
`update_loading(Ct=C)` (no or little wake rotation, `C` below the high-thrust limit), evaluated with the default options (cut-off of six radii). -/
theorem C136_thrust (mini : (ℝ → Num) → ℝ) (args : ℕ → TurbineArgs) (C U Ω apc : ℕ → ℝ) (ts : List ℕ)
    (ho : ∀ t ∈ ts, Orthonormal (args t).shaft (args t).vert) (hR : ∀ t ∈ ts, 0 < (args t).R)
    (hU : ∀ t ∈ ts, 0 < U t ∧ (args t).U0 = V3.smul (U t) (args t).shaft)
    (hM : ∀ t ∈ ts, (args t).Model = "VC" ∨ (args t).Model = "VCFF" ∨ (args t).Model = "VD")
    (hΩ : ∀ t ∈ ts, ((∃ l : ℝ, (args t).Lambda = some (.fin l) ∧ Ω t = l * U t / (args t).R) ∨ ((args t).Lambda = some .pinf ∧ Ω t = 800)) ∧
      20 ≤ Ω t * (args t).R / U t)
    (hapc : ∀ t ∈ ts, apc t = C t * π * (U t)^2 / Ω t / (4 * π * Ω t * (args t).R)^2)
    (hC : ∀ t ∈ ts, C t ≤ Ctc ∧ 0 ≤ 1 - C t * (1 + apc t))
    (pts : List (V3 ℝ)) (V : V3 ℝ) :
    let w := fun t => ((args t).build).run mini [.loading { Ct := some [.fin (C t)] }]
    let q := frun mini (ts.map .turbine) w []
    let wakes := fun t => wakeCentres (args t).Ground (args t).vert (args t).hub
    let γ := fun t => -U t * (1 - √(1 - C t * (1 + apc t)))
    ∃ u, (farmVelocity q.1 q.2 pts {} (some V)).1 = .ok u ∧ ∀ (i : ℕ) (p : V3 ℝ), pts[i]? = some p →
      (∀ t ∈ ts, ∀ c ∈ wakes t, InDomain (args t).Model 6 (args t).R c (args t).vert (args t).shaft p) →
      ∃ v, u[i]? = some (V3.fin v) ∧
        V3.norm (v - (V + (ts.map fun t => ((wakes t).map fun c => wakeFlow (γ t) (args t).R c (args t).vert (args t).shaft p).sum).sum)) ≤
          0.0301 * (ts.map fun t => (wakes t).length * |γ t|).sum := by
  intro w q wakes γ
  have hb : ∀ t, (w t).r_hub = (args t).hub ∧ (w t).e_shaft_g = M3.mulVec (rotMatAxisAngle (args t).vert 0) (args t).shaft ∧
      (w t).Ground = (args t).Ground ∧ (w t).Model = (args t).Model := by
    intro t
    obtain ⟨b1, b2, b3, b4, b5, b6, b7, b8, b9, b10, b11, b12, b13, b14⟩ := loading_frame mini (args t).build { Ct := some [.fin (C t)] }
    exact ⟨b2, b5, b12, b14⟩
  have hsh : ∀ t, (w t).e_shaft_g = (args t).shaft := by
    intro t
    rw [(hb t).2.1]
    unfold rotMatAxisAngle M3.mulVec
    ext <;> simp
  have hg : ∀ t ∈ ts, (w t).gamma_t = some [.fin (γ t)] := fun t ht =>
    thrust_strength mini (args t) (C t) (U t) (Ω t) (apc t) (ho t ht) (hR t ht) (hU t ht).1 (hU t ht).2 (hΩ t ht) (hapc t ht) (hC t ht)
  obtain ⟨u, h1, h2⟩ := C136_farm mini args (fun t => [.loading { Ct := some [.fin (C t)] }]) ts γ (fun t => (args t).Model) pts {} rfl rfl rfl rfl le_rfl (some V) w (fun _ => rfl) ho hR hg
    (fun t ht => ⟨(hb t).2.2.2, hM t ht⟩) (fun t ht => ⟨0, aligned_chi mini (args t) (ho t ht) (U t) (hU t ht).1 (hU t ht).2 _ _ _, by simp; norm_num⟩)
  have hwk : ∀ t, wakeCentres ((w t).Ground) (args t).vert (w t).r_hub = wakes t := by
    intro t
    rw [(hb t).1, (hb t).2.2.1]
  refine ⟨u, h1, fun i p hpi hoff => ?_⟩
  have := h2 i p hpi
  simp only [Option.getD_none, hwk, hsh, Option.getD_some] at this
  exact this hoff

/-- a "VCFF" and a "VD" turbine seen from 13 radii upstream and off the axis -/
example : let c : V3 ℝ := ⟨0, 80, 0⟩
    let p : V3 ℝ := ⟨3*50, 80 + 4*50, -12*50⟩
    InDomain "VCFF" 6 50 c ⟨0, 1, 0⟩ ⟨0, 0, 1⟩ p ∧ InDomain "VD" 6 50 c ⟨0, 1, 0⟩ ⟨0, 0, 1⟩ p ∧ (6:ℝ) * 50 < V3.norm (p - c) := by
  intro c p
  have hx : inRotor c ⟨0, 1, 0⟩ ⟨0, 0, 1⟩ p = ⟨150, 200, -600⟩ := by
    unfold inRotor; ext <;> norm_num [V3.dot, V3.cross, c, p]
  have hr : √((inRotor c ⟨0, 1, 0⟩ ⟨0, 0, 1⟩ p).x^2 + (inRotor c ⟨0, 1, 0⟩ ⟨0, 0, 1⟩ p).y^2) = 250 := by
    rw [hx, show (⟨150, 200, -600⟩ : V3 ℝ).x^2 + (⟨150, 200, -600⟩ : V3 ℝ).y^2 = 250^2 by norm_num]; exact sqrt_sq (by norm_num)
  have hn : V3.norm (p - c) = 650 := by
    unfold V3.norm
    rw [show (p - c).x^2 + (p - c).y^2 + (p - c).z^2 = 650^2 by norm_num [p, c]]; exact sqrt_sq (by norm_num)
  have h1 : OffEdge 50 c ⟨0, 1, 0⟩ ⟨0, 0, 1⟩ p := by
    unfold OffEdge; simp only [hr]; norm_num
  have h2 : OutsideWake 50 c ⟨0, 1, 0⟩ ⟨0, 0, 1⟩ p := by
    unfold OutsideWake; simp only [hr]; norm_num
  have h3 : ResolvedPoint c ⟨0, 1, 0⟩ ⟨0, 0, 1⟩ p := by
    unfold ResolvedPoint; simp only [hr]; rw [hx]; norm_num
  refine ⟨Or.inr (Or.inl ⟨rfl, h1, fun _ => ⟨h2, h3⟩⟩), Or.inr (Or.inr ⟨rfl, by norm_num, by rw [hn]; norm_num, h1, h2⟩), by rw [hn]; norm_num⟩

end
end Wiz
