import Verif.Lemmas.Expand
import Verif.Lemmas.Ring
/-! # Fields near the axis -/
namespace Wiz
open Spec Real MeasureTheory Set

variable {R x y z r a : ℝ}

/-- the distances of a point near the axis to the rim -/
theorem axis_dist (hR : 0 < R) (hr0 : 0 ≤ r) (hr : r^2 = x^2 + y^2) (hrR : r ≤ R/5) (ha : 0 < a) (ha2 : a^2 = R^2 + z^2) (θ : ℝ) :
    V3.norm ((⟨x, y, z⟩ : V3 ℝ) - rim R θ)^2 - a^2 = r^2 - 2*R*(x * cos θ + y * sin θ) ∧
    0 < V3.norm ((⟨x, y, z⟩ : V3 ℝ) - rim R θ) ∧
    |V3.norm ((⟨x, y, z⟩ : V3 ℝ) - rim R θ)^2 - a^2| ≤ a^2/2 ∧
    (V3.norm ((⟨x, y, z⟩ : V3 ℝ) - rim R θ)^2 - a^2)^2 ≤ 5 * R^2 * r^2 ∧ |x * cos θ + y * sin θ| ≤ r := by
  have hsc := sin_sq_add_cos_sq θ
  have hw : |x * cos θ + y * sin θ| ≤ r := by
    apply abs_le_of_sq_le_sq _ hr0
    rw [hr]; nlinarith [sq_nonneg (x * sin θ - y * cos θ)]
  have e : V3.norm ((⟨x, y, z⟩ : V3 ℝ) - rim R θ)^2 = (x - R*cos θ)^2 + (y - R*sin θ)^2 + z^2 := by
    unfold V3.norm rim
    simp only [V3.sub_x, V3.sub_y, V3.sub_z]
    rw [sq_sqrt (by positivity)]; ring
  have e1 : V3.norm ((⟨x, y, z⟩ : V3 ℝ) - rim R θ)^2 - a^2 = r^2 - 2*R*(x * cos θ + y * sin θ) := by
    rw [e, ha2, hr]; linear_combination R^2 * hsc
  obtain ⟨w1, w2⟩ := abs_le.mp hw
  have hh : |r^2 - 2*R*(x * cos θ + y * sin θ)| ≤ 11/5 * (R * r) := by
    rw [abs_le]
    constructor <;> nlinarith
  have hRr : R * r ≤ R^2/5 := by nlinarith
  have hh2 : |V3.norm ((⟨x, y, z⟩ : V3 ℝ) - rim R θ)^2 - a^2| ≤ a^2/2 := by
    rw [e1]; refine hh.trans ?_; rw [ha2]; nlinarith [sq_nonneg z, sq_nonneg R]
  refine ⟨e1, ?_, hh2, ?_, hw⟩
  · have : 0 < V3.norm ((⟨x, y, z⟩ : V3 ℝ) - rim R θ)^2 := by
      have := (abs_le.mp hh2).1
      nlinarith [sq_nonneg z, sq_pos_of_pos ha]
    have h0 : 0 ≤ V3.norm ((⟨x, y, z⟩ : V3 ℝ) - rim R θ) := Real.sqrt_nonneg _
    rcases h0.lt_or_eq with h | h
    · exact h
    · rw [← h] at this; norm_num at this
  · rw [e1, ← sq_abs]
    calc |r^2 - 2*R*(x * cos θ + y * sin θ)|^2 ≤ (11/5 * (R * r))^2 := by gcongr
      _ ≤ 5 * R^2 * r^2 := by nlinarith [sq_nonneg (R*r)]

theorem offWake_axis' (hR : 0 < R) (hr0 : 0 ≤ r) (hr : r^2 = x^2 + y^2) (hrR : r ≤ R/5) : OffWake R 0 ⟨x, y, z⟩ := by
  have := offWake_disk hR (show x^2 + y^2 < R^2 by nlinarith) 0 z
  rwa [zero_mul, add_zero] at this

theorem skewDir_zero : skewDir 0 = ⟨0, 0, 1⟩ := by simp [skewDir]

theorem cont_rim_norm : Continuous fun θ => V3.norm ((⟨x, y, z⟩ : V3 ℝ) - rim R θ) := by
  unfold V3.norm rim
  simp only [V3.sub_x, V3.sub_y, V3.sub_z]
  fun_prop

/-- generators of the straight sheet -/
theorem gen_straight (γ : ℝ) (hoff : OffWake R 0 ⟨x, y, z⟩) (θ : ℝ) : ∃ n, n = V3.norm ((⟨x, y, z⟩ : V3 ℝ) - rim R θ) ∧
    0 < n ∧ 0 < n - z ∧ n^2 = (x - R*cos θ)^2 + (y - R*sin θ)^2 + z^2 ∧
    (tangGenerator γ R 0 ⟨x, y, z⟩ θ).x = -(γ*R/(4*π)) * (cos θ * (1/n)) ∧
    (tangGenerator γ R 0 ⟨x, y, z⟩ θ).y = -(γ*R/(4*π)) * (sin θ * (1/n)) ∧
    (tangGenerator γ R 0 ⟨x, y, z⟩ θ).z = γ/(4*π) * ((R^2 - R*(x * cos θ + y * sin θ))/(n * (n - z))) := by
  have hsc := sin_sq_add_cos_sq θ
  have hpi := pi_pos
  have hg := tangGenerator_eval (γ := γ) (offWake_pos hoff θ).1 (offWake_pos hoff θ).2
  have hp := offWake_pos hoff θ
  rw [skewDir_zero] at *
  have hd : V3.dot ((⟨x,y,z⟩ : V3 ℝ) - rim R θ) ⟨0,0,1⟩ = z := by
    simp only [V3.dot, rim, V3.sub_x, V3.sub_y, V3.sub_z]; ring
  rw [hd] at hg hp
  clear hd
  refine ⟨_, rfl, hp.1, hp.2, ?_, ?_, ?_, ?_⟩
  · unfold V3.norm rim
    simp only [V3.sub_x, V3.sub_y, V3.sub_z]
    rw [sq_sqrt (by positivity)]; ring
  all_goals
    rw [hg]
    have h1 := hp.1.ne'
    have h2 := hp.2.ne'
    generalize V3.norm ((⟨x,y,z⟩ : V3 ℝ) - rim R θ) = n at *
    simp only [V3.smul_x, V3.smul_y, V3.smul_z, V3.sub_x, V3.sub_y, V3.sub_z, V3.cross, rimTangent, rim]
    field_simp
  · ring
  · ring
  · linear_combination γ * R^2 * hsc

/-- straight sheet near its axis, transverse velocity -/
theorem cyl_near_axis_xy (γ : ℝ) (hR : 0 < R) (hr0 : 0 ≤ r) (hr : r^2 = x^2 + y^2) (hrR : r ≤ R/5) (ha : 0 < a) (ha2 : a^2 = R^2 + z^2) :
    |(skewTangField γ R 0 ⟨x, y, z⟩).x - -(γ/4 * (x * R^2/a^3))| ≤ 5/2 * |γ| * (R^3 * r^2/a^5) ∧
    |(skewTangField γ R 0 ⟨x, y, z⟩).y - -(γ/4 * (y * R^2/a^3))| ≤ 5/2 * |γ| * (R^3 * r^2/a^5) := by
  have hpi := pi_pos
  have hoff : OffWake R 0 ⟨x, y, z⟩ := offWake_axis' hR hr0 hr hrR
  have hcn : Continuous fun θ => 1/V3.norm ((⟨x, y, z⟩ : V3 ℝ) - rim R θ) :=
    continuous_const.div cont_rim_norm fun θ => (axis_dist hR hr0 hr hrR ha ha2 θ).2.1.ne'
  have hb : ∀ θ, |1/V3.norm ((⟨x, y, z⟩ : V3 ℝ) - rim R θ) - (1/a - (r^2 - 2*R*(x * cos θ + y * sin θ))/(2*a^3))| ≤ 5 * R^2 * r^2/a^5 := by
    intro θ
    obtain ⟨e1, e2, e3, e4, -⟩ := axis_dist hR hr0 hr hrR ha ha2 θ
    have := inv1_expand ha e2 e3
    rw [e1] at this e4
    exact this.trans (by gcongr)
  have hK : 0 ≤ 5 * R^2 * r^2/a^5 := by positivity
  constructor
  · have k := int_close (f := fun θ => cos θ * (1/V3.norm ((⟨x, y, z⟩ : V3 ℝ) - rim R θ))) (continuous_cos.mul hcn)
      0 (1/a - r^2/(2*a^3)) 0 (R*x/a^3) 0 (R*y/a^3) (5 * R^2 * r^2/a^5) (fun θ => by
        rw [show cos θ * (1/V3.norm ((⟨x, y, z⟩ : V3 ℝ) - rim R θ)) - (0 + (1/a - r^2/(2*a^3)) * cos θ + 0 * sin θ + R*x/a^3 * cos θ^2 + 0 * sin θ^2 + R*y/a^3 * (sin θ * cos θ))
          = cos θ * (1/V3.norm ((⟨x, y, z⟩ : V3 ℝ) - rim R θ) - (1/a - (r^2 - 2*R*(x * cos θ + y * sin θ))/(2*a^3))) by field_simp; ring, abs_mul]
        calc |cos θ| * _ ≤ 1 * (5 * R^2 * r^2/a^5) := mul_le_mul (abs_cos_le_one θ) (hb θ) (abs_nonneg _) zero_le_one
          _ = _ := one_mul _)
    have e : (skewTangField γ R 0 ⟨x, y, z⟩).x = -(γ*R/(4*π)) * ∫ θ in Ioc 0 (2*π), cos θ * (1/V3.norm ((⟨x, y, z⟩ : V3 ℝ) - rim R θ)) := by
      simp only [skewTangField, vint]
      rw [← integral_const_mul]
      congr 1; funext θ
      obtain ⟨n, hn, -, -, -, h1, -⟩ := gen_straight γ hoff θ
      rw [h1, hn]
    rw [e]
    generalize (∫ θ in Ioc 0 (2*π), cos θ * (1/V3.norm ((⟨x, y, z⟩ : V3 ℝ) - rim R θ))) = I at *
    rw [show -(γ*R/(4*π)) * I - -(γ/4 * (x * R^2/a^3)) = -(γ*R/(4*π)) * (I - (2*π*0 + π*(R*x/a^3 + 0))) by field_simp; ring, abs_mul, abs_neg, abs_div, abs_mul,
      abs_of_pos hR, abs_of_pos (by positivity : 0 < 4*π)]
    calc |γ| * R/(4*π) * |I - (2*π*0 + π*(R*x/a^3 + 0))| ≤ |γ| * R/(4*π) * (2*π*(5 * R^2 * r^2/a^5)) := by gcongr
      _ = 5/2 * |γ| * (R^3 * r^2/a^5) := by field_simp; ring
  · have k := int_close (f := fun θ => sin θ * (1/V3.norm ((⟨x, y, z⟩ : V3 ℝ) - rim R θ))) (continuous_sin.mul hcn)
      0 0 (1/a - r^2/(2*a^3)) 0 (R*y/a^3) (R*x/a^3) (5 * R^2 * r^2/a^5) (fun θ => by
        rw [show sin θ * (1/V3.norm ((⟨x, y, z⟩ : V3 ℝ) - rim R θ)) - (0 + 0 * cos θ + (1/a - r^2/(2*a^3)) * sin θ + 0 * cos θ^2 + R*y/a^3 * sin θ^2 + R*x/a^3 * (sin θ * cos θ))
          = sin θ * (1/V3.norm ((⟨x, y, z⟩ : V3 ℝ) - rim R θ) - (1/a - (r^2 - 2*R*(x * cos θ + y * sin θ))/(2*a^3))) by field_simp; ring, abs_mul]
        calc |sin θ| * _ ≤ 1 * (5 * R^2 * r^2/a^5) := mul_le_mul (abs_sin_le_one θ) (hb θ) (abs_nonneg _) zero_le_one
          _ = _ := one_mul _)
    have e : (skewTangField γ R 0 ⟨x, y, z⟩).y = -(γ*R/(4*π)) * ∫ θ in Ioc 0 (2*π), sin θ * (1/V3.norm ((⟨x, y, z⟩ : V3 ℝ) - rim R θ)) := by
      simp only [skewTangField, vint]
      rw [← integral_const_mul]
      congr 1; funext θ
      obtain ⟨n, hn, -, -, -, -, h1, -⟩ := gen_straight γ hoff θ
      rw [h1, hn]
    rw [e]
    generalize (∫ θ in Ioc 0 (2*π), sin θ * (1/V3.norm ((⟨x, y, z⟩ : V3 ℝ) - rim R θ))) = I at *
    rw [show -(γ*R/(4*π)) * I - -(γ/4 * (y * R^2/a^3)) = -(γ*R/(4*π)) * (I - (2*π*0 + π*(0 + R*y/a^3))) by field_simp; ring, abs_mul, abs_neg, abs_div, abs_mul,
      abs_of_pos hR, abs_of_pos (by positivity : 0 < 4*π)]
    calc |γ| * R/(4*π) * |I - (2*π*0 + π*(0 + R*y/a^3))| ≤ |γ| * R/(4*π) * (2*π*(5 * R^2 * r^2/a^5)) := by gcongr
      _ = 5/2 * |γ| * (R^3 * r^2/a^5) := by field_simp; ring

/-- straight sheet near its axis, axial velocity -/
theorem cyl_near_axis_z (γ : ℝ) (hR : 0 < R) (hr0 : 0 ≤ r) (hr : r^2 = x^2 + y^2) (hrR : r ≤ R/5) (ha : 0 < a) (ha2 : a^2 = R^2 + z^2) :
    |(skewTangField γ R 0 ⟨x, y, z⟩).z - γ/2 * (1 + z/a)| ≤ 5/2 * |γ| * (|z| * R^2 * r^2/a^5) := by
  have hpi := pi_pos
  have hoff : OffWake R 0 ⟨x, y, z⟩ := offWake_axis' hR hr0 hr hrR
  have hdisk : x^2 + y^2 < R^2 := by nlinarith
  set N := fun θ => V3.norm ((⟨x, y, z⟩ : V3 ℝ) - rim R θ) with hN
  set K := fun θ => R * (R - x * cos θ - y * sin θ)/((R * cos θ - x)^2 + (R * sin θ - y)^2) with hK
  have hρ : ∀ θ, 0 < (R * cos θ - x)^2 + (R * sin θ - y)^2 := by
    intro θ
    obtain ⟨n, hn, hn2, -⟩ := seen_trig hR hdisk θ
    rw [← hn2]; positivity
  have hKc : Continuous K := by
    rw [hK]; exact Continuous.div (by fun_prop) (by fun_prop) fun θ => (hρ θ).ne'
  have hK0 : ∀ θ, 0 < K θ := fun θ => div_pos (mul_pos hR (seen_p hR hdisk θ)) (hρ θ)
  have hKi : ∫ θ in Ioc 0 (2*π), K θ = 2*π := by
    rw [seen_subst hR hdisk (fun _ => 1) continuous_const (fun _ => rfl) K (fun θ n hn hn2 _ _ => by rw [hK, hn2]; ring)]
    simp
  have hN0 : ∀ θ, 0 < N θ := fun θ => (axis_dist hR hr0 hr hrR ha ha2 θ).2.1
  have hNc : Continuous fun θ => 1/N θ := continuous_const.div cont_rim_norm fun θ => (hN0 θ).ne'
  have hN2 : ∀ θ, N θ^2 = (R * cos θ - x)^2 + (R * sin θ - y)^2 + z^2 := by
    intro θ
    obtain ⟨n, hn, -, -, h2, -⟩ := gen_straight 0 hoff θ
    rw [hN]; simp only; rw [← hn, h2]; ring
  have hb : ∀ θ, |1/N θ - (1/a - (r^2 - 2*R*(x * cos θ + y * sin θ))/(2*a^3))| ≤ 5 * R^2 * r^2/a^5 := by
    intro θ
    obtain ⟨e1, e2, e3, e4, -⟩ := axis_dist hR hr0 hr hrR ha ha2 θ
    have := inv1_expand ha e2 e3
    rw [e1] at this e4
    exact this.trans (by gcongr)
  -- the generators
  have hgen : ∀ θ, (tangGenerator γ R 0 ⟨x, y, z⟩ θ).z = γ/(4*π) * (K θ + z * (K θ * (1/N θ))) := by
    intro θ
    obtain ⟨n, hn, h1, h2, h3, -, -, h4⟩ := gen_straight γ hoff θ
    have hn' : N θ = n := hn.symm
    have hρn : (R * cos θ - x)^2 + (R * sin θ - y)^2 = (n - z) * (n + z) := by
      have := hN2 θ; rw [hn'] at this; linear_combination -this
    have hnz : n + z ≠ 0 := by
      have := hρ θ; rw [hρn] at this
      exact (pos_of_mul_pos_right this h2.le).ne'
    rw [h4, hn', hK]
    simp only [hρn]
    have := h1.ne'; have := h2.ne'
    field_simp
    ring
  -- the part linear in `1/a`
  have hi1 : IntegrableOn K (Ioc 0 (2*π)) := hKc.integrableOn_Ioc
  have hi2 : IntegrableOn (fun θ => K θ * (1/N θ)) (Ioc 0 (2*π)) := (hKc.mul hNc).integrableOn_Ioc
  have hz : (skewTangField γ R 0 ⟨x, y, z⟩).z = γ/(4*π) * (2*π + z * ∫ θ in Ioc 0 (2*π), K θ * (1/N θ)) := by
    simp only [skewTangField, vint, hgen]
    rw [integral_const_mul, integral_add hi1 (hi2.const_mul z), hKi, integral_const_mul]
  -- `∫ h K = 0`
  have hi3 : ∫ θ in Ioc 0 (2*π), K θ * (1/a - (r^2 - 2*R*(x * cos θ + y * sin θ))/(2*a^3)) = 2*π/a := by
    have e : ∀ θ, K θ * (1/a - (r^2 - 2*R*(x * cos θ + y * sin θ))/(2*a^3))
        = (1/a + R^2/(2*a^3)) * K θ - R * (R - x * cos θ - y * sin θ)/(2*a^3) := by
      intro θ
      have hsc := sin_sq_add_cos_sq θ
      have h1 : K θ * ((R * cos θ - x)^2 + (R * sin θ - y)^2) = R * (R - x * cos θ - y * sin θ) := by
        rw [hK]; simp only; have := (hρ θ).ne'; field_simp
      have h2 : r^2 - 2*R*(x * cos θ + y * sin θ) = ((R * cos θ - x)^2 + (R * sin θ - y)^2) - R^2 := by
        rw [hr]; linear_combination (-R^2) * hsc
      rw [h2, ← h1]; ring
    simp only [e]
    rw [integral_sub (hi1.const_mul _) (Continuous.integrableOn_Ioc (by fun_prop)), integral_const_mul, hKi, integral_div]
    have : ∫ θ in Ioc 0 (2*π), R * (R - x * cos θ - y * sin θ) = R * R * (2*π) := by
      have := int_close (f := fun θ => R * (R - x * cos θ - y * sin θ)) (by fun_prop) (R*R) (-(R*x)) (-(R*y)) 0 0 0 0 (fun θ => by
        rw [abs_nonpos_iff]; ring)
      rw [mul_zero, abs_nonpos_iff] at this
      linarith
    rw [this]
    field_simp
    ring
  have hdiff : |(∫ θ in Ioc 0 (2*π), K θ * (1/N θ)) - 2*π/a| ≤ 2*π * (5 * R^2 * r^2/a^5) := by
    rw [← hi3, ← integral_sub hi2 (Continuous.integrableOn_Ioc (by fun_prop))]
    have := norm_integral_le_of_norm_le (μ := volume.restrict (Ioc 0 (2*π))) (f := fun θ => K θ * (1/N θ) - K θ * (1/a - (r^2 - 2*R*(x * cos θ + y * sin θ))/(2*a^3)))
      (g := fun θ => (5 * R^2 * r^2/a^5) * K θ) (hi1.const_mul _) (Filter.Eventually.of_forall fun θ => by
        rw [← mul_sub, norm_mul, Real.norm_eq_abs, Real.norm_eq_abs, abs_of_pos (hK0 θ), mul_comm]
        exact mul_le_mul_of_nonneg_right (hb θ) (hK0 θ).le)
    rw [integral_const_mul, hKi, Real.norm_eq_abs] at this
    linarith
  rw [hz]
  generalize (∫ θ in Ioc 0 (2*π), K θ * (1/N θ)) = I at *
  rw [show γ/(4*π) * (2*π + z * I) - γ/2 * (1 + z/a) = γ * z/(4*π) * (I - 2*π/a) by field_simp; ring, abs_mul, abs_div, abs_mul, abs_of_pos (by positivity : 0 < 4*π)]
  calc |γ| * |z|/(4*π) * |I - 2*π/a| ≤ |γ| * |z|/(4*π) * (2*π * (5 * R^2 * r^2/a^5)) := by gcongr
    _ = 5/2 * |γ| * (|z| * R^2 * r^2/a^5) := by field_simp; ring
end Wiz
