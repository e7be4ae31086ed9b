import Verif.Lemmas.NearAxis
/-! # Field of a ring near its axis and far from it -/
namespace Wiz
open Spec Real MeasureTheory Set

variable {R x y z r a : ℝ}

/-- the three components of the ring field as integrals over the azimuth -/
theorem ringField_xyz (Γ R x y z : ℝ) : ringField Γ R ⟨x, y, z⟩ =
    ⟨Γ*R*z/(4*π) * ∫ θ in Ioc 0 (2*π), cos θ * (1/V3.norm ((⟨x, y, z⟩ : V3 ℝ) - rim R θ)^3),
     Γ*R*z/(4*π) * ∫ θ in Ioc 0 (2*π), sin θ * (1/V3.norm ((⟨x, y, z⟩ : V3 ℝ) - rim R θ)^3),
     Γ/(4*π) * ∫ θ in Ioc 0 (2*π), (R^2 - R*(x * cos θ + y * sin θ)) * (1/V3.norm ((⟨x, y, z⟩ : V3 ℝ) - rim R θ)^3)⟩ := by
  unfold ringField biotSavart vint bsKernel
  ext
  · simp only [V3.smul_x]
    rw [← integral_const_mul, ← integral_const_mul]
    congr 1; funext θ
    simp only [V3.smul_x, V3.cross, V3.sub_x, V3.sub_y, V3.sub_z, rim]
    ring
  · simp only [V3.smul_y]
    rw [← integral_const_mul, ← integral_const_mul]
    congr 1; funext θ
    simp only [V3.smul_y, V3.cross, V3.sub_x, V3.sub_y, V3.sub_z, rim]
    ring
  · simp only [V3.smul_z]
    rw [← integral_const_mul, ← integral_const_mul]
    congr 1; funext θ
    have hsc := sin_sq_add_cos_sq θ
    simp only [V3.smul_z, V3.cross, V3.sub_x, V3.sub_y, V3.sub_z, rim]
    rw [show -R * sin θ * (y - R * sin θ) - R * cos θ * (x - R * cos θ) = R^2 - R*(x * cos θ + y * sin θ) by linear_combination R^2 * hsc]
    ring

/-- Common expansion: the inverse cubes of the distances are, within `K`, linear in `cos θ` and `sin θ`. -/
theorem ring_expand (Γ : ℝ) {p q K M : ℝ} (hR : 0 < R)
    (h0 : ∀ θ, 0 < V3.norm ((⟨x, y, z⟩ : V3 ℝ) - rim R θ))
    (hb : ∀ θ, |1/V3.norm ((⟨x, y, z⟩ : V3 ℝ) - rim R θ)^3 - (p + q * (x * cos θ + y * sin θ))| ≤ K)
    (hM : ∀ θ, |R^2 - R*(x * cos θ + y * sin θ)| ≤ M) :
    |(ringField Γ R ⟨x, y, z⟩).x - Γ*R*z/4 * (q*x)| ≤ |Γ| * R * |z|/2 * K ∧
    |(ringField Γ R ⟨x, y, z⟩).y - Γ*R*z/4 * (q*y)| ≤ |Γ| * R * |z|/2 * K ∧
    |(ringField Γ R ⟨x, y, z⟩).z - Γ/4 * (2*R^2*p - R*q*(x^2+y^2))| ≤ |Γ|/2 * (M*K) := by
  have hpi := pi_pos
  have hcn : Continuous fun θ => 1/V3.norm ((⟨x, y, z⟩ : V3 ℝ) - rim R θ)^3 :=
    continuous_const.div (cont_rim_norm.pow 3) fun θ => (pow_pos (h0 θ) 3).ne'
  have hK : 0 ≤ K := (abs_nonneg _).trans (hb 0)
  have hM0 : 0 ≤ M := (abs_nonneg _).trans (hM 0)
  rw [ringField_xyz]
  simp only
  refine ⟨?_, ?_, ?_⟩
  · have k := int_close (f := fun θ => cos θ * (1/V3.norm ((⟨x, y, z⟩ : V3 ℝ) - rim R θ)^3)) (continuous_cos.mul hcn)
      0 p 0 (q*x) 0 (q*y) K (fun θ => by
        rw [show cos θ * (1/V3.norm ((⟨x, y, z⟩ : V3 ℝ) - rim R θ)^3) - (0 + p * cos θ + 0 * sin θ + q*x * cos θ^2 + 0 * sin θ^2 + q*y * (sin θ * cos θ))
          = cos θ * (1/V3.norm ((⟨x, y, z⟩ : V3 ℝ) - rim R θ)^3 - (p + q * (x * cos θ + y * sin θ))) by ring, abs_mul]
        calc |cos θ| * _ ≤ 1 * K := mul_le_mul (abs_cos_le_one θ) (hb θ) (abs_nonneg _) zero_le_one
          _ = _ := one_mul _)
    generalize (∫ θ in Ioc 0 (2*π), cos θ * (1/V3.norm ((⟨x, y, z⟩ : V3 ℝ) - rim R θ)^3)) = I at *
    rw [show Γ*R*z/(4*π) * I - Γ*R*z/4 * (q*x) = Γ*R*z/(4*π) * (I - (2*π*0 + π*(q*x + 0))) by field_simp; ring, abs_mul, abs_div, abs_mul, abs_mul,
      abs_of_pos hR, abs_of_pos (by positivity : 0 < 4*π)]
    calc |Γ| * R * |z|/(4*π) * |I - (2*π*0 + π*(q*x + 0))| ≤ |Γ| * R * |z|/(4*π) * (2*π*K) := by gcongr
      _ = _ := by field_simp; ring
  · have k := int_close (f := fun θ => sin θ * (1/V3.norm ((⟨x, y, z⟩ : V3 ℝ) - rim R θ)^3)) (continuous_sin.mul hcn)
      0 0 p 0 (q*y) (q*x) K (fun θ => by
        rw [show sin θ * (1/V3.norm ((⟨x, y, z⟩ : V3 ℝ) - rim R θ)^3) - (0 + 0 * cos θ + p * sin θ + 0 * cos θ^2 + q*y * sin θ^2 + q*x * (sin θ * cos θ))
          = sin θ * (1/V3.norm ((⟨x, y, z⟩ : V3 ℝ) - rim R θ)^3 - (p + q * (x * cos θ + y * sin θ))) by ring, abs_mul]
        calc |sin θ| * _ ≤ 1 * K := mul_le_mul (abs_sin_le_one θ) (hb θ) (abs_nonneg _) zero_le_one
          _ = _ := one_mul _)
    generalize (∫ θ in Ioc 0 (2*π), sin θ * (1/V3.norm ((⟨x, y, z⟩ : V3 ℝ) - rim R θ)^3)) = I at *
    rw [show Γ*R*z/(4*π) * I - Γ*R*z/4 * (q*y) = Γ*R*z/(4*π) * (I - (2*π*0 + π*(0 + q*y))) by field_simp; ring, abs_mul, abs_div, abs_mul, abs_mul,
      abs_of_pos hR, abs_of_pos (by positivity : 0 < 4*π)]
    calc |Γ| * R * |z|/(4*π) * |I - (2*π*0 + π*(0 + q*y))| ≤ |Γ| * R * |z|/(4*π) * (2*π*K) := by gcongr
      _ = _ := by field_simp; ring
  · have k := int_close (f := fun θ => (R^2 - R*(x * cos θ + y * sin θ)) * (1/V3.norm ((⟨x, y, z⟩ : V3 ℝ) - rim R θ)^3))
      (Continuous.mul (by fun_prop) hcn)
      (R^2*p) (R^2*q*x - R*p*x) (R^2*q*y - R*p*y) (-(R*q*x^2)) (-(R*q*y^2)) (-(2*R*q*x*y)) (M*K) (fun θ => by
        rw [show (R^2 - R*(x * cos θ + y * sin θ)) * (1/V3.norm ((⟨x, y, z⟩ : V3 ℝ) - rim R θ)^3)
            - (R^2*p + (R^2*q*x - R*p*x) * cos θ + (R^2*q*y - R*p*y) * sin θ + -(R*q*x^2) * cos θ^2 + -(R*q*y^2) * sin θ^2 + -(2*R*q*x*y) * (sin θ * cos θ))
          = (R^2 - R*(x * cos θ + y * sin θ)) * (1/V3.norm ((⟨x, y, z⟩ : V3 ℝ) - rim R θ)^3 - (p + q * (x * cos θ + y * sin θ))) by ring, abs_mul]
        exact mul_le_mul (hM θ) (hb θ) (abs_nonneg _) hM0)
    generalize (∫ θ in Ioc 0 (2*π), (R^2 - R*(x * cos θ + y * sin θ)) * (1/V3.norm ((⟨x, y, z⟩ : V3 ℝ) - rim R θ)^3)) = I at *
    rw [show Γ/(4*π) * I - Γ/4 * (2*R^2*p - R*q*(x^2+y^2)) = Γ/(4*π) * (I - (2*π*(R^2*p) + π*(-(R*q*x^2) + -(R*q*y^2)))) by field_simp; ring, abs_mul, abs_div,
      abs_of_pos (by positivity : 0 < 4*π)]
    calc |Γ|/(4*π) * |I - (2*π*(R^2*p) + π*(-(R*q*x^2) + -(R*q*y^2)))| ≤ |Γ|/(4*π) * (2*π*(M*K)) := by gcongr
      _ = _ := by field_simp; ring

/-- ring near its axis -/
theorem ring_near_axis (Γ : ℝ) (hR : 0 < R) (hr0 : 0 ≤ r) (hr : r^2 = x^2 + y^2) (hrR : r ≤ R/5) (ha : 0 < a) (ha2 : a^2 = R^2 + z^2) :
    |(ringField Γ R ⟨x, y, z⟩).x - 3*Γ*R^2*x*z/(4*a^5)| ≤ 40 * |Γ| * (R^2 * r^2/a^5) ∧
    |(ringField Γ R ⟨x, y, z⟩).y - 3*Γ*R^2*y*z/(4*a^5)| ≤ 40 * |Γ| * (R^2 * r^2/a^5) ∧
    |(ringField Γ R ⟨x, y, z⟩).z - Γ*R^2/(2*a^3)| ≤ 40 * |Γ| * (R^2 * r^2/a^5) := by
  have hb : ∀ θ, |1/V3.norm ((⟨x, y, z⟩ : V3 ℝ) - rim R θ)^3 - ((1/a^3 - 3*r^2/(2*a^5)) + (3*R/a^5) * (x * cos θ + y * sin θ))| ≤ 60 * R^2 * r^2/a^7 := by
    intro θ
    obtain ⟨e1, e2, e3, e4, -⟩ := axis_dist hR hr0 hr hrR ha ha2 θ
    have := inv3_expand ha e2 e3
    rw [e1] at this e4
    rw [show (1/a^3 - 3*r^2/(2*a^5)) + (3*R/a^5) * (x * cos θ + y * sin θ) = 1/a^3 - 3*(r^2 - 2*R*(x * cos θ + y * sin θ))/(2*a^5) by field_simp; ring]
    refine this.trans ?_
    rw [show 60 * R^2 * r^2 = 12 * (5 * R^2 * r^2) by ring]
    gcongr
  have hM : ∀ θ, |R^2 - R*(x * cos θ + y * sin θ)| ≤ 6/5 * R^2 := by
    intro θ
    obtain ⟨-, -, -, -, hw⟩ := axis_dist hR hr0 hr hrR ha ha2 θ
    obtain ⟨w1, w2⟩ := abs_le.mp hw
    rw [abs_le]; constructor <;> nlinarith
  obtain ⟨k1, k2, k3⟩ := ring_expand Γ hR (fun θ => (axis_dist hR hr0 hr hrR ha ha2 θ).2.1) hb hM
  have hRz : R * |z| ≤ a^2 := by rw [ha2]; nlinarith [sq_nonneg (R - |z|), sq_abs z]
  have hRa : R^2 ≤ a^2 := by rw [ha2]; nlinarith [sq_nonneg z]
  have hbnd : |Γ| * R * |z|/2 * (60 * R^2 * r^2/a^7) ≤ 40 * |Γ| * (R^2 * r^2/a^5) := by
    calc |Γ| * R * |z|/2 * (60 * R^2 * r^2/a^7) = 30 * |Γ| * (R^2 * r^2/a^7) * (R * |z|) := by ring
      _ ≤ 30 * |Γ| * (R^2 * r^2/a^7) * a^2 := by gcongr
      _ = 30 * |Γ| * (R^2 * r^2/a^5) := by field_simp
      _ ≤ 40 * |Γ| * (R^2 * r^2/a^5) := by gcongr; norm_num
  refine ⟨?_, ?_, ?_⟩
  · refine le_trans (le_of_eq ?_) (k1.trans hbnd)
    congr 2; field_simp
  · refine le_trans (le_of_eq ?_) (k2.trans hbnd)
    congr 2; field_simp
  · rw [← hr] at k3
    have e : Γ/4 * (2*R^2*(1/a^3 - 3*r^2/(2*a^5)) - R*(3*R/a^5)*r^2) = Γ*R^2/(2*a^3) - 3/2*Γ*(R^2*r^2/a^5) := by field_simp; ring
    rw [e] at k3
    have t : |Γ|/2 * (6/5 * R^2 * (60 * R^2 * r^2/a^7)) ≤ 36 * |Γ| * (R^2 * r^2/a^5) := by
      calc |Γ|/2 * (6/5 * R^2 * (60 * R^2 * r^2/a^7)) = 36 * |Γ| * (R^2 * r^2/a^7) * R^2 := by ring
        _ ≤ 36 * |Γ| * (R^2 * r^2/a^7) * a^2 := by gcongr
        _ = 36 * |Γ| * (R^2 * r^2/a^5) := by field_simp
    have t2 : |3/2*Γ*(R^2*r^2/a^5)| = 3/2 * |Γ| * (R^2*r^2/a^5) := by
      rw [abs_mul, abs_mul, abs_of_pos (by norm_num : (0:ℝ) < 3/2), abs_of_nonneg (by positivity : 0 ≤ R^2*r^2/a^5)]
    have hpos : 0 ≤ |Γ| * (R^2*r^2/a^5) := by positivity
    calc |(ringField Γ R ⟨x, y, z⟩).z - Γ*R^2/(2*a^3)|
        = |((ringField Γ R ⟨x, y, z⟩).z - (Γ*R^2/(2*a^3) - 3/2*Γ*(R^2*r^2/a^5))) - 3/2*Γ*(R^2*r^2/a^5)| := by congr 1; ring
      _ ≤ |(ringField Γ R ⟨x, y, z⟩).z - (Γ*R^2/(2*a^3) - 3/2*Γ*(R^2*r^2/a^5))| + |3/2*Γ*(R^2*r^2/a^5)| := abs_sub _ _
      _ ≤ 40 * |Γ| * (R^2 * r^2/a^5) := by rw [t2]; have := k3.trans t; nlinarith

/-- Far from it a ring is a doublet of moment `Γ π R²` along its axis. -/
theorem ring_far (Γ : ℝ) {d : ℝ} (hR : 0 < R) (hd : 5 * R ≤ d) (hd2 : d^2 = x^2 + y^2 + z^2) :
    |(ringField Γ R ⟨x, y, z⟩).x - (doubletField ⟨0, 0, Γ*(π*R^2)⟩ 0 ⟨x, y, z⟩).x| ≤ 40 * |Γ| * (R^3/d^4) ∧
    |(ringField Γ R ⟨x, y, z⟩).y - (doubletField ⟨0, 0, Γ*(π*R^2)⟩ 0 ⟨x, y, z⟩).y| ≤ 40 * |Γ| * (R^3/d^4) ∧
    |(ringField Γ R ⟨x, y, z⟩).z - (doubletField ⟨0, 0, Γ*(π*R^2)⟩ 0 ⟨x, y, z⟩).z| ≤ 40 * |Γ| * (R^3/d^4) := by
  have hpi := pi_pos
  have hd0 : 0 < d := by linarith
  have hw : ∀ θ, |x * cos θ + y * sin θ| ≤ d := by
    intro θ
    have hsc := sin_sq_add_cos_sq θ
    apply abs_le_of_sq_le_sq _ hd0.le
    rw [hd2]; nlinarith [sq_nonneg (x * sin θ - y * cos θ), sq_nonneg z]
  have e1 : ∀ θ, V3.norm ((⟨x, y, z⟩ : V3 ℝ) - rim R θ)^2 - d^2 = R^2 - 2*R*(x * cos θ + y * sin θ) := by
    intro θ
    have hsc := sin_sq_add_cos_sq θ
    unfold V3.norm rim
    simp only [V3.sub_x, V3.sub_y, V3.sub_z]
    rw [sq_sqrt (by positivity), hd2]; linear_combination R^2 * hsc
  have hh : ∀ θ, |R^2 - 2*R*(x * cos θ + y * sin θ)| ≤ 11/5 * (R * d) := by
    intro θ
    obtain ⟨w1, w2⟩ := abs_le.mp (hw θ)
    rw [abs_le]; constructor <;> nlinarith
  have hh2 : ∀ θ, |V3.norm ((⟨x, y, z⟩ : V3 ℝ) - rim R θ)^2 - d^2| ≤ d^2/2 := by
    intro θ
    rw [e1]; refine (hh θ).trans ?_; nlinarith
  have hsq : ∀ θ, (R^2 - 2*R*(x * cos θ + y * sin θ))^2 ≤ 121/25 * (R^2 * d^2) := by
    intro θ
    rw [← sq_abs]
    calc |R^2 - 2*R*(x * cos θ + y * sin θ)|^2 ≤ (11/5 * (R * d))^2 := by gcongr; exact hh θ
      _ = 121/25 * (R^2 * d^2) := by ring
  have h0 : ∀ θ, 0 < V3.norm ((⟨x, y, z⟩ : V3 ℝ) - rim R θ) := by
    intro θ
    have : 0 < V3.norm ((⟨x, y, z⟩ : V3 ℝ) - rim R θ)^2 := by
      have := (abs_le.mp (hh2 θ)).1
      nlinarith [sq_pos_of_pos hd0]
    have h0 : 0 ≤ V3.norm ((⟨x, y, z⟩ : V3 ℝ) - rim R θ) := Real.sqrt_nonneg _
    rcases h0.lt_or_eq with h | h
    · exact h
    · rw [← h] at this; norm_num at this
  have hb : ∀ θ, |1/V3.norm ((⟨x, y, z⟩ : V3 ℝ) - rim R θ)^3 - ((1/d^3 - 3*R^2/(2*d^5)) + (3*R/d^5) * (x * cos θ + y * sin θ))| ≤ 12 * (121/25) * R^2/d^5 := by
    intro θ
    have := inv3_expand hd0 (h0 θ) (hh2 θ)
    rw [e1] at this
    rw [show (1/d^3 - 3*R^2/(2*d^5)) + (3*R/d^5) * (x * cos θ + y * sin θ) = 1/d^3 - 3*(R^2 - 2*R*(x * cos θ + y * sin θ))/(2*d^5) by field_simp; ring]
    refine this.trans ?_
    calc 12 * (R^2 - 2*R*(x * cos θ + y * sin θ))^2/d^7 ≤ 12 * (121/25 * (R^2 * d^2))/d^7 := by gcongr; exact hsq θ
      _ = 12 * (121/25) * R^2/d^5 := by field_simp
  have hM : ∀ θ, |R^2 - R*(x * cos θ + y * sin θ)| ≤ 6/5 * (R * d) := by
    intro θ
    obtain ⟨w1, w2⟩ := abs_le.mp (hw θ)
    rw [abs_le]; constructor <;> nlinarith
  obtain ⟨k1, k2, k3⟩ := ring_expand Γ hR h0 hb hM
  have hz : |z| ≤ d := abs_le_of_sq_le_sq (by rw [hd2]; nlinarith [sq_nonneg x, sq_nonneg y]) hd0.le
  have hn : V3.norm ((⟨x, y, z⟩ : V3 ℝ) - 0) = d := by
    unfold V3.norm
    simp only [V3.sub_x, V3.sub_y, V3.sub_z, V3.zero_x, V3.zero_y, V3.zero_z, sub_zero]
    rw [← hd2, sqrt_sq hd0.le]
  have hbnd : |Γ| * R * |z|/2 * (12 * (121/25) * R^2/d^5) ≤ 40 * |Γ| * (R^3/d^4) := by
    calc |Γ| * R * |z|/2 * (12 * (121/25) * R^2/d^5) = 726/25 * |Γ| * (R^3/d^5) * |z| := by ring
      _ ≤ 726/25 * |Γ| * (R^3/d^5) * d := by gcongr
      _ = 726/25 * |Γ| * (R^3/d^4) := by field_simp
      _ ≤ 40 * |Γ| * (R^3/d^4) := by gcongr; norm_num
  unfold doubletField
  simp only [hn, V3.smul_x, V3.smul_y, V3.smul_z, V3.sub_x, V3.sub_y, V3.sub_z, V3.dot, V3.zero_x, V3.zero_y, V3.zero_z, sub_zero, zero_mul, mul_zero, zero_add]
  refine ⟨?_, ?_, ?_⟩
  · refine le_trans (le_of_eq ?_) (k1.trans hbnd)
    congr 2; field_simp
  · refine le_trans (le_of_eq ?_) (k2.trans hbnd)
    congr 2; field_simp
  · have e : Γ/4 * (2*R^2*(1/d^3 - 3*R^2/(2*d^5)) - R*(3*R/d^5)*(x^2+y^2))
        = 1/(4*π) * (3 * (Γ*(π*R^2)*z)/d^5 * z - 1/d^3 * (Γ*(π*R^2))) - 3/4*Γ*(R^4/d^5) := by
      rw [show x^2 + y^2 = d^2 - z^2 by rw [hd2]; ring]
      field_simp; ring
    rw [e] at k3
    have t : |Γ|/2 * (6/5 * (R * d) * (12 * (121/25) * R^2/d^5)) ≤ 35 * |Γ| * (R^3/d^4) := by
      calc |Γ|/2 * (6/5 * (R * d) * (12 * (121/25) * R^2/d^5)) = 4356/125 * |Γ| * (R^3/d^4) := by field_simp; ring
        _ ≤ 35 * |Γ| * (R^3/d^4) := by gcongr; norm_num
    have t2 : |3/4*Γ*(R^4/d^5)| ≤ 3/4 * |Γ| * (R^3/d^4) := by
      rw [abs_mul, abs_mul, abs_of_pos (by norm_num : (0:ℝ) < 3/4), abs_of_nonneg (by positivity : 0 ≤ R^4/d^5)]
      have : R^4/d^5 ≤ R^3/d^4 := by
        rw [div_le_div_iff₀ (by positivity) (by positivity)]
        have : R ≤ d := by linarith
        calc R^4 * d^4 = R^3 * d^4 * R := by ring
          _ ≤ R^3 * d^4 * d := by gcongr
          _ = R^3 * d^5 := by ring
      gcongr
    have hpos : 0 ≤ |Γ| * (R^3/d^4) := by positivity
    generalize 1/(4*π) * (3 * (Γ*(π*R^2)*z)/d^5 * z - 1/d^3 * (Γ*(π*R^2))) = D at *
    calc |(ringField Γ R ⟨x, y, z⟩).z - D|
        = |((ringField Γ R ⟨x, y, z⟩).z - (D - 3/4*Γ*(R^4/d^5))) - 3/4*Γ*(R^4/d^5)| := by congr 1; ring
      _ ≤ |(ringField Γ R ⟨x, y, z⟩).z - (D - 3/4*Γ*(R^4/d^5))| + |3/4*Γ*(R^4/d^5)| := abs_sub _ _
      _ ≤ 40 * |Γ| * (R^3/d^4) := by have := k3.trans t; nlinarith
end Wiz
