import Verif.Lemmas.Elliptic
import Verif.Lemmas.Polar
import Verif.Spec.Ring
import Verif.Model.VortexRing
import Verif.Lemmas.VortexDoublet
namespace Wiz
open Real Spec MeasureTheory intervalIntegral

/-- squared distance between the point at radius `r`, height `z`, azimuth difference `θ`. -/
noncomputable def dist2 (r z R θ : ℝ) : ℝ := r^2 + R^2 + z^2 - 2*r*R*cos θ

theorem dist2_pos {r z R : ℝ} (hr : 0 ≤ r) (hR : 0 < R) (h : ¬ (r = R ∧ z = 0)) (θ : ℝ) :
    0 < dist2 r z R θ := by
  unfold dist2
  have h1 := cos_le_one θ
  have h2 : 2*r*R*cos θ ≤ 2*r*R := by nlinarith [mul_nonneg hr hR.le]
  have h3 : 0 < (r - R)^2 + z^2 := by
    by_contra hc
    push Not at hc
    exact h ⟨by nlinarith [sq_nonneg (r-R), sq_nonneg z], by nlinarith [sq_nonneg (r-R), sq_nonneg z]⟩
  nlinarith

theorem ring_m_lt {r z R : ℝ} (hr : 0 ≤ r) (hR : 0 < R) (h : ¬ (r = R ∧ z = 0)) :
    4*r*R/((r+R)^2+z^2) < 1 := by
  have := dist2_pos hr hR h 0
  unfold dist2 at this
  rw [cos_zero] at this
  have hp : 0 < (r+R)^2+z^2 := by positivity
  rw [div_lt_one hp]; nlinarith

theorem dist2_quarter {r z R : ℝ} (hr : 0 ≤ r) (hR : 0 < R) (t : ℝ) :
    r^2 + R^2 + z^2 - 2*r*R*(2 * sin t ^ 2 - 1)
      = ((r+R)^2+z^2) * (1 - 4*r*R/((r+R)^2+z^2) * sin t ^ 2) := by
  have hp : (r+R)^2+z^2 ≠ 0 := by positivity
  field_simp
  ring

theorem ring_I1 {r z R : ℝ} (hr : 0 ≤ r) (hR : 0 < R) (h : ¬ (r = R ∧ z = 0)) :
    ∫ θ in (0:ℝ)..(2*π), 1 / √(dist2 r z R θ)
      = 4 / √((r+R)^2+z^2) * ellK (4*r*R/((r+R)^2+z^2)) := by
  have hp : 0 < (r+R)^2+z^2 := by positivity
  have hc : Continuous fun θ => 1 / √(dist2 r z R θ) := by
    apply Continuous.div continuous_const
    · unfold dist2; fun_prop
    · intro θ; exact (sqrt_pos.mpr (dist2_pos hr hR h θ)).ne'
  have := circle_integral (fun c => 1 / √(r^2 + R^2 + z^2 - 2*r*R*c)) hc
  simp only [dist2] at this ⊢
  rw [this]
  simp only [dist2_quarter hr hR, sqrt_mul hp.le]
  unfold ellK
  have e : ∀ t, 1 / (√((r+R)^2+z^2) * √(1 - 4*r*R/((r+R)^2+z^2) * sin t ^ 2))
      = 1 / √((r+R)^2+z^2) * (1 / √(1 - 4*r*R/((r+R)^2+z^2) * sin t ^ 2)) := by
    intro t; rw [one_div_mul_one_div]
  simp only [e]
  rw [intervalIntegral.integral_const_mul]
  ring

theorem ring_I2 {r z R : ℝ} (hr : 0 ≤ r) (hR : 0 < R) (h : ¬ (r = R ∧ z = 0)) :
    ∫ θ in (0:ℝ)..(2*π), 1 / √(dist2 r z R θ) ^ 3
      = 4 / √((r+R)^2+z^2) ^ 3 * ellE (4*r*R/((r+R)^2+z^2)) / (1 - 4*r*R/((r+R)^2+z^2)) := by
  have hp : 0 < (r+R)^2+z^2 := by positivity
  have hc : Continuous fun θ => 1 / √(dist2 r z R θ) ^ 3 := by
    apply Continuous.div continuous_const
    · unfold dist2; fun_prop
    · intro θ; exact (pow_pos (sqrt_pos.mpr (dist2_pos hr hR h θ)) 3).ne'
  have := circle_integral (fun c => 1 / √(r^2 + R^2 + z^2 - 2*r*R*c) ^ 3) hc
  simp only [dist2] at this ⊢
  rw [this]
  simp only [dist2_quarter hr hR, sqrt_mul hp.le]
  have e : ∀ t, 1 / (√((r+R)^2+z^2) * √(1 - 4*r*R/((r+R)^2+z^2) * sin t ^ 2)) ^ 3
      = 1 / √((r+R)^2+z^2) ^ 3 * (1 / √(1 - 4*r*R/((r+R)^2+z^2) * sin t ^ 2) ^ 3) := by
    intro t; rw [one_div_mul_one_div, mul_pow]
  simp only [e]
  rw [intervalIntegral.integral_const_mul, ellE_div _ (ring_m_lt hr hR h)]
  ring

theorem cont_ring {r z R : ℝ} (hr : 0 ≤ r) (hR : 0 < R) (h : ¬ (r = R ∧ z = 0)) (g : ℝ → ℝ) (hg : Continuous g) :
    Continuous fun θ => g θ / √(dist2 r z R θ) ^ 3 := by
  apply Continuous.div hg
  · unfold dist2; fun_prop
  · intro θ; exact (pow_pos (sqrt_pos.mpr (dist2_pos hr hR h θ)) 3).ne'

theorem ring_Icos {r z R : ℝ} (hr : 0 < r) (hR : 0 < R) (h : ¬ (r = R ∧ z = 0)) :
    ∫ θ in (0:ℝ)..(2*π), cos θ / √(dist2 r z R θ) ^ 3
      = (4 / √((r+R)^2+z^2) * ellK (4*r*R/((r+R)^2+z^2)) - (z^2 + r^2 + R^2) *
        (4 / √((r+R)^2+z^2) ^ 3 * ellE (4*r*R/((r+R)^2+z^2)) / (1 - 4*r*R/((r+R)^2+z^2)))) / (-2 * r * R) := by
  rw [← ring_I1 hr.le hR h, ← ring_I2 hr.le hR h]
  rw [eq_div_iff (by have := mul_pos hr hR; nlinarith), ← intervalIntegral.integral_const_mul, ← intervalIntegral.integral_mul_const,
    ← intervalIntegral.integral_sub]
  · congr 1; ext θ
    have hp := sqrt_pos.mpr (dist2_pos hr.le hR h θ)
    have hs := sq_sqrt (dist2_pos hr.le hR h θ).le
    set D := √(dist2 r z R θ)
    have : cos θ * (-2*r*R) = D^2 - (z^2 + r^2 + R^2) := by rw [hs]; unfold dist2; ring
    rw [div_mul_eq_mul_div, this]
    field_simp
  · apply Continuous.intervalIntegrable
    apply Continuous.div continuous_const
    · unfold dist2; fun_prop
    · intro θ; exact (sqrt_pos.mpr (dist2_pos hr.le hR h θ)).ne'
  · exact ((cont_ring hr.le hR h _ continuous_const).const_mul _).intervalIntegrable _ _

theorem ring_Isin {r z R : ℝ} :
    ∫ θ in (0:ℝ)..(2*π), sin θ / √(dist2 r z R θ) ^ 3 = 0 := by
  have := intervalIntegral.integral_comp_sub_left (fun θ => sin θ / √(dist2 r z R θ) ^ 3) (a := 0) (b := 2*π) (2*π)
  simp only [sub_zero, sub_self, dist2, cos_two_pi_sub, sin_two_pi_sub, neg_div, intervalIntegral.integral_neg] at this
  simp only [dist2]
  linarith

theorem shift_integral (f : ℝ → ℝ) (hp : Function.Periodic f (2*π)) (ψ : ℝ) :
    ∫ θ in (0:ℝ)..(2*π), f (θ - ψ) = ∫ θ in (0:ℝ)..(2*π), f θ := by
  rw [intervalIntegral.integral_comp_sub_right]
  have := hp.intervalIntegral_add_eq (0-ψ) 0
  rw [show 0 - ψ + 2*π = 2*π - ψ by ring, zero_add] at this
  exact this

/-- Biot–Savart of the ring in terms of `∫ dθ/D³ᐟ²` and `∫ cosθ dθ/D³ᐟ²`. -/
theorem ringField_reduce (Γ R r z ψ : ℝ) (hr : 0 ≤ r) (hR : 0 < R) (h : ¬ (r = R ∧ z = 0)) :
    ringField Γ R ⟨r * cos ψ, r * sin ψ, z⟩ =
      ⟨Γ/(4*π) * (R * z * ∫ θ in (0:ℝ)..(2*π), cos θ / √(dist2 r z R θ) ^ 3) * cos ψ,
       Γ/(4*π) * (R * z * ∫ θ in (0:ℝ)..(2*π), cos θ / √(dist2 r z R θ) ^ 3) * sin ψ,
       Γ/(4*π) * (R^2 * (∫ θ in (0:ℝ)..(2*π), 1 / √(dist2 r z R θ) ^ 3)
          - r * R * ∫ θ in (0:ℝ)..(2*π), cos θ / √(dist2 r z R θ) ^ 3)⟩ := by
  have hd : ∀ θ, V3.norm ((⟨r * cos ψ, r * sin ψ, z⟩ : V3 ℝ) - ⟨R * cos θ, R * sin θ, 0⟩) = √(dist2 r z R (θ - ψ)) := by
    intro θ
    unfold V3.norm dist2
    congr 1
    simp only [V3.sub_x, V3.sub_y, V3.sub_z, cos_sub]
    have h1 := sin_sq_add_cos_sq θ
    have h2 := sin_sq_add_cos_sq ψ
    linear_combination R^2 * h1 + r^2 * h2
  have p1 : Function.Periodic (fun θ => cos θ / √(dist2 r z R θ) ^ 3) (2*π) := by
    intro θ; simp [dist2]
  have p2 : Function.Periodic (fun θ => sin θ / √(dist2 r z R θ) ^ 3) (2*π) := by
    intro θ; simp [dist2]
  have p3 : Function.Periodic (fun θ => 1 / √(dist2 r z R θ) ^ 3) (2*π) := by
    intro θ; simp [dist2]
  have c1 := cont_ring hr hR h cos continuous_cos
  have c2 := cont_ring hr hR h sin continuous_sin
  have c3 := cont_ring hr hR h (fun _ => 1) continuous_const
  have s1 := shift_integral _ p1 ψ
  have s2 := shift_integral _ p2 ψ
  have s3 := shift_integral _ p3 ψ
  rw [ring_Isin] at s2
  have i1 : IntervalIntegrable (fun θ => cos (θ - ψ) / √(dist2 r z R (θ - ψ)) ^ 3) volume 0 (2*π) :=
    (c1.comp (continuous_id.sub continuous_const)).intervalIntegrable _ _
  have i2 : IntervalIntegrable (fun θ => sin (θ - ψ) / √(dist2 r z R (θ - ψ)) ^ 3) volume 0 (2*π) :=
    (c2.comp (continuous_id.sub continuous_const)).intervalIntegrable _ _
  have i3 : IntervalIntegrable (fun θ => 1 / √(dist2 r z R (θ - ψ)) ^ 3) volume 0 (2*π) :=
    (c3.comp (continuous_id.sub continuous_const)).intervalIntegrable _ _
  have hcs : ∀ θ, cos θ = cos (θ - ψ) * cos ψ - sin (θ - ψ) * sin ψ := by
    intro θ; rw [← cos_add]; congr 1; ring
  have hsn : ∀ θ, sin θ = sin (θ - ψ) * cos ψ + cos (θ - ψ) * sin ψ := by
    intro θ; rw [← sin_add]; congr 1; ring
  have h2pi : (0:ℝ) ≤ 2*π := by positivity
  unfold ringField biotSavart vint bsKernel
  simp only [hd, V3.smul, V3.cross, V3.sub_x, V3.sub_y, V3.sub_z, ← intervalIntegral.integral_of_le h2pi]
  ext
  · have e : ∀ θ, 1/(4*π) * (1 / √(dist2 r z R (θ - ψ)) ^ 3) * (R * cos θ * (z - 0) - 0 * (r * sin ψ - R * sin θ))
        = (R * z / (4*π) * cos ψ) * (cos (θ - ψ) / √(dist2 r z R (θ - ψ)) ^ 3)
          - (R * z / (4*π) * sin ψ) * (sin (θ - ψ) / √(dist2 r z R (θ - ψ)) ^ 3) := by
      intro θ; rw [hcs θ]; ring
    simp only [e]
    rw [intervalIntegral.integral_sub (i1.const_mul _) (i2.const_mul _), intervalIntegral.integral_const_mul,
      intervalIntegral.integral_const_mul, s1, s2]
    ring
  · have e : ∀ θ, 1/(4*π) * (1 / √(dist2 r z R (θ - ψ)) ^ 3) * (0 * (r * cos ψ - R * cos θ) - -R * sin θ * (z - 0))
        = (R * z / (4*π) * sin ψ) * (cos (θ - ψ) / √(dist2 r z R (θ - ψ)) ^ 3)
          + (R * z / (4*π) * cos ψ) * (sin (θ - ψ) / √(dist2 r z R (θ - ψ)) ^ 3) := by
      intro θ; rw [hsn θ]; ring
    simp only [e]
    rw [intervalIntegral.integral_add (i1.const_mul _) (i2.const_mul _), intervalIntegral.integral_const_mul,
      intervalIntegral.integral_const_mul, s1, s2]
    ring
  · have e : ∀ θ, 1/(4*π) * (1 / √(dist2 r z R (θ - ψ)) ^ 3) * (-R * sin θ * (r * sin ψ - R * sin θ) - R * cos θ * (r * cos ψ - R * cos θ))
        = (R^2 / (4*π)) * (1 / √(dist2 r z R (θ - ψ)) ^ 3)
          - (r * R / (4*π)) * (cos (θ - ψ) / √(dist2 r z R (θ - ψ)) ^ 3) := by
      intro θ
      have h1 := sin_sq_add_cos_sq θ
      rw [cos_sub]
      have : -R * sin θ * (r * sin ψ - R * sin θ) - R * cos θ * (r * cos ψ - R * cos θ)
        = R^2 - r * R * (cos θ * cos ψ + sin θ * sin ψ) := by linear_combination R^2 * h1
      rw [this]; ring
    simp only [e]
    rw [intervalIntegral.integral_sub (i3.const_mul _) (i1.const_mul _), intervalIntegral.integral_const_mul,
      intervalIntegral.integral_const_mul, s1, s3]
    ring

end Wiz

namespace Wiz
open Real Spec

/-- Radial and axial velocity of a ring in terms of elliptic integrals (Yoon's form). -/
noncomputable def ringUrR (r z Γ R : ℝ) : ℝ :=
  Γ/(4*π) * (R * z * ((4 / √((r+R)^2+z^2) * ellK (4*r*R/((r+R)^2+z^2)) - (z^2 + r^2 + R^2) *
        (4 / √((r+R)^2+z^2) ^ 3 * ellE (4*r*R/((r+R)^2+z^2)) / (1 - 4*r*R/((r+R)^2+z^2)))) / (-2 * r * R)))
noncomputable def ringUzR (r z Γ R : ℝ) : ℝ :=
  Γ/(4*π) * (R^2 * (4 / √((r+R)^2+z^2) ^ 3 * ellE (4*r*R/((r+R)^2+z^2)) / (1 - 4*r*R/((r+R)^2+z^2)))
    - r * R * ((4 / √((r+R)^2+z^2) * ellK (4*r*R/((r+R)^2+z^2)) - (z^2 + r^2 + R^2) *
        (4 / √((r+R)^2+z^2) ^ 3 * ellE (4*r*R/((r+R)^2+z^2)) / (1 - 4*r*R/((r+R)^2+z^2)))) / (-2 * r * R)))

theorem ringField_offaxis (Γ R r z ψ : ℝ) (hr : 0 < r) (hR : 0 < R) (h : ¬ (r = R ∧ z = 0)) :
    ringField Γ R ⟨r * cos ψ, r * sin ψ, z⟩ =
      ⟨ringUrR r z Γ R * cos ψ, ringUrR r z Γ R * sin ψ, ringUzR r z Γ R⟩ := by
  rw [ringField_reduce Γ R r z ψ hr.le hR h, ring_Icos hr hR h, ring_I2 hr.le hR h]
  rfl

theorem ringField_axis (Γ R z : ℝ) (hR : 0 < R) :
    ringField Γ R ⟨0, 0, z⟩ = ⟨0, 0, Γ/(2*R) * (1 / (1 + (z/R)^2) ^ (3/2 : ℝ))⟩ := by
  have h : ¬ ((0:ℝ) = R ∧ z = 0) := fun h => hR.ne h.1
  have := ringField_reduce Γ R 0 z 0 le_rfl hR h
  simp only [zero_mul] at this
  rw [this]
  have hs : 0 < R^2 + z^2 := by positivity
  simp only [dist2, mul_zero, zero_mul, sub_zero, ne_eq, OfNat.ofNat_ne_zero, not_false_eq_true, zero_pow, zero_add,
    intervalIntegral.integral_div, integral_cos, sin_two_pi, sin_zero, zero_div, intervalIntegral.integral_const, smul_eq_mul]
  ext <;> simp only [zero_div, zero_mul, mul_zero, sub_zero]
  have e : (1 + (z/R)^2) = (√(R^2+z^2) / R)^2 := by
    rw [div_pow, div_pow, sq_sqrt hs.le]; field_simp
  have hq : 0 ≤ √(R^2+z^2) / R := by positivity
  rw [e, rpow_three_half hq]
  have := sqrt_pos.mpr hs
  have := pi_pos
  field_simp
  ring

theorem ellipk_fin {m : ℝ} (h : m < 1) : ellipk (.fin m) = .fin (ellK m) := by simp [ellipk, h]
theorem ellipe_fin {m : ℝ} (h : m ≤ 1) : ellipe (.fin m) = .fin (ellE m) := by simp [ellipe, h]

theorem ringB_eval (r z Γ R : ℝ) (hr : 0 < r) (hR : 0 < R) (h : ¬ (r = R ∧ z = 0)) :
    ringPolarSingularB r z Γ R = (.fin (ringUrR r z Γ R), .fin (ringUzR r z Γ R)) := by
  have hp : 0 < (r+R)^2+z^2 := by positivity
  have hm := ring_m_lt hr.le hR h
  have ha := sqrt_pos.mpr hp
  have hsq := sq_sqrt hp.le
  have hm' : 1 - 4*r*R/((r+R)^2+z^2) ≠ 0 := by linarith
  have hB : -2 * r * R ≠ 0 := by have := mul_pos hr hR; nlinarith
  have hpi : 4 * π ≠ 0 := by positivity
  unfold ringPolarSingularB ringUrR ringUzR
  simp only [Num.ofNat_def, Num.one_def, Num.fin_neg, Num.fin_mul, Num.fin_add, Num.fin_pow, Num.sqrt_fin hp.le, hsq,
    Num.fin_div hp.ne', ellipk_fin hm, ellipe_fin hm.le, Num.fin_sub, Num.fin_div hm', Num.fin_div hB, Num.fin_div ha.ne',
    Num.fin_div (pow_pos ha 3).ne', Num.fin_div hpi]
  have e : ∀ a b c d : ℝ, a = c → b = d → ((Num.fin a, Num.fin b) : Num × Num) = (Num.fin c, Num.fin d) := by
    rintro _ _ _ _ rfl rfl; rfl
  apply e
  · ring
  · have := pi_pos
    ring

theorem ringUPolarOut_eval (p : V3 ℝ) (Γ R ε : ℝ) (hR : 0 < R)
    (h1 : ¬ (|polarR p.x p.y - R| < 1e-7 * R ∧ |p.z| < 1e-7)) (h2 : ¬ polarR p.x p.y < 1e-7 * R) :
    ringUPolarOut p Γ R ε = (.fin (ringUrR (polarR p.x p.y) p.z Γ R), .fin (ringUzR (polarR p.x p.y) p.z Γ R)) := by
  have hr : 0 < polarR p.x p.y := by push Not at h2; have : 0 < 1e-7 * R := by positivity
                                     linarith
  have h : ¬ (polarR p.x p.y = R ∧ p.z = 0) := by
    rintro ⟨a, b⟩; apply h1; rw [a, b]
    simp only [sub_self, abs_zero]
    exact ⟨by positivity, by norm_num⟩
  unfold ringUPolarOut
  simp only [h1, h2, if_false]
  generalize polarR p.x p.y = r at *
  generalize p.z = z at *
  have hp : 0 < (r+R)^2+z^2 := by positivity
  have hm := ring_m_lt hr.le hR h
  have ha := sqrt_pos.mpr hp
  have hsq := sq_sqrt hp.le
  have hm' : 1 - 4*r*R/((r+R)^2+z^2) ≠ 0 := by linarith
  have hB : -2 * r * R ≠ 0 := by have := mul_pos hr hR; nlinarith
  have hpi : 4 * π ≠ 0 := by positivity
  unfold ringUrR ringUzR
  simp only [Num.ofNat_def, Num.one_def, Num.fin_neg, Num.fin_mul, Num.fin_add, Num.fin_pow, Num.sqrt_fin hp.le, hsq,
    Num.fin_div hp.ne', ellipk_fin hm, ellipe_fin hm.le, Num.fin_sub, Num.fin_div hm', Num.fin_div hB, Num.fin_div ha.ne',
    Num.fin_div (pow_pos ha 3).ne', Num.fin_div hpi]
  have e : ∀ a b c d : ℝ, a = c → b = d → ((Num.fin a, Num.fin b) : Num × Num) = (Num.fin c, Num.fin d) := by
    rintro _ _ _ _ rfl rfl; rfl
  apply e <;> ring

/-- Branlard's form equals Yoon's form. -/
theorem ringA_eval (r z Γ R : ℝ) (hr : 0 < r) (hR : 0 < R) (h : ¬ (r = R ∧ z = 0)) :
    ringPolarSingular r z Γ R = (.fin (ringUrR r z Γ R), .fin (ringUzR r z Γ R)) := by
  have hp : 0 < (r+R)^2+z^2 := by positivity
  have hm := ring_m_lt hr.le hR h
  have hm0 : 0 ≤ 4*r*R/((r+R)^2+z^2) := by positivity
  have ha := sqrt_pos.mpr hp
  have hsq := sq_sqrt hp.le
  have hm' : 1 - 4*r*R/((r+R)^2+z^2) ≠ 0 := by linarith
  have hm2 : 2 - 2 * (4*r*R/((r+R)^2+z^2)) ≠ 0 := by intro h; apply hm'; linarith
  have hm3 : 2 * r * (1 - 4*r*R/((r+R)^2+z^2)) ≠ 0 := mul_ne_zero (by positivity) hm'
  have hpi : 4 * π * R ≠ 0 := by positivity
  have hs := sqrt_pos.mpr hr
  have hS := sqrt_pos.mpr hR
  have e1 : R / r = (√R / √r)^2 := by rw [div_pow, sq_sqrt hr.le, sq_sqrt hR.le]
  have hq : 0 < √R / √r := by positivity
  have e3 : Num.rpow (.fin (R/r)) (3/2) = .fin ((√R / √r)^3) := by rw [e1, num_rpow_three_half hq.le]
  have e4 : Num.rpow (.fin (R/r)) (1/2) = .fin (√R / √r) := by rw [e1, num_rpow_half hq]
  have e5 : √(4*r*R/((r+R)^2+z^2)) = 2 * √r * √R / √((r+R)^2+z^2) := by
    rw [sqrt_div (by positivity), sqrt_mul (by positivity), sqrt_mul (by norm_num),
      show (4:ℝ) = 2^2 by norm_num, sqrt_sq (by norm_num)]
  unfold ringPolarSingular ringUrR ringUzR
  simp only [Num.ofNat_def, Num.one_def, Num.fin_neg, Num.fin_mul, Num.fin_add, Num.fin_pow,
    Num.fin_div hp.ne', ellipk_fin hm, ellipe_fin hm.le, Num.fin_sub, Num.fin_div hm2, Num.fin_div hm3, Num.fin_div hr.ne',
    Num.sqrt_fin hm0, Num.fin_div hpi, Num.fin_div hR.ne', e3, e4, e5]
  have e : ∀ a b c d : ℝ, a = c → b = d → ((Num.fin a, Num.fin b) : Num × Num) = (Num.fin c, Num.fin d) := by
    rintro _ _ _ _ rfl rfl; rfl
  have f1 : √r^2 = r := sq_sqrt hr.le
  have f2 : √R^2 = R := sq_sqrt hR.le
  have hmm : 4*r*R = (4*r*R/((r+R)^2+z^2)) * √((r+R)^2+z^2)^2 := by rw [hsq]; field_simp
  have hA : z^2 + r^2 + R^2 = √((r+R)^2+z^2)^2 - 2*r*R := by rw [hsq]; ring
  rw [hA]
  generalize 4*r*R/((r+R)^2+z^2) = m at *
  generalize √((r+R)^2+z^2) = a at *
  generalize √r = s at *
  generalize √R = S at *
  subst f1 f2
  have g : s^2 * S^2 = m * a^2 / 4 := by linarith
  have hq1 : 2 - 2*m = 2 * (1-m) := by ring
  rw [hq1]
  have gm : m = 4 * s^2 * S^2 / a^2 := by field_simp; linarith
  generalize hk : ellK m = K
  generalize hE : ellE m = E
  have hpi := pi_pos
  apply e
  · rw [show (2 - m) = 2*(1 - m/2) by ring]
    have : (a^2 - 2*s^2*S^2) = a^2 * (1 - m/2) := by linarith
    rw [this]
    generalize hM : 1 - m = M at *
    field_simp
    ring
  · have h1 : (a^2 - 2*s^2*S^2) = a^2 * (1 - m/2) := by linarith
    rw [show (2 - m) = 2*(1 - m/2) by ring, h1]
    have h2 : S^2 * m / (2 * s^2 * (1 - m)) = 2 * S^4 / (a^2 * (1-m)) := by
      rw [div_eq_div_iff (mul_ne_zero (by positivity) hm') (mul_ne_zero (by positivity) hm')]
      rw [gm]; field_simp; ring
    rw [h2]
    generalize hM : 1 - m = M at *
    field_simp
    ring

end Wiz
