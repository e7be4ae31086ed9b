import Verif.Lemmas.CarlsonDup
import Verif.Lemmas.Elliptic
import Mathlib.Analysis.SpecialFunctions.Integrals.Basic

/-! # Series of the Carlson integrals about equal arguments, and their link with `Π` -/
namespace Wiz
open Spec Real MeasureTheory Set Filter Topology

/-- a decreasing substitution of an open interval onto `(0,∞)` -/
theorem subst_Ioo (a b : ℝ) (f f' g : ℝ → ℝ) (hd : ∀ t ∈ Ioo a b, HasDerivAt f (f' t) t) (hp : ∀ t ∈ Ioo a b, f' t < 0)
    (himg : f '' Ioo a b = Ioi 0) :
    ∫ u in Ioi (0:ℝ), g u = ∫ t in Ioo a b, -f' t * g (f t) := by
  have hmono : StrictAntiOn f (Ioo a b) := by
    apply strictAntiOn_of_deriv_neg (convex_Ioo a b) (fun t ht => (hd t ht).continuousAt.continuousWithinAt)
    intro t ht
    rw [interior_Ioo] at ht
    rw [(hd t ht).deriv]; exact hp t ht
  have := integral_image_eq_integral_abs_deriv_smul (s := Ioo a b) measurableSet_Ioo
    (fun t ht => (hd t ht).hasDerivWithinAt) hmono.injOn g
  rw [himg] at this
  rw [this]
  apply setIntegral_congr_fun measurableSet_Ioo
  intro t ht
  simp only [abs_of_neg (hp t ht), smul_eq_mul]

theorem Ioo_to_interval (a b : ℝ) (h : a ≤ b) (f : ℝ → ℝ) : ∫ t in Ioo a b, f t = ∫ t in a..b, f t := by
  rw [intervalIntegral.integral_of_le h, integral_Ioc_eq_integral_Ioo]

/-- the substitution `t = A(1/v² - 1)` -/
theorem to_unit (A : ℝ) (hA : 0 < A) (g : ℝ → ℝ) :
    ∫ u in Ioi (0:ℝ), g u = ∫ v in Ioo (0:ℝ) 1, 2*A/v^3 * g (A*(1/v^2 - 1)) := by
  rw [subst_Ioo 0 1 (fun v => A*(1/v^2 - 1)) (fun v => -(2*A/v^3))]
  · simp only [neg_neg]
  · intro v hv
    have hv0 : v ≠ 0 := hv.1.ne'
    have h1 : HasDerivAt (fun v : ℝ => v^2) (2*v) v := by simpa using hasDerivAt_pow 2 v
    have h2 := ((((hasDerivAt_const v (1:ℝ)).div h1 (by positivity)).sub_const 1).const_mul A)
    refine HasDerivAt.congr_deriv h2 ?_
    field_simp
    ring
  · intro v hv
    have := hv.1
    have : 0 < 2*A/v^3 := by positivity
    linarith
  · ext u
    constructor
    · rintro ⟨v, hv, rfl⟩
      have h0 := hv.1
      have h1 : v^2 < 1 := by nlinarith [hv.2]
      have : 1 < 1/v^2 := by rw [lt_div_iff₀ (by positivity)]; linarith
      exact mul_pos hA (by linarith)
    · intro hu
      have hu' : 0 < u := hu
      refine ⟨1/√(1 + u/A), ⟨by positivity, ?_⟩, ?_⟩
      · rw [div_lt_one (by positivity)]
        apply lt_sqrt_of_sq_lt
        have : 0 < u/A := by positivity
        linarith
      · simp only [div_pow, one_pow]
        rw [sq_sqrt (by positivity)]
        field_simp
        ring

theorem sqrt_factor {A x v : ℝ} (hA : 0 < A) (hv : 0 < v) (h : 0 ≤ 1 - (1 - x/A)*v^2) :
    √(A*(1/v^2 - 1) + x) = √A / v * √(1 - (1 - x/A)*v^2) := by
  rw [show A*(1/v^2 - 1) + x = A / v^2 * (1 - (1 - x/A)*v^2) by field_simp; ring, sqrt_mul (by positivity),
    sqrt_div hA.le, sqrt_sq hv.le]

theorem fac_pos {A x v : ℝ} (hA : 0 < A) (hx : 0 ≤ x) (hv : 0 < v) (hv1 : v < 1) : 0 < 1 - (1 - x/A)*v^2 := by
  have h1 : 0 ≤ x/A*v^2 := by positivity
  have h2 : v^2 < 1 := by nlinarith
  linarith

/-- `RF` over the unit interval -/
theorem RF_unit {x y z A : ℝ} (hA : 0 < A) (hx : 0 ≤ x) (hy : 0 ≤ y) (hz : 0 ≤ z) :
    RF x y z = 1/√A * ∫ v in (0:ℝ)..1, 1 / √((1 - (1 - x/A)*v^2) * (1 - (1 - y/A)*v^2) * (1 - (1 - z/A)*v^2)) := by
  unfold RF
  rw [to_unit A hA, ← Ioo_to_interval 0 1 zero_le_one, ← MeasureTheory.integral_const_mul, ← MeasureTheory.integral_const_mul]
  apply setIntegral_congr_fun measurableSet_Ioo
  intro v hv
  have fx := fac_pos hA hx hv.1 hv.2
  have fy := fac_pos hA hy hv.1 hv.2
  have fz := fac_pos hA hz hv.1 hv.2
  have hv0 := hv.1
  simp only
  rw [sqrt_factor hA hv.1 fx.le, sqrt_factor hA hv.1 fy.le, sqrt_factor hA hv.1 fz.le, sqrt_mul (by positivity), sqrt_mul (by positivity)]
  have sx := sqrt_pos.mpr fx
  have sy := sqrt_pos.mpr fy
  have sz := sqrt_pos.mpr fz
  have hs := sqrt_pos.mpr hA
  have hss : A = √A * √A := (mul_self_sqrt hA.le).symm
  generalize √(1 - (1 - x/A)*v^2) = X at *
  generalize √(1 - (1 - y/A)*v^2) = Y at *
  generalize √(1 - (1 - z/A)*v^2) = Z at *
  clear fx fy fz
  generalize √A = s at *
  subst hss
  field_simp

/-- `RJ` over the unit interval -/
theorem RJ_unit {x y z p A : ℝ} (hA : 0 < A) (hx : 0 ≤ x) (hy : 0 ≤ y) (hz : 0 ≤ z) (hp : 0 ≤ p) :
    RJ x y z p = 1/(√A*A) * ∫ v in (0:ℝ)..1, 3*v^2 * (1 / √((1 - (1 - x/A)*v^2) * (1 - (1 - y/A)*v^2) * (1 - (1 - z/A)*v^2) * (1 - (1 - p/A)*v^2)^2)) := by
  unfold RJ
  rw [to_unit A hA, ← Ioo_to_interval 0 1 zero_le_one, ← MeasureTheory.integral_const_mul, ← MeasureTheory.integral_const_mul]
  apply setIntegral_congr_fun measurableSet_Ioo
  intro v hv
  have fx := fac_pos hA hx hv.1 hv.2
  have fy := fac_pos hA hy hv.1 hv.2
  have fz := fac_pos hA hz hv.1 hv.2
  have fp := fac_pos hA hp hv.1 hv.2
  have hv0 := hv.1
  simp only
  rw [sqrt_factor hA hv.1 fx.le, sqrt_factor hA hv.1 fy.le, sqrt_factor hA hv.1 fz.le, sqrt_mul (by positivity), sqrt_mul (by positivity),
    sqrt_mul (by positivity), sqrt_sq fp.le]
  rw [show A*(1/v^2 - 1) + p = A / v^2 * (1 - (1 - p/A)*v^2) by field_simp; ring]
  have sx := sqrt_pos.mpr fx
  have sy := sqrt_pos.mpr fy
  have sz := sqrt_pos.mpr fz
  have hs := sqrt_pos.mpr hA
  have hss : A = √A * √A := (mul_self_sqrt hA.le).symm
  generalize √(1 - (1 - x/A)*v^2) = X at *
  generalize √(1 - (1 - y/A)*v^2) = Y at *
  generalize √(1 - (1 - z/A)*v^2) = Z at *
  generalize 1 - (1 - p/A)*v^2 = P at *
  clear fx fy fz
  generalize √A = s at *
  subst hss
  field_simp

/-- the substitution `t = cot²θ` -/
theorem to_angle (g : ℝ → ℝ) :
    ∫ u in Ioi (0:ℝ), g u = ∫ t in Ioo (0:ℝ) (π/2), 2*cos t/sin t^3 * g (cos t^2/sin t^2) := by
  have hs : ∀ t ∈ Ioo (0:ℝ) (π/2), 0 < sin t := fun t ht => sin_pos_of_pos_of_lt_pi ht.1 (by linarith [ht.2, pi_pos])
  have hc : ∀ t ∈ Ioo (0:ℝ) (π/2), 0 < cos t := fun t ht => cos_pos_of_mem_Ioo ⟨by linarith [ht.1, pi_pos], ht.2⟩
  rw [subst_Ioo 0 (π/2) (fun t => cos t^2/sin t^2) (fun t => -(2*cos t/sin t^3))]
  · simp only [neg_neg]
  · intro t ht
    have hs0 := (hs t ht).ne'
    have h2 := ((hasDerivAt_cos t).pow 2).div ((hasDerivAt_sin t).pow 2) (pow_ne_zero 2 hs0)
    refine HasDerivAt.congr_deriv h2 ?_
    have := sin_sq_add_cos_sq t
    simp only [Pi.pow_apply, Nat.cast_ofNat, Nat.add_one_sub_one, pow_one]
    field_simp
    linear_combination (-cos t) * this
  · intro t ht
    have := hs t ht
    have := hc t ht
    have : 0 < 2*cos t/sin t^3 := by positivity
    linarith
  · ext u
    constructor
    · rintro ⟨t, ht, rfl⟩
      have := hs t ht
      have := hc t ht
      exact mem_Ioi.mpr (by positivity)
    · intro hu
      have hu' : 0 < u := hu
      have hsu := sqrt_pos.mpr hu'
      have hr : 0 < 1/√u := by positivity
      refine ⟨arctan (1/√u), ⟨arctan_pos.mpr hr, arctan_lt_pi_div_two _⟩, ?_⟩
      simp only [cos_arctan, sin_arctan, div_pow, one_pow]
      rw [sq_sqrt (by positivity), sq_sqrt hu'.le]
      field_simp

theorem ellK_eq_RF (m : ℝ) (hm : m < 1) : ellK m = RF 0 (1-m) 1 := by
  unfold RF ellK
  rw [to_angle, ← Ioo_to_interval 0 (π/2) (by positivity), ← MeasureTheory.integral_const_mul]
  apply setIntegral_congr_fun measurableSet_Ioo
  intro t ht
  have hs := sin_pos_of_pos_of_lt_pi ht.1 (by linarith [ht.2, pi_pos])
  have hc := cos_pos_of_mem_Ioo (x := t) ⟨by linarith [ht.1, pi_pos], ht.2⟩
  have h1 := sin_sq_add_cos_sq t
  have hd : 0 < 1 - m * sin t^2 := by
    have : 0 < sin t^2 := by positivity
    have : 0 ≤ cos t^2 := by positivity
    nlinarith
  simp only
  rw [add_zero, show cos t^2/sin t^2 + (1-m) = (1 - m*sin t^2)/sin t^2 by field_simp; linarith,
    show cos t^2/sin t^2 + 1 = 1/sin t^2 by field_simp; linarith, sqrt_div (by positivity), sqrt_div hd.le, sqrt_div zero_le_one,
    sqrt_sq hs.le, sqrt_sq hc.le, sqrt_one]
  have := sqrt_pos.mpr hd
  field_simp

theorem RJ_eq (n m : ℝ) (hn : n < 1) (hm : m < 1) :
    RJ 0 (1-m) 1 (1-n) = 3 * ∫ t in (0:ℝ)..(π/2), sin t^2 / ((1 - n * sin t^2) * √(1 - m * sin t^2)) := by
  unfold RJ
  rw [to_angle, ← Ioo_to_interval 0 (π/2) (by positivity), ← MeasureTheory.integral_const_mul, ← MeasureTheory.integral_const_mul]
  apply setIntegral_congr_fun measurableSet_Ioo
  intro t ht
  have hs := sin_pos_of_pos_of_lt_pi ht.1 (by linarith [ht.2, pi_pos])
  have hc := cos_pos_of_mem_Ioo (x := t) ⟨by linarith [ht.1, pi_pos], ht.2⟩
  have h1 := sin_sq_add_cos_sq t
  have hs2 : 0 < sin t^2 := by positivity
  have hc2 : 0 ≤ cos t^2 := by positivity
  have hd : 0 < 1 - m * sin t^2 := by nlinarith
  have hdn : 0 < 1 - n * sin t^2 := by nlinarith
  simp only
  rw [add_zero, show cos t^2/sin t^2 + (1-m) = (1 - m*sin t^2)/sin t^2 by field_simp; linarith,
    show cos t^2/sin t^2 + (1-n) = (1 - n*sin t^2)/sin t^2 by field_simp; linarith,
    show cos t^2/sin t^2 + 1 = 1/sin t^2 by field_simp; linarith, sqrt_div (by positivity), sqrt_div hd.le, sqrt_div zero_le_one,
    sqrt_sq hs.le, sqrt_sq hc.le, sqrt_one]
  have := sqrt_pos.mpr hd
  field_simp

/-- `Π(n,m) = RF(0,1-m,1) + n/3 RJ(0,1-m,1,1-n)` -/
theorem ellPi_eq (n m : ℝ) (hn : n < 1) (hm : m < 1) :
    ellPi n m = RF 0 (1-m) 1 + 1/3 * n * RJ 0 (1-m) 1 (1-n) := by
  rw [← ellK_eq_RF m hm, RJ_eq n m hn hm]
  unfold ellK ellPi
  have hpos : ∀ c : ℝ, c < 1 → ∀ t : ℝ, 0 < 1 - c * sin t^2 := by
    intro c hc t
    have h1 := sin_sq_add_cos_sq t
    have hc2 : 0 ≤ cos t^2 := by positivity
    rcases (sq_nonneg (sin t)).eq_or_lt with h | h
    · rw [← h]; norm_num
    · nlinarith
  have c1 : Continuous fun t : ℝ => 1/√(1 - m * sin t^2) := by
    apply Continuous.div continuous_const (by fun_prop)
    intro t; exact (sqrt_pos.mpr (hpos m hm t)).ne'
  have c2 : Continuous fun t : ℝ => sin t^2 / ((1 - n * sin t^2) * √(1 - m * sin t^2)) := by
    apply Continuous.div (by fun_prop) (by fun_prop)
    intro t; exact mul_ne_zero (hpos n hn t).ne' (sqrt_pos.mpr (hpos m hm t)).ne'
  rw [show 1/3 * n * (3 * ∫ t in (0:ℝ)..(π/2), sin t^2 / ((1 - n * sin t^2) * √(1 - m * sin t^2))) =
    n * ∫ t in (0:ℝ)..(π/2), sin t^2 / ((1 - n * sin t^2) * √(1 - m * sin t^2)) by ring,
    ← intervalIntegral.integral_const_mul, ← intervalIntegral.integral_add (c1.intervalIntegrable _ _)
      ((c2.const_mul n).intervalIntegrable _ _)]
  apply intervalIntegral.integral_congr
  intro t _
  have h1 := (hpos n hn t).ne'
  have h2 := (sqrt_pos.mpr (hpos m hm t)).ne'
  simp only
  field_simp
  ring
end Wiz
