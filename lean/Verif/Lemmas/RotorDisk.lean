import Verif.Lemmas.RotorPlane2
import Verif.Lemmas.SkewedConv
import Mathlib.Analysis.SpecialFunctions.Trigonometric.ArctanDeriv
/-! # The rotor rim seen from a point of the rotor disk -/
namespace Wiz
open Spec Real MeasureTheory Set

/-- direction, in the rotor plane, in which the rim point of azimuth `θ` is seen from `(x,y)` -/
noncomputable def seen (R x y θ : ℝ) : ℝ := θ + arctan ((x * sin θ - y * cos θ)/(R - x * cos θ - y * sin θ))

variable {R x y : ℝ}

theorem seen_p (hR : 0 < R) (h : x^2 + y^2 < R^2) (θ : ℝ) : 0 < R - x * cos θ - y * sin θ := by
  have h1 := sin_sq_add_cos_sq θ
  have h2 : (x * cos θ + y * sin θ)^2 < R^2 := by nlinarith [sq_nonneg (x * sin θ - y * cos θ)]
  have := abs_lt_of_sq_lt_sq h2 hR.le
  have := (abs_lt.mp this).2
  linarith

theorem seen_dist (θ : ℝ) : (R - x * cos θ - y * sin θ)^2 + (x * sin θ - y * cos θ)^2 = (R * cos θ - x)^2 + (R * sin θ - y)^2 := by
  have h1 := sin_sq_add_cos_sq θ
  linear_combination (x^2 + y^2 - R^2) * h1

theorem angle_trig {p : ℝ} (hp : 0 < p) (q θ : ℝ) : cos (θ + arctan (q/p)) = (p * cos θ - q * sin θ)/√(p^2 + q^2) ∧
    sin (θ + arctan (q/p)) = (p * sin θ + q * cos θ)/√(p^2 + q^2) := by
  have hp' : 0 < p^2 + q^2 := by positivity
  have e : √(1 + (q/p)^2) = √(p^2 + q^2)/p := by
    rw [show 1 + (q/p)^2 = (p^2 + q^2)/p^2 by field_simp, sqrt_div hp'.le, sqrt_sq hp.le]
  have hn := sqrt_pos.mpr hp'
  rw [cos_add, sin_add, cos_arctan, sin_arctan, e]
  generalize √(p^2 + q^2) = n at *
  constructor <;> field_simp

theorem seen_trig (hR : 0 < R) (h : x^2 + y^2 < R^2) (θ : ℝ) : ∃ n, 0 < n ∧ n^2 = (R * cos θ - x)^2 + (R * sin θ - y)^2 ∧
    cos (seen R x y θ) = (R * cos θ - x)/n ∧ sin (seen R x y θ) = (R * sin θ - y)/n ∧
    HasDerivAt (seen R x y) (R * (R - x * cos θ - y * sin θ)/n^2) θ := by
  have hp := seen_p hR h θ
  have hd := seen_dist (R := R) (x := x) (y := y) θ
  have h1 := sin_sq_add_cos_sq θ
  have hp' : 0 < (R - x * cos θ - y * sin θ)^2 + (x * sin θ - y * cos θ)^2 := by positivity
  obtain ⟨ec, es⟩ := angle_trig hp (x * sin θ - y * cos θ) θ
  refine ⟨√((R - x * cos θ - y * sin θ)^2 + (x * sin θ - y * cos θ)^2), sqrt_pos.mpr hp', ?_, ?_, ?_, ?_⟩
  · rw [sq_sqrt hp'.le, hd]
  · unfold seen
    rw [ec]
    congr 1
    linear_combination (-x) * h1
  · unfold seen
    rw [es]
    congr 1
    linear_combination (-y) * h1
  · rw [sq_sqrt hp'.le]
    have d1 : HasDerivAt (fun θ => x * sin θ - y * cos θ) (x * cos θ + y * sin θ) θ := by
      refine HasDerivAt.congr_deriv (((hasDerivAt_sin θ).const_mul x).sub ((hasDerivAt_cos θ).const_mul y)) ?_
      ring
    have d2 : HasDerivAt (fun θ => R - x * cos θ - y * sin θ) (x * sin θ - y * cos θ) θ := by
      refine HasDerivAt.congr_deriv ((((hasDerivAt_cos θ).const_mul x).const_sub R).sub ((hasDerivAt_sin θ).const_mul y)) ?_
      ring
    have hd3 : HasDerivAt (fun θ => θ + arctan ((x * sin θ - y * cos θ)/(R - x * cos θ - y * sin θ))) _ θ :=
      (hasDerivAt_id θ).add (d1.div d2 hp.ne').arctan
    refine HasDerivAt.congr_deriv hd3 ?_
    have e2 : x * cos θ + y * sin θ = R - (R - x * cos θ - y * sin θ) := by ring
    simp only [e2, Pi.div_apply]
    generalize R - x * cos θ - y * sin θ = p at *
    generalize x * sin θ - y * cos θ = q at *
    have hd0 := hp'.ne'
    have e : 1 + (q/p)^2 = (p^2 + q^2)/p^2 := by field_simp
    rw [e]
    field_simp
    ring

/-- integrals over the rim as integrals over the directions in which it is seen -/
theorem seen_subst (hR : 0 < R) (h : x^2 + y^2 < R^2) (f : ℝ → ℝ) (hf : Continuous f) (hp : ∀ t, f (t + 2*π) = f t)
    (k : ℝ → ℝ) (hk : ∀ θ n, 0 < n → n^2 = (R * cos θ - x)^2 + (R * sin θ - y)^2 → cos (seen R x y θ) = (R * cos θ - x)/n →
      sin (seen R x y θ) = (R * sin θ - y)/n → k θ = f (seen R x y θ) * (R * (R - x * cos θ - y * sin θ)/n^2)) :
    ∫ θ in Ioc 0 (2*π), k θ = ∫ t in (0:ℝ)..(2*π), f t := by
  have hpi := pi_pos
  set φ' : ℝ → ℝ := fun θ => R * (R - x * cos θ - y * sin θ)/((R * cos θ - x)^2 + (R * sin θ - y)^2) with hφ'
  have hder : ∀ θ, HasDerivAt (seen R x y) (φ' θ) θ := by
    intro θ
    obtain ⟨n, hn, hn2, -, -, hd⟩ := seen_trig hR h θ
    rw [hφ']; simp only; rw [← hn2]; exact hd
  have hc : Continuous φ' := by
    rw [hφ']
    apply Continuous.div (by fun_prop) (by fun_prop)
    intro θ
    obtain ⟨n, hn, hn2, -⟩ := seen_trig hR h θ
    rw [← hn2]; positivity
  have e : ∀ θ, k θ = (f ∘ seen R x y) θ * φ' θ := by
    intro θ
    obtain ⟨n, hn, hn2, h1, h2, -⟩ := seen_trig hR h θ
    rw [hk θ n hn hn2 h1 h2, hφ']; simp only [Function.comp]; rw [hn2]
  rw [← intervalIntegral.integral_of_le (by positivity)]
  rw [intervalIntegral.integral_congr (fun θ _ => e θ)]
  rw [intervalIntegral.integral_comp_mul_deriv (fun θ _ => hder θ) hc.continuousOn hf]
  have hend : seen R x y (2*π) = seen R x y 0 + 2*π := by
    unfold seen
    rw [sin_two_pi, cos_two_pi, sin_zero, cos_zero]; ring
  have hper : Function.Periodic f (2*π) := hp
  rw [hend, hper.intervalIntegral_add_eq (seen R x y 0) 0, zero_add]

/-- the relative offset of the point across the direction `t` -/
noncomputable def offset (R x y t : ℝ) : ℝ := (x * sin t - y * cos t)/√(R^2 - (x * sin t - y * cos t)^2)

theorem offset_pos (h : x^2 + y^2 < R^2) (t : ℝ) : 0 < R^2 - (x * sin t - y * cos t)^2 := by
  have h1 := sin_sq_add_cos_sq t
  nlinarith [sq_nonneg (x * cos t + y * sin t)]

theorem offset_cont (h : x^2 + y^2 < R^2) : Continuous (offset R x y) := by
  unfold offset
  apply Continuous.div (by fun_prop) (by fun_prop)
  intro t
  exact (sqrt_pos.mpr (offset_pos h t)).ne'

theorem offset_seen (hR : 0 < R) (h : x^2 + y^2 < R^2) (θ n : ℝ) (hn : 0 < n) (hn2 : n^2 = (R * cos θ - x)^2 + (R * sin θ - y)^2)
    (h1 : cos (seen R x y θ) = (R * cos θ - x)/n) (h2 : sin (seen R x y θ) = (R * sin θ - y)/n) :
    offset R x y (seen R x y θ) = (x * sin θ - y * cos θ)/(R - x * cos θ - y * sin θ) := by
  have hp := seen_p hR h θ
  have e1 : x * sin (seen R x y θ) - y * cos (seen R x y θ) = R * (x * sin θ - y * cos θ)/n := by
    rw [h1, h2]; field_simp; ring
  have e2 : R^2 - (R * (x * sin θ - y * cos θ)/n)^2 = (R * (R - x * cos θ - y * sin θ)/n)^2 := by
    have := seen_dist (R := R) (x := x) (y := y) θ
    rw [← hn2] at this
    field_simp
    linear_combination (-1) * this
  unfold offset
  rw [e1, e2, sqrt_sq (by positivity)]
  field_simp

theorem offset_add_pi (t : ℝ) : offset R x y (t + π) = - offset R x y t := by
  unfold offset
  rw [sin_add_pi, cos_add_pi]
  rw [show x * -sin t - y * -cos t = -(x * sin t - y * cos t) by ring, neg_sq, neg_div]

theorem offset_neg (t : ℝ) : offset R (-x) (-y) t = - offset R x y t := by
  unfold offset
  rw [show -x * sin t - -y * cos t = -(x * sin t - y * cos t) by ring, neg_sq, neg_div]

theorem offset_period (t : ℝ) : offset R x y (t + 2*π) = offset R x y t := by
  unfold offset; rw [sin_add_two_pi, cos_add_two_pi]

theorem skewDir_tan {χ : ℝ} (hχ : 0 < cos χ) : skewDir (tan χ) = ⟨sin χ, 0, cos χ⟩ := by
  have hsec : √(1 + tan χ ^ 2) = 1 / cos χ := by
    rw [← inv_sqrt_one_add_tan_sq hχ, one_div, inv_inv]
  unfold skewDir
  rw [hsec, tan_eq_sin_div_cos]
  ext
  · simp only; field_simp
  · rfl
  · simp only; field_simp

theorem abs_sin_lt {χ : ℝ} (hχ : 0 < cos χ) : |sin χ| < 1 := by
  have h1 := sin_sq_add_cos_sq χ
  rw [abs_lt]
  constructor <;> nlinarith

theorem den_pos {χ : ℝ} (hχ : 0 < cos χ) (t : ℝ) : 0 < 1 + sin χ * cos t := by
  have h1 := abs_sin_lt hχ
  have h2 := abs_cos_le_one t
  have h3 : |sin χ * cos t| < 1 := by
    rw [abs_mul]
    calc |sin χ| * |cos t| ≤ |sin χ| * 1 := by gcongr
      _ < 1 := by linarith
  have := (abs_lt.mp h3).1
  linarith

/-- points of the disk are off the wake -/
theorem offWake_disk (hR : 0 < R) (h : x^2 + y^2 < R^2) (m z : ℝ) : OffWake R m ⟨x + m*z, y, z⟩ := by
  intro θ s _ he
  have hs : √(1+m^2) ≠ 0 := by positivity
  have hx := congrArg V3.x he; have hy := congrArg V3.y he; have hz := congrArg V3.z he
  simp only [wakePoint, rim, skewDir, V3.add_x, V3.add_y, V3.add_z, V3.smul_x, V3.smul_y, V3.smul_z] at hx hy hz
  have h1 := sin_sq_add_cos_sq θ
  have e1 : x = R * cos θ := by
    have : s * (m/√(1+m^2)) = m * (s * (1/√(1+m^2))) := by ring
    rw [hz, zero_add] at hx; linarith
  have e2 : y = R * sin θ := by linarith
  rw [e1, e2] at h
  nlinarith

/-- the velocity of a generator of the skewed sheet, at a point of the rotor disk, as a density over the directions -/
theorem gen_disk (hR : 0 < R) (h : x^2 + y^2 < R^2) {χ γ : ℝ} (hχ : 0 < cos χ) (θ n : ℝ) (hn : 0 < n) (hn2 : n^2 = (R * cos θ - x)^2 + (R * sin θ - y)^2)
    (h1 : cos (seen R x y θ) = (R * cos θ - x)/n) (h2 : sin (seen R x y θ) = (R * sin θ - y)/n) :
    tangGenerator γ R (tan χ) ⟨x, y, 0⟩ θ = V3.smul (γ/(4*π) * (R * (R - x * cos θ - y * sin θ)/n^2) / (1 + sin χ * cos (seen R x y θ)))
      ⟨-(cos χ * (cos (seen R x y θ) + sin (seen R x y θ) * offset R x y (seen R x y θ))),
       -(cos χ * (sin (seen R x y θ) - cos (seen R x y θ) * offset R x y (seen R x y θ))),
       1 + sin χ * (cos (seen R x y θ) + sin (seen R x y θ) * offset R x y (seen R x y θ))⟩ := by
  have hoff : OffWake R (tan χ) ⟨x, y, 0⟩ := by
    have := offWake_disk hR h (tan χ) 0
    rwa [mul_zero, add_zero] at this
  have hp := seen_p hR h θ
  have hsc := sin_sq_add_cos_sq θ
  have hN : V3.norm ((⟨x, y, 0⟩ : V3 ℝ) - rim R θ) = n := by
    unfold V3.norm rim
    simp only [V3.sub_x, V3.sub_y, V3.sub_z]
    rw [show (x - R*cos θ)^2 + (y - R*sin θ)^2 + (0-0)^2 = n^2 by rw [hn2]; ring, sqrt_sq hn.le]
  have hdot : V3.dot ((⟨x, y, 0⟩ : V3 ℝ) - rim R θ) (skewDir (tan χ)) = - (n * (sin χ * cos (seen R x y θ))) := by
    rw [skewDir_tan hχ, h1]
    simp only [V3.dot, rim, V3.sub_x, V3.sub_y, V3.sub_z]
    field_simp
    ring
  have hg := tangGenerator_eval (γ := γ) (offWake_pos hoff θ).1 (offWake_pos hoff θ).2
  rw [hN, hdot, skewDir_tan hχ] at hg
  have hden := den_pos hχ (seen R x y θ)
  rw [hg, offset_seen hR h θ n hn hn2 h1 h2]
  have hd2 := seen_dist (R := R) (x := x) (y := y) θ
  rw [← hn2] at hd2
  have hp0 := hp.ne'
  have hden0 := hden.ne'
  have hn0 := hn.ne'
  have hR0 := hR.ne'
  have hpi := pi_pos.ne'
  -- the rim point in terms of the direction
  have k0 : R * cos θ = (R * (R - x * cos θ - y * sin θ)/n) * (cos (seen R x y θ) + sin (seen R x y θ) * ((x * sin θ - y * cos θ)/(R - x * cos θ - y * sin θ))) ∧
      R * sin θ = (R * (R - x * cos θ - y * sin θ)/n) * (sin (seen R x y θ) - cos (seen R x y θ) * ((x * sin θ - y * cos θ)/(R - x * cos θ - y * sin θ))) := by
    rw [h1, h2, show R * cos θ - x = (R - x * cos θ - y * sin θ) * cos θ - (x * sin θ - y * cos θ) * sin θ by linear_combination x * hsc,
      show R * sin θ - y = (R - x * cos θ - y * sin θ) * sin θ + (x * sin θ - y * cos θ) * cos θ by linear_combination y * hsc]
    generalize R - x * cos θ - y * sin θ = p at *
    generalize x * sin θ - y * cos θ = q at *
    constructor <;> (field_simp; rw [← hd2]; ring)
  obtain ⟨k1, k2⟩ := k0
  have k3 : n - -(n * (sin χ * cos (seen R x y θ))) = n * (1 + sin χ * cos (seen R x y θ)) := by ring
  rw [k3]
  generalize 1 + sin χ * cos (seen R x y θ) = D at *
  generalize cos (seen R x y θ) + sin (seen R x y θ) * ((x * sin θ - y * cos θ)/(R - x * cos θ - y * sin θ)) = C at *
  generalize sin (seen R x y θ) - cos (seen R x y θ) * ((x * sin θ - y * cos θ)/(R - x * cos θ - y * sin θ)) = S at *
  ext
  · simp only [V3.smul_x, V3.sub_x, V3.cross, rimTangent, rim, V3.sub_y, V3.sub_z, V3.smul_y, V3.smul_z]
    rw [show (R * cos θ * (0 - 0) - 0 * (y - R * sin θ) - n * (R * cos θ * cos χ - 0 * 0)) = -(n * cos χ * (R * cos θ)) by ring, k1]
    field_simp
  · simp only [V3.smul_y, V3.sub_x, V3.cross, rimTangent, rim, V3.sub_y, V3.sub_z, V3.smul_y, V3.smul_z]
    rw [show (0 * (x - R * cos θ) - -(R * sin θ) * (0 - 0) - n * (0 * sin χ - -(R * sin θ) * cos χ)) = -(n * cos χ * (R * sin θ)) by ring, k2]
    field_simp
  · simp only [V3.smul_z, V3.sub_x, V3.cross, rimTangent, rim, V3.sub_y, V3.sub_z, V3.smul_y, V3.smul_z]
    rw [show (-(R * sin θ) * (y - R * sin θ) - R * cos θ * (x - R * cos θ) - n * (-(R * sin θ) * 0 - R * cos θ * sin χ))
      = R * (R - x * cos θ - y * sin θ) + n * sin χ * (R * cos θ) by linear_combination R^2 * hsc, k1]
    field_simp
end Wiz
