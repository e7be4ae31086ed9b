import Verif.Model.SelfSimilar
import Mathlib.Analysis.SpecialFunctions.Trigonometric.DerivHyp

/-! # Properties of `ss_u` (C73) -/
namespace Wiz

/-- Real value of `ss_u` upstream. -/
theorem ssU_eval (p : V3 ℝ) (γ R l e : ℝ) (hR : 0 < R) (hl : 0 < l) (he : 0 < e) (hz : p.z ≤ 0) :
    ssU p (.fin γ) R l e = .fin (γ / 2 * (1 + p.z / Real.sqrt (p.z^2 + R^2)) *
      (1 / Real.cosh (Real.sqrt 2 * (Real.sqrt (p.x^2 + p.y^2) / (Real.sqrt (l * (e + (p.z/R)^2)) * R)))) ^ (8/9 : ℝ)) := by
  have h1 : 0 < l * (e + (p.z/R)^2) := by positivity
  have h2 : 0 < p.z^2 + R^2 := by positivity
  have h3 : Real.sqrt (l * (e + (p.z/R)^2)) * R ≠ 0 := by positivity
  have h4 : Real.sqrt (p.z^2 + R^2) ≠ 0 := by positivity
  unfold ssU
  simp only [Num.ofNat_def, Num.one_def, Num.zero_def, Num.fin_div (show (2:ℝ) ≠ 0 by norm_num), Num.fin_div hR.ne', Num.fin_pow,
    Num.fin_add, Num.fin_mul, Num.sqrt_fin h1.le, Num.sqrt_fin h2.le, Num.sqrt_fin (show (0:ℝ) ≤ 2 by norm_num),
    Num.sqrt_fin (show 0 ≤ p.x^2 + p.y^2 by positivity), Num.fin_div h3, Num.fin_div h4, Num.cosh_fin,
    Num.fin_div (Real.cosh_pos _).ne', if_neg (not_lt.mpr hz)]
  rw [Num.rpow_fin _ (by have := Real.cosh_pos (Real.sqrt 2 * (Real.sqrt (p.x^2 + p.y^2) / (Real.sqrt (l * (e + (p.z/R)^2)) * R))); positivity)]
  rw [Num.fin_mul]

theorem axis_factor (z R : ℝ) (hR : 0 < R) (hz : z ≤ 0) :
    0 < 1 + z / Real.sqrt (z^2 + R^2) ∧ 1 + z / Real.sqrt (z^2 + R^2) ≤ 1 := by
  have h : |z| < Real.sqrt (z^2 + R^2) := by
    rw [← Real.sqrt_sq_eq_abs]
    exact Real.sqrt_lt_sqrt (sq_nonneg _) (by nlinarith)
  have hp : 0 < Real.sqrt (z^2 + R^2) := lt_of_le_of_lt (abs_nonneg _) h
  have : -1 < z / Real.sqrt (z^2 + R^2) := by
    rw [lt_div_iff₀ hp]
    have := neg_abs_le z
    linarith
  constructor
  · linarith
  · have : z / Real.sqrt (z^2 + R^2) ≤ 0 := div_nonpos_of_nonpos_of_nonneg hz hp.le
    linarith

theorem sech_bounds (x : ℝ) : 0 < (1 / Real.cosh x) ^ (8/9 : ℝ) ∧ (1 / Real.cosh x) ^ (8/9 : ℝ) ≤ 1 := by
  have h := Real.cosh_pos x
  have h1 := Real.one_le_cosh x
  constructor
  · exact Real.rpow_pos_of_pos (by positivity) _
  · apply Real.rpow_le_one (by positivity) _ (by norm_num)
    rw [div_le_one h]; exact h1

/-- C73: nothing is induced downstream of the rotor plane. -/
theorem C73_zero_downstream (p : V3 ℝ) (γ R l e : ℝ) (hz : 0 < p.z) : ssU p (.fin γ) R l e = .fin 0 := by
  simp [ssU, hz]

/-- C73: at and upstream of the rotor plane the value is finite, has the sign of `gamma_t`
(strictly) and magnitude at most `|gamma_t|/2`, for any positive radius and model constants. -/
theorem C73_sign_bound (p : V3 ℝ) (γ R l e : ℝ) (hR : 0 < R) (hl : 0 < l) (he : 0 < e) (hz : p.z ≤ 0) :
    ∃ u : ℝ, ssU p (.fin γ) R l e = .fin u ∧ |u| ≤ |γ| / 2 ∧ (0 < γ → 0 < u) ∧ (γ < 0 → u < 0) ∧ (γ = 0 → u = 0) := by
  refine ⟨_, ssU_eval p γ R l e hR hl he hz, ?_⟩
  obtain ⟨a1, a2⟩ := axis_factor p.z R hR hz
  obtain ⟨b1, b2⟩ := sech_bounds (Real.sqrt 2 * (Real.sqrt (p.x^2 + p.y^2) / (Real.sqrt (l * (e + (p.z/R)^2)) * R)))
  generalize 1 + p.z / Real.sqrt (p.z^2 + R^2) = A at *
  generalize (1 / Real.cosh (Real.sqrt 2 * (Real.sqrt (p.x^2 + p.y^2) / (Real.sqrt (l * (e + (p.z/R)^2)) * R)))) ^ (8/9 : ℝ) = B at *
  refine ⟨?_, ?_, ?_, ?_⟩
  · rw [abs_mul, abs_mul, abs_of_pos a1, abs_of_pos b1, abs_div, abs_of_pos (show (0:ℝ) < 2 by norm_num)]
    have : A * B ≤ 1 := by nlinarith
    have : |γ| / 2 * (A * B) ≤ |γ| / 2 * 1 := mul_le_mul_of_nonneg_left this (by positivity)
    linarith
  · intro h; positivity
  · intro h
    have : 0 < -γ / 2 * A * B := by have : 0 < -γ := by linarith
                                    positivity
    have e : γ / 2 * A * B = - (-γ / 2 * A * B) := by ring
    rw [e]; linarith
  · intro h; rw [h]; ring

/-- C73: on the axis the value is the vortex-cylinder axis value
`gamma_t/2 (1 + z/√(z²+R²))`. -/
theorem C73_axis (z γ R l e : ℝ) (hR : 0 < R) (hl : 0 < l) (he : 0 < e) (hz : z ≤ 0) :
    ssU ⟨0, 0, z⟩ (.fin γ) R l e = .fin (γ / 2 * (1 + z / Real.sqrt (z^2 + R^2))) := by
  rw [ssU_eval _ γ R l e hR hl he hz]
  norm_num

/-- C73: at fixed axial position the magnitude strictly decreases with the distance to the
axis (and so depends on it only through that distance), for `gamma_t ≠ 0`. -/
theorem C73_radial_decay (p q : V3 ℝ) (γ R l e : ℝ) (hγ : γ ≠ 0) (hR : 0 < R) (hl : 0 < l) (he : 0 < e)
    (hz : p.z ≤ 0) (hpq : p.z = q.z) (hr : p.x^2 + p.y^2 < q.x^2 + q.y^2) :
    ∃ u v : ℝ, ssU p (.fin γ) R l e = .fin u ∧ ssU q (.fin γ) R l e = .fin v ∧ |v| < |u| := by
  refine ⟨_, _, ssU_eval p γ R l e hR hl he hz, ssU_eval q γ R l e hR hl he (hpq ▸ hz), ?_⟩
  rw [← hpq]
  obtain ⟨a1, -⟩ := axis_factor p.z R hR hz
  have hd : 0 < Real.sqrt (l * (e + (p.z/R)^2)) * R := by positivity
  set D := Real.sqrt (l * (e + (p.z/R)^2)) * R
  obtain ⟨b1, -⟩ := sech_bounds (Real.sqrt 2 * (Real.sqrt (p.x^2 + p.y^2) / D))
  obtain ⟨c1, -⟩ := sech_bounds (Real.sqrt 2 * (Real.sqrt (q.x^2 + q.y^2) / D))
  have hlt : (1 / Real.cosh (Real.sqrt 2 * (Real.sqrt (q.x^2 + q.y^2) / D))) ^ (8/9 : ℝ)
      < (1 / Real.cosh (Real.sqrt 2 * (Real.sqrt (p.x^2 + p.y^2) / D))) ^ (8/9 : ℝ) := by
    have := Real.cosh_pos (Real.sqrt 2 * (Real.sqrt (q.x^2 + q.y^2) / D))
    apply Real.rpow_lt_rpow (by positivity) _ (by norm_num)
    apply one_div_lt_one_div_of_lt (Real.cosh_pos _)
    rw [Real.cosh_lt_cosh, abs_of_nonneg (by positivity), abs_of_nonneg (by positivity)]
    have h := Real.sqrt_lt_sqrt (by positivity) hr
    have : Real.sqrt (p.x^2 + p.y^2) / D < Real.sqrt (q.x^2 + q.y^2) / D := by gcongr
    have h2 : 0 < Real.sqrt 2 := by positivity
    nlinarith
  rw [abs_mul, abs_mul, abs_mul, abs_mul, abs_of_pos a1, abs_of_pos b1, abs_of_pos c1]
  have : 0 < |γ / 2| := by positivity
  have : 0 < |γ / 2| * (1 + p.z / Real.sqrt (p.z^2 + R^2)) := by positivity
  nlinarith

/-- C73: additive and homogeneous in `gamma_t`. -/
theorem C73_linear (p : V3 ℝ) (γ₁ γ₂ k R l e : ℝ) (hR : 0 < R) (hl : 0 < l) (he : 0 < e) :
    ssU p (.fin (γ₁ + k * γ₂)) R l e = ssU p (.fin γ₁) R l e + Num.fin k * ssU p (.fin γ₂) R l e := by
  rcases lt_or_ge 0 p.z with h | h
  · simp [ssU, h]
  · simp only [ssU_eval p _ R l e hR hl he h, Num.fin_mul, Num.fin_add]
    congr 1; ring

/-- C73, with the default constants: the default call satisfies the hypotheses above. -/
theorem C73_default (p : V3 ℝ) (γ R : ℝ) (hR : 0 < R) (hz : p.z ≤ 0) :
    ∃ u : ℝ, ssUDefault p (.fin γ) R = .fin u ∧ |u| ≤ |γ| / 2 ∧ (0 < γ → 0 < u) ∧ (γ < 0 → u < 0) ∧ (γ = 0 → u = 0) :=
  C73_sign_bound p γ R _ _ hR (by norm_num) (by norm_num) hz

example : (⟨3, 4, -1⟩ : V3 ℝ).z ≤ 0 ∧ (⟨1, 0, -1⟩ : V3 ℝ).x^2 + (⟨1, 0, -1⟩ : V3 ℝ).y^2 < 3^2 + 4^2 := by norm_num

end Wiz
