import Verif.Spec.CarlsonIntegrals
import Verif.Lemmas.CarlsonReal
import Mathlib.MeasureTheory.Function.Jacobian
import Mathlib.MeasureTheory.Integral.IntegralEqImproper
import Mathlib.Analysis.SpecialFunctions.Trigonometric.ArctanDeriv
import Mathlib.Topology.Order.IntermediateValue

/-! # The duplication theorems -/
namespace Wiz
open Spec Real MeasureTheory Set Filter Topology

/-- an increasing substitution of `(0,∞)` onto itself -/
theorem subst_Ioi (f f' g : ℝ → ℝ) (h0 : f 0 = 0) (hc : ContinuousOn f (Ici 0))
    (hd : ∀ t ∈ Ioi (0:ℝ), HasDerivAt f (f' t) t) (hp : ∀ t ∈ Ioi (0:ℝ), 0 < f' t) (hinf : Tendsto f atTop atTop) :
    ∫ u in Ioi (0:ℝ), g u = ∫ t in Ioi (0:ℝ), f' t * g (f t) := by
  have hmono : StrictMonoOn f (Ici 0) := by
    apply strictMonoOn_of_deriv_pos (convex_Ici 0) hc
    intro t ht
    rw [interior_Ici] at ht
    rw [(hd t ht).deriv]; exact hp t ht
  have himg : f '' Ioi 0 = Ioi 0 := by
    ext u
    constructor
    · rintro ⟨t, ht, rfl⟩
      have := hmono (mem_Ici.mpr le_rfl) (mem_Ici.mpr (le_of_lt ht)) ht
      rwa [h0] at this
    · intro hu
      obtain ⟨N, hN⟩ := (hinf.eventually (eventually_ge_atTop u)).and (eventually_gt_atTop 0) |>.exists
      have := intermediate_value_Icc hN.2.le (hc.mono Icc_subset_Ici_self)
      obtain ⟨t, ht, e⟩ := this ⟨by rw [h0]; exact le_of_lt hu, hN.1⟩
      refine ⟨t, ?_, e⟩
      rcases ht.1.eq_or_lt with h | h
      · rw [← h, h0] at e; rw [← e] at hu; exact absurd hu (by simp)
      · exact h
  have := integral_image_eq_integral_abs_deriv_smul (s := Ioi (0:ℝ)) measurableSet_Ioi
    (fun t ht => (hd t ht).hasDerivWithinAt) (hmono.injOn.mono Ioi_subset_Ici_self) g
  rw [himg] at this
  rw [this]
  apply setIntegral_congr_fun measurableSet_Ioi
  intro t ht
  simp only [abs_of_pos (hp t ht), smul_eq_mul]

/-- shorthand: `√(t+x)√(t+y)√(t+z)` -/
theorem sqrt_shift_deriv {x t : ℝ} (hx : 0 ≤ x) (ht : 0 < t) : HasDerivAt (fun t => √(t+x)) (1/(2*√(t+x))) t := by
  have h : HasDerivAt (fun t : ℝ => t + x) 1 t := (hasDerivAt_id t).add_const x
  exact h.sqrt (by positivity)

theorem sqrt_shift_tendsto (x : ℝ) : Tendsto (fun t : ℝ => √(t+x)) atTop atTop :=
  tendsto_sqrt_atTop.comp (tendsto_atTop_add_const_right _ x tendsto_id)

/-- `√(t+x)√(t+y)+…` -/
noncomputable def lamT (x y z t : ℝ) : ℝ := √(t+x) * √(t+y) + √(t+x) * √(t+z) + √(t+y) * √(t+z)
theorem lamT_zero (x y z : ℝ) (hx : 0 ≤ x) (hy : 0 ≤ y) : lamT x y z 0 = lam x y z := by
  unfold lamT lam
  rw [zero_add, zero_add, zero_add, sqrt_mul hx, sqrt_mul hx, sqrt_mul hy]

/-- the integrand of `RF` is integrable -/
theorem integrable_base {c : ℝ} (hc : 0 < c) : IntegrableOn (fun t : ℝ => 1/(√t * (t + c))) (Ioi 0) := by
  have hsc : 0 < √c := sqrt_pos.mpr hc
  have hcc : √c * √c = c := mul_self_sqrt hc.le
  have hd : ∀ t ∈ Ioi (0:ℝ), HasDerivAt (fun t => 2/√c * arctan (√t/√c)) (1/(√t*(t+c))) t := by
    intro t ht
    have ht' : 0 < t := ht
    have hst : 0 < √t := sqrt_pos.mpr ht'
    have htt : √t * √t = t := mul_self_sqrt ht'.le
    have h1 : HasDerivAt (fun t => √t/√c) (1/(2*√t)/√c) t := (hasDerivAt_sqrt ht'.ne').div_const _
    have h2 := (h1.arctan).const_mul (2/√c)
    refine HasDerivAt.congr_deriv h2 ?_
    have e : 1 + (√t/√c)^2 = (t + c)/c := by
      rw [div_pow, pow_two, pow_two, htt, hcc]; field_simp; ring
    rw [e]
    have : t + c ≠ 0 := by positivity
    field_simp
    rw [pow_two, hcc]
  refine integrableOn_Ioi_deriv_of_nonneg (g := fun t => 2/√c * arctan (√t/√c)) (l := 2/√c * (π/2)) ?_ hd ?_ ?_
  · apply Continuous.continuousWithinAt
    exact continuous_const.mul (continuous_arctan.comp (continuous_sqrt.div_const _))
  · intro t ht
    have ht' : 0 < t := ht
    positivity
  · apply Tendsto.const_mul
    exact (tendsto_arctan_atTop.mono_right nhdsWithin_le_nhds).comp (tendsto_sqrt_atTop.atTop_div_const hsc)

theorem rf_integrable {x y z : ℝ} (hx : 0 ≤ x) (hy : 0 < y) (hz : 0 < z) :
    IntegrableOn (fun t => 1 / (√(t+x) * √(t+y) * √(t+z))) (Ioi 0) := by
  have hc : 0 < min y z := lt_min hy hz
  refine (integrable_base hc).mono' ?_ ?_
  · apply ContinuousOn.aestronglyMeasurable _ measurableSet_Ioi
    apply ContinuousOn.div continuousOn_const (by fun_prop)
    intro t ht
    have ht' : 0 < t := ht
    have := sqrt_pos.mpr (show 0 < t + x by positivity)
    have := sqrt_pos.mpr (show 0 < t + y by positivity)
    have := sqrt_pos.mpr (show 0 < t + z by positivity)
    positivity
  · filter_upwards [ae_restrict_mem measurableSet_Ioi] with t ht
    have ht' : 0 < t := ht
    have h1 : √t ≤ √(t+x) := sqrt_le_sqrt (by linarith)
    have h2 : √(t + min y z) ≤ √(t+y) := sqrt_le_sqrt (by linarith [min_le_left y z])
    have h3 : √(t + min y z) ≤ √(t+z) := sqrt_le_sqrt (by linarith [min_le_right y z])
    have hs : 0 < √(t + min y z) := sqrt_pos.mpr (by positivity)
    have hst := sqrt_pos.mpr ht'
    rw [Real.norm_of_nonneg (by positivity)]
    apply one_div_le_one_div_of_le (by positivity)
    calc √t * (t + min y z) = √t * (√(t + min y z) * √(t + min y z)) := by rw [mul_self_sqrt (by positivity)]
      _ ≤ √(t+x) * (√(t+y) * √(t+z)) := by gcongr
      _ = _ := by ring

theorem weighted_integrable {x y z : ℝ} (hx : 0 ≤ x) (hy : 0 < y) (hz : 0 < z) (w : ℝ → ℝ) (hw : ContinuousOn w (Ioi 0)) (C : ℝ)
    (hb : ∀ t ∈ Ioi (0:ℝ), |w t| ≤ C) :
    IntegrableOn (fun t => 1 / (√(t+x) * √(t+y) * √(t+z)) * w t) (Ioi 0) := by
  refine Integrable.mul_bdd (c := C) (rf_integrable hx hy hz) (hw.aestronglyMeasurable measurableSet_Ioi) ?_
  filter_upwards [ae_restrict_mem measurableSet_Ioi] with t ht
  exact hb t ht

/-- the duplication substitution `u = (t + λ(t) - λ(0))/4` -/
theorem dup_subst {x y z : ℝ} (hx : 0 ≤ x) (hy : 0 < y) (hz : 0 < z) (w : ℝ → ℝ) :
    ∫ u in Ioi (0:ℝ), 1 / (√(u + (x + lam x y z)/4) * √(u + (y + lam x y z)/4) * √(u + (z + lam x y z)/4)) * w u =
      ∫ t in Ioi (0:ℝ), 1 / (√(t+x) * √(t+y) * √(t+z)) * w ((t + lamT x y z t - lam x y z)/4) := by
  rw [subst_Ioi (fun t => (t + lamT x y z t - lam x y z)/4)
    (fun t => (√(t+x) + √(t+y)) * (√(t+x) + √(t+z)) * (√(t+y) + √(t+z)) / (8 * (√(t+x) * √(t+y) * √(t+z))))]
  · apply setIntegral_congr_fun measurableSet_Ioi
    intro t ht
    have ht' : 0 < t := ht
    have hX := sqrt_pos.mpr (show 0 < t + x by positivity)
    have hY := sqrt_pos.mpr (show 0 < t + y by positivity)
    have hZ := sqrt_pos.mpr (show 0 < t + z by positivity)
    have eX : √(t+x)^2 = t + x := sq_sqrt (by positivity)
    have eY : √(t+y)^2 = t + y := sq_sqrt (by positivity)
    have eZ : √(t+z)^2 = t + z := sq_sqrt (by positivity)
    simp only [lamT]
    generalize √(t+x) = X at *
    generalize √(t+y) = Y at *
    generalize √(t+z) = Z at *
    rw [show (t + (X*Y + X*Z + Y*Z) - lam x y z)/4 + (x + lam x y z)/4 = (X+Y)*(X+Z)/4 by linear_combination -eX/4,
      show (t + (X*Y + X*Z + Y*Z) - lam x y z)/4 + (y + lam x y z)/4 = (X+Y)*(Y+Z)/4 by linear_combination -eY/4,
      show (t + (X*Y + X*Z + Y*Z) - lam x y z)/4 + (z + lam x y z)/4 = (X+Z)*(Y+Z)/4 by linear_combination -eZ/4]
    have e : √((X+Y)*(X+Z)/4) * √((X+Y)*(Y+Z)/4) * √((X+Z)*(Y+Z)/4) = (X+Y)*(X+Z)*(Y+Z)/8 := by
      rw [← sqrt_mul (by positivity), ← sqrt_mul (by positivity),
        show (X+Y)*(X+Z)/4 * ((X+Y)*(Y+Z)/4) * ((X+Z)*(Y+Z)/4) = ((X+Y)*(X+Z)*(Y+Z)/8)^2 by ring, sqrt_sq (by positivity)]
    rw [e]
    generalize w ((t + (X*Y + X*Z + Y*Z) - lam x y z)/4) = W
    have h1 : X + Y ≠ 0 := by positivity
    have h2 : X + Z ≠ 0 := by positivity
    have h3 : Y + Z ≠ 0 := by positivity
    field_simp
  · simp only [lamT_zero x y z hx hy.le]; ring
  · apply Continuous.continuousOn; unfold lamT; fun_prop
  · intro t ht
    have ht' : 0 < t := ht
    have hX := sqrt_pos.mpr (show 0 < t + x by positivity)
    have hY := sqrt_pos.mpr (show 0 < t + y by positivity)
    have hZ := sqrt_pos.mpr (show 0 < t + z by positivity)
    have dX := sqrt_shift_deriv hx ht'
    have dY := sqrt_shift_deriv hy.le ht'
    have dZ := sqrt_shift_deriv hz.le ht'
    have hl : HasDerivAt (lamT x y z) _ t := ((dX.mul dY).add (dX.mul dZ)).add (dY.mul dZ)
    have := ((((hasDerivAt_id t).add hl).sub_const (lam x y z)).div_const 4)
    refine HasDerivAt.congr_deriv this ?_
    clear this hl dX dY dZ
    generalize √(t+x) = X at *
    generalize √(t+y) = Y at *
    generalize √(t+z) = Z at *
    field_simp
    ring
  · intro t ht
    have ht' : 0 < t := ht
    have hX := sqrt_pos.mpr (show 0 < t + x by positivity)
    have hY := sqrt_pos.mpr (show 0 < t + y by positivity)
    have hZ := sqrt_pos.mpr (show 0 < t + z by positivity)
    positivity
  · have h1 : Tendsto (fun t : ℝ => (t - lam x y z)/4) atTop atTop :=
      (tendsto_atTop_add_const_right _ _ tendsto_id).atTop_div_const (by norm_num)
    refine tendsto_atTop_mono ?_ h1
    intro t
    have : 0 ≤ lamT x y z t := by unfold lamT; positivity
    linarith

/-- Carlson's duplication theorem for `RF` -/
theorem RF_dup {x y z : ℝ} (hx : 0 ≤ x) (hy : 0 < y) (hz : 0 < z) :
    RF x y z = RF ((x + lam x y z)/4) ((y + lam x y z)/4) ((z + lam x y z)/4) := by
  have := dup_subst hx hy hz (fun _ => 1)
  simp only [mul_one] at this
  unfold RF; rw [this]

theorem RC_eq_RF {x y : ℝ} (hy : 0 < y) : RC x y = RF x y y := by
  unfold RC RF
  congr 1
  apply setIntegral_congr_fun measurableSet_Ioi
  intro t ht
  have ht' : 0 < t := ht
  simp only
  rw [mul_assoc, mul_self_sqrt (by positivity)]

theorem bet_sub_alfa {x y z p : ℝ} (hx : 0 ≤ x) (hy : 0 ≤ y) (hz : 0 ≤ z) :
    rjBetR x y z p - rjAlfaR x y z p = (p-x)*(p-y)*(p-z) := by
  unfold rjBetR rjAlfaR lam
  rw [sqrt_mul (by positivity : 0 ≤ x*y), sqrt_mul hx, sqrt_mul hx, sqrt_mul hy]
  have a1 := sq_sqrt hx
  have a2 := sq_sqrt hy
  have a3 := sq_sqrt hz
  generalize √x = X at *
  generalize √y = Y at *
  generalize √z = Z at *
  subst a1 a2 a3
  ring

/-- `RC(α,β)` of the duplication of `RJ`, as an integral over `t` -/
theorem RC_dup {x y z p : ℝ} (hx : 0 ≤ x) (hy : 0 < y) (hz : 0 < z) (hp : 0 < p) :
    RC (rjAlfaR x y z p) (rjBetR x y z p) =
      1/2 * ∫ t in Ioi (0:ℝ), 1 / (√(t+x) * √(t+y) * √(t+z)) * (lamT x y z t / ((t+p) * (t + p + lamT x y z t))) := by
  unfold RC
  congr 1
  let σ : ℝ → ℝ := fun t => (t+p)*(√(t+x) + √(t+y) + √(t+z)) + √(t+x)*√(t+y)*√(t+z)
  have hσ0 : σ 0 ^ 2 = rjAlfaR x y z p := by
    simp only [σ, rjAlfaR, zero_add]
    rw [sqrt_mul (by positivity), sqrt_mul hx]
  rw [subst_Ioi (fun t => σ t ^ 2 - rjAlfaR x y z p)
    (fun t => σ t * (lamT x y z t * (t + p + lamT x y z t) / (√(t+x) * √(t+y) * √(t+z))))]
  · apply setIntegral_congr_fun measurableSet_Ioi
    intro t ht
    have ht' : 0 < t := ht
    have hX := sqrt_pos.mpr (show 0 < t + x by positivity)
    have hY := sqrt_pos.mpr (show 0 < t + y by positivity)
    have hZ := sqrt_pos.mpr (show 0 < t + z by positivity)
    have eX : √(t+x)^2 = t + x := sq_sqrt (by positivity)
    have eY : √(t+y)^2 = t + y := sq_sqrt (by positivity)
    have eZ : √(t+z)^2 = t + z := sq_sqrt (by positivity)
    have hσ : 0 < σ t := by simp only [σ]; positivity
    have e1 : √(σ t ^ 2 - rjAlfaR x y z p + rjAlfaR x y z p) = σ t := by
      rw [sub_add_cancel, sqrt_sq hσ.le]
    have e2 : σ t ^ 2 - rjAlfaR x y z p + rjBetR x y z p = (t+p) * (t + p + lamT x y z t)^2 := by
      have ec := bet_sub_alfa hx hy.le hz.le (p := p)
      have : σ t ^ 2 = (t+p) * (t + p + lamT x y z t)^2 - (p-x)*(p-y)*(p-z) := by
        simp only [σ, lamT]
        generalize √(t+x) = X at *
        generalize √(t+y) = Y at *
        generalize √(t+z) = Z at *
        obtain rfl : x = X^2 - t := by linarith
        obtain rfl : y = Y^2 - t := by linarith
        obtain rfl : z = Z^2 - t := by linarith
        ring
      linarith
    simp only [e1, e2]
    have hl : 0 < lamT x y z t := by unfold lamT; positivity
    generalize lamT x y z t = L at *
    generalize σ t = s at *
    have : t + p ≠ 0 := by positivity
    have : t + p + L ≠ 0 := by positivity
    field_simp
  · simp only [hσ0, sub_self]
  · apply Continuous.continuousOn; simp only [σ]; fun_prop
  · intro t ht
    have ht' : 0 < t := ht
    have hX := sqrt_pos.mpr (show 0 < t + x by positivity)
    have hY := sqrt_pos.mpr (show 0 < t + y by positivity)
    have hZ := sqrt_pos.mpr (show 0 < t + z by positivity)
    have eX : √(t+x)^2 = t + x := sq_sqrt (by positivity)
    have eY : √(t+y)^2 = t + y := sq_sqrt (by positivity)
    have eZ : √(t+z)^2 = t + z := sq_sqrt (by positivity)
    have dX := sqrt_shift_deriv hx ht'
    have dY := sqrt_shift_deriv hy.le ht'
    have dZ := sqrt_shift_deriv hz.le ht'
    have dp : HasDerivAt (fun t => t + p) 1 t := (hasDerivAt_id t).add_const p
    have hs : HasDerivAt σ _ t := (dp.mul ((dX.add dY).add dZ)).add ((dX.mul dY).mul dZ)
    refine HasDerivAt.congr_deriv ((hs.pow 2).sub_const _) ?_
    clear hs dp dX dY dZ
    simp only [σ, lamT, Pi.add_apply, Pi.mul_apply]
    generalize √(t+x) = X at *
    generalize √(t+y) = Y at *
    generalize √(t+z) = Z at *
    field_simp
    ring
  · intro t ht
    have ht' : 0 < t := ht
    have hX := sqrt_pos.mpr (show 0 < t + x by positivity)
    have hY := sqrt_pos.mpr (show 0 < t + y by positivity)
    have hZ := sqrt_pos.mpr (show 0 < t + z by positivity)
    simp only [σ, lamT]
    positivity
  · have h1 : Tendsto (fun t : ℝ => t - rjAlfaR x y z p) atTop atTop := tendsto_atTop_add_const_right _ _ tendsto_id
    refine tendsto_atTop_mono' _ ?_ h1
    filter_upwards [eventually_ge_atTop 1] with t ht
    have e : σ t ≥ t * 1 := by
      simp only [σ]
      have : 1 ≤ √(t+y) := by rw [one_le_sqrt]; linarith
      have a1 := sqrt_nonneg (t+x)
      have a3 := sqrt_nonneg (t+z)
      have : t * 1 ≤ (t+p)*(√(t+x) + √(t+y) + √(t+z)) := by gcongr <;> linarith
      have : 0 ≤ √(t+x)*√(t+y)*√(t+z) := by positivity
      linarith
    nlinarith

theorem lamT_nonneg (x y z t : ℝ) : 0 ≤ lamT x y z t := by unfold lamT; positivity
theorem lamT_cont (x y z : ℝ) : Continuous (lamT x y z) := by unfold lamT; fun_prop

/-- Carlson's duplication theorem for `RJ` -/
theorem RJ_dup {x y z p : ℝ} (hx : 0 ≤ x) (hy : 0 < y) (hz : 0 < z) (hp : 0 < p) :
    RJ x y z p = 3 * RC (rjAlfaR x y z p) (rjBetR x y z p) +
      1/4 * RJ ((x + lam x y z)/4) ((y + lam x y z)/4) ((z + lam x y z)/4) ((p + lam x y z)/4) := by
  rw [RC_dup hx hy hz hp]
  have h := dup_subst hx hy hz (fun u => 1/(u + (p + lam x y z)/4))
  unfold RJ
  have e1 : ∀ a b : ℝ, 1 / (a * b) = 1/a * (1/b) := fun a b => by rw [one_div, mul_inv, one_div, one_div]
  simp only [e1] at h ⊢
  rw [h]
  have e2 : ∀ t ∈ Ioi (0:ℝ), 1 / √(t+x) * (1 / √(t+y)) * (1/√(t+z)) * (1/((t + lamT x y z t - lam x y z)/4 + (p + lam x y z)/4)) =
      4 * (1 / √(t+x) * (1 / √(t+y)) * (1/√(t+z)) * (1/(t + p + lamT x y z t))) := by
    intro t ht
    rw [show (t + lamT x y z t - lam x y z)/4 + (p + lam x y z)/4 = (t + p + lamT x y z t)/4 by ring, one_div_div]
    ring
  rw [setIntegral_congr_fun measurableSet_Ioi e2, MeasureTheory.integral_const_mul]
  have i1 := weighted_integrable hx hy hz (fun t => 1/(t + p + lamT x y z t)) (by
    apply ContinuousOn.div continuousOn_const
    · exact (((continuous_id.add continuous_const).add (lamT_cont x y z)).continuousOn)
    · intro t ht
      have ht' : 0 < t := ht
      have := lamT_nonneg x y z t
      positivity) (1/p) (by
    intro t ht
    have ht' : 0 < t := ht
    have := lamT_nonneg x y z t
    rw [abs_of_pos (by positivity)]
    apply one_div_le_one_div_of_le hp
    linarith)
  have i2 := weighted_integrable hx hy hz (fun t => lamT x y z t * (1/(t + p) * (1/(t + p + lamT x y z t)))) (by
    apply ContinuousOn.mul (lamT_cont x y z).continuousOn
    apply ContinuousOn.mul
    · apply ContinuousOn.div continuousOn_const
      · fun_prop
      · intro t ht
        have ht' : 0 < t := ht
        positivity
    apply ContinuousOn.div continuousOn_const
    · exact (((continuous_id.add continuous_const).add (lamT_cont x y z)).continuousOn)
    · intro t ht
      have ht' : 0 < t := ht
      have := lamT_nonneg x y z t
      positivity) (1/p) (by
    intro t ht
    have ht' : 0 < t := ht
    have := lamT_nonneg x y z t
    rw [abs_of_nonneg (by positivity)]
    have h1 : 1/(t+p) ≤ 1/p := one_div_le_one_div_of_le hp (by linarith)
    have h2 : lamT x y z t * (1/(t + p + lamT x y z t)) ≤ 1 := by
      rw [mul_one_div, div_le_one (by positivity)]; linarith
    have h3 : 0 ≤ lamT x y z t * (1/(t + p + lamT x y z t)) := by positivity
    calc lamT x y z t * (1/(t + p) * (1/(t + p + lamT x y z t))) = (1/(t+p)) * (lamT x y z t * (1/(t + p + lamT x y z t))) := by ring
      _ ≤ (1/p) * 1 := by gcongr
      _ = 1/p := mul_one _)
  simp only [e1] at i1 i2
  have e3 : ∀ t : ℝ, lamT x y z t / ((t+p) * (t + p + lamT x y z t)) = lamT x y z t * (1/(t + p) * (1/(t + p + lamT x y z t))) := by
    intro t; rw [← e1, mul_one_div]
  simp only [e3]
  have e4 : ∀ t ∈ Ioi (0:ℝ), 1 / √(t+x) * (1 / √(t+y)) * (1/√(t+z)) * (1/(t+p)) =
      1 / √(t+x) * (1 / √(t+y)) * (1/√(t+z)) * (1/(t + p + lamT x y z t)) +
      1 / √(t+x) * (1 / √(t+y)) * (1/√(t+z)) * (lamT x y z t * (1/(t + p) * (1/(t + p + lamT x y z t)))) := by
    intro t ht
    have ht' : 0 < t := ht
    have := lamT_nonneg x y z t
    rw [← mul_add]
    congr 1
    have : t + p ≠ 0 := by positivity
    have : t + p + lamT x y z t ≠ 0 := by positivity
    field_simp
  rw [setIntegral_congr_fun measurableSet_Ioi e4, integral_add i1 i2]
  ring
end Wiz
