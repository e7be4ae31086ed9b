import Verif.Lemmas.TrapzError
import Verif.Lemmas.SkewedConv
import Verif.Lemmas.CylinderIntegral
import Mathlib.MeasureTheory.Integral.IntegralEqImproper
/-! Error of the azimuthal quadrature of the skewed wakes. -/
namespace Wiz
open Real MeasureTheory Set Filter Topology

theorem turnRule_panels (θ0 : ℝ) (n : ℕ) (f : ℝ → ℝ) : Spec.turnRule θ0 n f = panels (2*π) n (fun x => f (θ0 + x)) := by
  unfold Spec.turnRule panels
  refine Finset.sum_congr rfl fun i _ => ?_
  ring_nf

/-- one azimuthal turn of a twice differentiable function -/
theorem turnRule_error {f f' f'' : ℝ → ℝ} {ζ : ℝ} (θ0 : ℝ) {n : ℕ} (hn : 0 < n) (h1 : ∀ x, HasDerivAt f (f' x) x)
    (h2 : ∀ x, HasDerivAt f' (f'' x) x) (hc : Continuous f'') (hζ : ∀ x, |f'' x| ≤ ζ) (hp : ∀ x, f (x + 2*π) = f x) :
    |Spec.turnRule θ0 n f - ∫ θ in Ioc 0 (2*π), f θ| ≤ (2*π)^3/(12 * n^2) * ζ := by
  have hpi : 0 ≤ 2*π := by positivity
  have e := panels_error (f := fun x => f (θ0 + x)) (f' := fun x => f' (θ0 + x)) (f'' := fun x => f'' (θ0 + x)) (b := 2*π) (ζ := ζ) hpi hn
    (fun x _ => (h1 (θ0 + x)).comp_const_add θ0 x) (fun x _ => (h2 (θ0 + x)).comp_const_add θ0 x)
    (Continuous.continuousOn (by fun_prop)) (fun x _ => hζ _)
  rw [← turnRule_panels] at e
  have hI : ∫ x in (0:ℝ)..(2*π), f (θ0 + x) = ∫ θ in Ioc 0 (2*π), f θ := by
    rw [intervalIntegral.integral_comp_add_left, add_zero]
    have := Function.Periodic.intervalIntegral_add_eq (f := f) hp θ0 0
    rw [this, zero_add, intervalIntegral.integral_of_le hpi]
  rw [hI] at e
  refine e.trans (le_of_eq ?_)
  ring

/-- the azimuthal rule applied to integrals along the generators -/
theorem rule_swap (k k1 k2 : ℝ → ℝ → ℝ) (hm : Measurable (Function.uncurry k)) (B ζ : ℝ → ℝ) (hB : IntegrableOn B (Ioi 0))
    (hb : ∀ s > 0, ∀ θ, |k θ s| ≤ B s) (hζi : IntegrableOn ζ (Ioi 0)) (h1 : ∀ s > 0, ∀ θ, HasDerivAt (fun t => k t s) (k1 θ s) θ)
    (h2 : ∀ s > 0, ∀ θ, HasDerivAt (fun t => k1 t s) (k2 θ s) θ) (hc : ∀ s > 0, Continuous fun θ => k2 θ s)
    (hζ : ∀ s > 0, ∀ θ, |k2 θ s| ≤ ζ s) (hp : ∀ s θ, k (θ + 2*π) s = k θ s) (θ0 : ℝ) {n : ℕ} (hn : 0 < n) :
    |Spec.turnRule θ0 n (fun θ => ∫ s in Ioi 0, k θ s) - ∫ θ in Ioc 0 (2*π), ∫ s in Ioi 0, k θ s|
      ≤ (2*π)^3/(12 * n^2) * ∫ s in Ioi 0, ζ s := by
  have hint : ∀ θ, IntegrableOn (fun s => k θ s) (Ioi 0) := by
    intro θ
    refine hB.mono' (hm.comp measurable_prodMk_left).aestronglyMeasurable ?_
    refine (ae_restrict_iff' measurableSet_Ioi).mpr (Filter.Eventually.of_forall fun s hs => ?_)
    exact hb s hs θ
  have hprod : Integrable (Function.uncurry k) ((volume.restrict (Ioc 0 (2*π))).prod (volume.restrict (Ioi 0))) := by
    have h2 : Integrable (fun p : ℝ × ℝ => (1:ℝ) * B p.2) ((volume.restrict (Ioc 0 (2*π))).prod (volume.restrict (Ioi 0))) :=
      Integrable.mul_prod (integrable_const 1) hB
    refine h2.mono' hm.aestronglyMeasurable ?_
    rw [Measure.prod_restrict]
    refine (ae_restrict_iff' (measurableSet_Ioc.prod measurableSet_Ioi)).mpr (Filter.Eventually.of_forall ?_)
    rintro ⟨θ, s⟩ ⟨-, hs⟩
    simpa using hb s hs θ
  have hsw : ∫ θ in Ioc 0 (2*π), ∫ s in Ioi 0, k θ s = ∫ s in Ioi 0, ∫ θ in Ioc 0 (2*π), k θ s := integral_integral_swap hprod
  have hsi : IntegrableOn (fun s => ∫ θ in Ioc 0 (2*π), k θ s) (Ioi 0) := hprod.integral_prod_right
  have hru : Spec.turnRule θ0 n (fun θ => ∫ s in Ioi 0, k θ s) = ∫ s in Ioi 0, Spec.turnRule θ0 n (fun θ => k θ s) := by
    unfold Spec.turnRule
    rw [integral_finset_sum]
    · refine Finset.sum_congr rfl fun i _ => ?_
      rw [integral_const_mul, integral_div, integral_add (hint _) (hint _)]
    · intro i _
      exact (((hint _).add (hint _)).div_const 2).const_mul _
  have hri : IntegrableOn (fun s => Spec.turnRule θ0 n (fun θ => k θ s)) (Ioi 0) := by
    unfold Spec.turnRule
    refine integrable_finset_sum _ fun i _ => ?_
    exact (((hint _).add (hint _)).div_const 2).const_mul _
  rw [hru, hsw, ← integral_sub hri hsi, ← integral_const_mul, ← Real.norm_eq_abs]
  refine norm_integral_le_of_norm_le (hζi.const_mul _) ?_
  refine (ae_restrict_iff' measurableSet_Ioi).mpr (Filter.Eventually.of_forall fun s hs => ?_)
  exact turnRule_error θ0 hn (h1 s hs) (h2 s hs) (hc s hs) (hζ s hs) (hp s)

/-! ### The kernel at a fixed distance along the wake -/

/-- `N/√q³` and its two derivatives -/
theorem quot_deriv {N N1 N2 q q1 q2 : ℝ → ℝ} (hN : ∀ x, HasDerivAt N (N1 x) x) (hN1 : ∀ x, HasDerivAt N1 (N2 x) x)
    (hq : ∀ x, HasDerivAt q (q1 x) x) (hq1 : ∀ x, HasDerivAt q1 (q2 x) x) (hp : ∀ x, 0 < q x) (x : ℝ) :
    HasDerivAt (fun x => N x * (√(q x))⁻¹^3) (N1 x * (√(q x))⁻¹^3 - 3/2 * N x * q1 x * (√(q x))⁻¹^5) x ∧
    HasDerivAt (fun x => N1 x * (√(q x))⁻¹^3 - 3/2 * N x * q1 x * (√(q x))⁻¹^5)
      (N2 x * (√(q x))⁻¹^3 - 3 * N1 x * q1 x * (√(q x))⁻¹^5 - 3/2 * N x * q2 x * (√(q x))⁻¹^5 + 15/4 * N x * q1 x^2 * (√(q x))⁻¹^7) x := by
  have hg : HasDerivAt (fun x => (√(q x))⁻¹) (-(q1 x/2) * (√(q x))⁻¹^3) x := by
    have h1 := ((hq x).sqrt (hp x).ne').fun_inv (sqrt_pos.mpr (hp x)).ne'
    refine HasDerivAt.congr_deriv h1 ?_
    have := (sqrt_pos.mpr (hp x)).ne'
    field_simp
  have h3 := hg.fun_pow 3
  have h5 := hg.fun_pow 5
  constructor
  · refine HasDerivAt.congr_deriv ((hN x).fun_mul h3) ?_
    norm_num
    ring
  · refine HasDerivAt.congr_deriv (((hN1 x).fun_mul h3).fun_sub ((((hN x).const_mul (3/2)).fun_mul (hq1 x)).fun_mul h5)) ?_
    norm_num
    ring

/-- size of the second derivative -/
theorem quot_bound {N N1 N2 q1 q2 d R b c : ℝ} (hd : 0 < d) (hR : 0 ≤ R) (hN : |N| ≤ R * d) (hN1 : |N1| ≤ b) (hN2 : |N2| ≤ c)
    (hq1 : |q1| ≤ 2 * R * d) (hq2 : |q2| ≤ 2 * R^2 + 2 * R * d) :
    |N2 * d⁻¹^3 - 3 * N1 * q1 * d⁻¹^5 - 3/2 * N * q2 * d⁻¹^5 + 15/4 * N * q1^2 * d⁻¹^7|
      ≤ (c + 3 * R^2) * d⁻¹^3 + (6 * b * R + 18 * R^3) * d⁻¹^4 := by
  have hg : 0 < d⁻¹ := inv_pos.mpr hd
  have hb : 0 ≤ b := (abs_nonneg _).trans hN1
  have t1 : |N2 * d⁻¹^3| ≤ c * d⁻¹^3 := by
    rw [abs_mul, abs_of_pos (by positivity : 0 < d⁻¹^3)]; gcongr
  have t2 : |3 * N1 * q1 * d⁻¹^5| ≤ 3 * b * (2 * R * d) * d⁻¹^5 := by
    rw [abs_mul, abs_mul, abs_mul, abs_of_pos (by positivity : 0 < d⁻¹^5), abs_of_pos (by norm_num : (0:ℝ) < 3)]; gcongr
  have t3 : |3/2 * N * q2 * d⁻¹^5| ≤ 3/2 * (R * d) * (2 * R^2 + 2 * R * d) * d⁻¹^5 := by
    rw [abs_mul, abs_mul, abs_mul, abs_of_pos (by positivity : 0 < d⁻¹^5), abs_of_pos (by norm_num : (0:ℝ) < 3/2)]; gcongr
  have t4 : |15/4 * N * q1^2 * d⁻¹^7| ≤ 15/4 * (R * d) * (2 * R * d)^2 * d⁻¹^7 := by
    rw [abs_mul, abs_mul, abs_mul, abs_pow, abs_of_pos (by positivity : 0 < d⁻¹^7), abs_of_pos (by norm_num : (0:ℝ) < 15/4)]; gcongr
  calc _ ≤ |N2 * d⁻¹^3| + |3 * N1 * q1 * d⁻¹^5| + |3/2 * N * q2 * d⁻¹^5| + |15/4 * N * q1^2 * d⁻¹^7| := by
        refine (abs_add_le _ _).trans (add_le_add_left ?_ _)
        refine (abs_sub _ _).trans (add_le_add_left ?_ _)
        exact abs_sub _ _
    _ ≤ c * d⁻¹^3 + 3 * b * (2 * R * d) * d⁻¹^5 + 3/2 * (R * d) * (2 * R^2 + 2 * R * d) * d⁻¹^5 + 15/4 * (R * d) * (2 * R * d)^2 * d⁻¹^7 := by gcongr
    _ = _ := by
        have h0 := hd.ne'
        field_simp
        ring

/-! ### The weight along the wake -/

/-- integral over a whole line of the inverse square of a distance that is at least `D` and grows linearly beyond `R+D` -/
theorem max_integral {R D : ℝ} (hR : 0 ≤ R) (hD : 0 < D) :
    Integrable (fun s : ℝ => (max D (|s| - R))⁻¹^2) ∧ ∫ s : ℝ, (max D (|s| - R))⁻¹^2 = (2*R + 4*D)/D^2 := by
  have hcont : Continuous fun s : ℝ => (max D (s - R))⁻¹^2 := by
    refine Continuous.pow (Continuous.inv₀ (by fun_prop) fun s => ?_) 2
    exact (lt_max_of_lt_left hD).ne'
  have e2 : ∀ s ∈ Ioi (R + D), (max D (s - R))⁻¹^2 = (s - R)⁻¹^2 := by
    intro s hs
    have hs : R + D < s := hs
    rw [max_eq_right (by linarith)]
  have hF : ∀ s ∈ Ici (R + D), HasDerivAt (fun s => -(s - R)⁻¹) ((s - R)⁻¹^2) s := by
    intro s hs
    have hs : R + D ≤ s := hs
    have h0 : s - R ≠ 0 := by intro h; linarith
    have h1 := (((hasDerivAt_id s).sub_const R).fun_inv h0).fun_neg
    refine HasDerivAt.congr_deriv h1 ?_
    simp only [id_eq]
    field_simp
  have hlim : Tendsto (fun s : ℝ => -(s - R)⁻¹) atTop (𝓝 0) := by
    have : Tendsto (fun s : ℝ => (s - R)⁻¹) atTop (𝓝 0) := tendsto_inv_atTop_zero.comp (tendsto_atTop_add_const_right _ _ tendsto_id)
    simpa using this.neg
  have i2 : IntegrableOn (fun s : ℝ => (s - R)⁻¹^2) (Ioi (R + D)) :=
    integrableOn_Ioi_deriv_of_nonneg' hF (fun s _ => by positivity) hlim
  have v2 : ∫ s in Ioi (R + D), (s - R)⁻¹^2 = 1/D := by
    rw [integral_Ioi_of_hasDerivAt_of_nonneg' hF (fun s _ => by positivity) hlim]
    simp
  have i1 : IntegrableOn (fun s : ℝ => (max D (s - R))⁻¹^2) (Ioc 0 (R + D)) :=
    (hcont.integrableOn_Icc).mono_set Ioc_subset_Icc_self
  have v1 : ∫ s in Ioc 0 (R + D), (max D (s - R))⁻¹^2 = (R + D)/D^2 := by
    have : ∀ s ∈ Ioc 0 (R + D), (max D (s - R))⁻¹^2 = 1/D^2 := by
      intro s hs
      rw [max_eq_left (by linarith [hs.2])]
      field_simp
    rw [setIntegral_congr_fun measurableSet_Ioc this]
    rw [setIntegral_const]
    simp [measureReal_def, Real.volume_Ioc, ENNReal.toReal_ofReal (by linarith : 0 ≤ R + D)]
    ring
  have i3 : IntegrableOn (fun s : ℝ => (max D (s - R))⁻¹^2) (Ioi (R + D)) := i2.congr_fun (fun s hs => (e2 s hs).symm) measurableSet_Ioi
  have hu : Ioi (0:ℝ) = Ioc 0 (R + D) ∪ Ioi (R + D) := (Ioc_union_Ioi_eq_Ioi (by linarith)).symm
  have i0 : IntegrableOn (fun s : ℝ => (max D (s - R))⁻¹^2) (Ioi 0) := by rw [hu]; exact i1.union i3
  have v0 : ∫ s in Ioi (0:ℝ), (max D (s - R))⁻¹^2 = (R + D)/D^2 + 1/D := by
    rw [hu, setIntegral_union (Ioc_disjoint_Ioi le_rfl) measurableSet_Ioi i1 i3, v1, setIntegral_congr_fun measurableSet_Ioi e2, v2]
  constructor
  · have hp : IntegrableOn (fun s : ℝ => (max D (|s| - R))⁻¹^2) (Ioi 0) :=
      i0.congr_fun (fun s hs => by simp only [abs_of_pos (show 0 < s from hs)]) measurableSet_Ioi
    have hn : IntegrableOn (fun s : ℝ => (max D (|s| - R))⁻¹^2) (Iio 0) := by
      have h1 := (Measure.measurePreserving_neg (volume : Measure ℝ)).integrableOn_comp_preimage
        (Homeomorph.neg ℝ).measurableEmbedding (f := fun s : ℝ => (max D (|s| - R))⁻¹^2) (s := Ioi 0)
      have h2 := h1.mpr hp
      simpa [Function.comp_def] using h2
    have hn' := (integrableOn_Iic_iff_integrableOn_Iio (by simp)).mpr hn
    rw [← integrableOn_univ, ← Iic_union_Ioi (a := (0:ℝ))]
    exact hn'.union hp
  · have := integral_comp_abs (f := fun s : ℝ => (max D (s - R))⁻¹^2)
    rw [this, v0]
    field_simp
    ring

theorem max_integral_half {R D : ℝ} (hR : 0 ≤ R) (hD : 0 < D) (s0 : ℝ) :
    IntegrableOn (fun s : ℝ => (max D (|s - s0| - R))⁻¹^2) (Ioi 0) ∧ ∫ s in Ioi (0:ℝ), (max D (|s - s0| - R))⁻¹^2 ≤ (2*R + 4*D)/D^2 := by
  obtain ⟨hi, hv⟩ := max_integral hR hD
  have hi' := hi.comp_sub_right s0
  refine ⟨hi'.integrableOn, ?_⟩
  rw [← hv, ← integral_sub_right_eq_self (fun s : ℝ => (max D (|s| - R))⁻¹^2) s0]
  exact setIntegral_le_integral hi' (Filter.Eventually.of_forall fun s => by positivity)

/-! ### The two sheets -/

theorem wake_coord (R m θ s : ℝ) (P : V3 ℝ) :
    P - Spec.wakePoint R m θ s = ⟨P.x - s * (Spec.skewDir m).x - R * cos θ, P.y - R * sin θ, P.z - s * (Spec.skewDir m).z⟩ := by
  ext <;> simp [Spec.wakePoint, Spec.rim, Spec.skewDir] <;> ring

theorem wake_norm (R m θ s : ℝ) (P : V3 ℝ) :
    V3.norm (P - Spec.wakePoint R m θ s)
      = √((P.x - s * (Spec.skewDir m).x - R * cos θ)^2 + (P.y - R * sin θ)^2 + (P.z - s * (Spec.skewDir m).z)^2) := by
  rw [wake_coord]; rfl

theorem wake_grow {R m : ℝ} (hR : 0 ≤ R) (P : V3 ℝ) (θ s : ℝ) :
    |s - V3.dot P (Spec.skewDir m)| - R ≤ V3.norm (P - Spec.wakePoint R m θ s) := by
  have he := skewDir_unit m
  have hcs := cauchy_schwarz (P - Spec.wakePoint R m θ s) _ he
  have hex : (Spec.skewDir m).x^2 ≤ 1 := by
    simp only [V3.dot] at he
    nlinarith [sq_nonneg (Spec.skewDir m).y, sq_nonneg (Spec.skewDir m).z]
  have hex' : |(Spec.skewDir m).x| ≤ 1 := by
    rw [← sqrt_sq_eq_abs]; exact sqrt_le_one.mpr hex
  have hr : |R * cos θ * (Spec.skewDir m).x| ≤ R := by
    rw [abs_mul, abs_mul, abs_of_nonneg hR]
    calc R * |cos θ| * |(Spec.skewDir m).x| ≤ R * 1 * 1 := by gcongr; exact abs_cos_le_one θ
      _ = R := by ring
  have hdot : V3.dot (P - Spec.wakePoint R m θ s) (Spec.skewDir m) = V3.dot P (Spec.skewDir m) - R * cos θ * (Spec.skewDir m).x - s := by
    simp only [V3.dot] at he
    rw [wake_coord]
    simp only [V3.dot]
    have hy : (Spec.skewDir m).y = 0 := rfl
    rw [hy] at he ⊢
    linear_combination -s * he
  rw [hdot] at hcs
  have hN0 : 0 ≤ V3.norm (P - Spec.wakePoint R m θ s) := sqrt_nonneg _
  have hab := abs_le.mp (abs_le_of_sq_le_sq hcs hN0)
  have h1 := abs_le.mp hr
  rcases abs_cases (s - V3.dot P (Spec.skewDir m)) with ⟨h, -⟩ | ⟨h, -⟩ <;> rw [h] <;> linarith [h1.1, h1.2, hab.1, hab.2]

/-- quadrature error for a kernel `N/(4π|d|³)` on the wake -/
theorem sheet_rule {R m D K : ℝ} {P : V3 ℝ} (hR : 0 ≤ R) (hD : 0 < D) (hdist : ∀ θ s, 0 ≤ s → D ≤ V3.norm (P - Spec.wakePoint R m θ s))
    (N N1 N2 : ℝ → ℝ → ℝ) (b c : ℝ → ℝ) (hm : Measurable (Function.uncurry N)) (hN : ∀ s θ, HasDerivAt (fun t => N t s) (N1 θ s) θ)
    (hN1 : ∀ s θ, HasDerivAt (fun t => N1 t s) (N2 θ s) θ) (hN2 : ∀ s, Continuous fun θ => N2 θ s) (hper : ∀ s θ, N (θ + 2*π) s = N θ s)
    (b0 : ∀ θ s, |N θ s| ≤ R * V3.norm (P - Spec.wakePoint R m θ s)) (b1 : ∀ θ s, |N1 θ s| ≤ b (V3.norm (P - Spec.wakePoint R m θ s)))
    (b2 : ∀ θ s, |N2 θ s| ≤ c (V3.norm (P - Spec.wakePoint R m θ s)))
    (hK : ∀ d ≥ D, (c d + 3 * R^2) * d⁻¹^3 + (6 * b d * R + 18 * R^3) * d⁻¹^4 ≤ K * d⁻¹^2) (θ0 : ℝ) {n : ℕ} (hn : 0 < n) :
    |Spec.turnRule θ0 n (fun θ => ∫ s in Ioi 0, 1 / (4*π) * (1 / V3.norm (P - Spec.wakePoint R m θ s)^3) * N θ s)
      - ∫ θ in Ioc 0 (2*π), ∫ s in Ioi 0, 1 / (4*π) * (1 / V3.norm (P - Spec.wakePoint R m θ s)^3) * N θ s|
      ≤ (2*π)^3/(12 * n^2) * (1/(4*π) * K * ((2*R + 4*D)/D^2)) := by
  set e := Spec.skewDir m with he
  set s0 := V3.dot P e with hs0
  have hM : ∀ θ s, 0 ≤ s → max D (|s - s0| - R) ≤ V3.norm (P - Spec.wakePoint R m θ s) := fun θ s hs => max_le (hdist θ s hs) (wake_grow hR P θ s)
  have hMp : ∀ s, 0 < max D (|s - s0| - R) := fun s => lt_max_of_lt_left hD
  have hK0 : 0 ≤ K := by
    by_contra hneg
    push Not at hneg
    have h1 := b1 0 0
    have h2 := b2 0 0
    have h3 := hK _ (hdist 0 0 le_rfl)
    have hd := lt_of_lt_of_le hD (hdist 0 0 le_rfl)
    generalize V3.norm (P - Spec.wakePoint R m 0 0) = d at *
    have hb0 : 0 ≤ b d := (abs_nonneg _).trans h1
    have hc0 : 0 ≤ c d := (abs_nonneg _).trans h2
    have hi : 0 < d⁻¹ := inv_pos.mpr hd
    have : 0 ≤ (c d + 3 * R^2) * d⁻¹^3 + (6 * b d * R + 18 * R^3) * d⁻¹^4 := by positivity
    have : K * d⁻¹^2 < 0 := mul_neg_of_neg_of_pos hneg (by positivity)
    linarith
  obtain ⟨hwi, hwv⟩ := max_integral_half hR hD s0
  have hcont : Continuous fun p : ℝ × ℝ => V3.norm (P - Spec.wakePoint R m p.1 p.2) := by
    simp only [wake_norm]; fun_prop
  -- the distance squared and its derivatives
  let q : ℝ → ℝ → ℝ := fun s θ => (P.x - s * e.x - R * cos θ)^2 + (P.y - R * sin θ)^2 + (P.z - s * e.z)^2
  let q1 : ℝ → ℝ → ℝ := fun s θ => 2 * R * ((P.x - s * e.x) * sin θ - P.y * cos θ)
  let q2 : ℝ → ℝ → ℝ := fun s θ => 2 * R * ((P.x - s * e.x) * cos θ + P.y * sin θ)
  have hnq : ∀ θ s, V3.norm (P - Spec.wakePoint R m θ s) = √(q s θ) := fun θ s => wake_norm R m θ s P
  have hqp : ∀ s, 0 < s → ∀ θ, 0 < q s θ := by
    intro s hs θ
    have h := lt_of_lt_of_le hD (hdist θ s hs.le)
    rw [hnq] at h
    exact sqrt_pos.mp h
  have dq : ∀ s θ, HasDerivAt (q s) (q1 s θ) θ := by
    intro s θ
    have h1 := ((((hasDerivAt_cos θ).const_mul R).const_sub (P.x - s * e.x)).fun_pow 2)
    have h2 := ((((hasDerivAt_sin θ).const_mul R).const_sub P.y).fun_pow 2)
    refine HasDerivAt.congr_deriv ((h1.fun_add h2).add_const ((P.z - s * e.z)^2)) ?_
    simp only [q1]
    norm_num
    ring
  have dq1 : ∀ s θ, HasDerivAt (q1 s) (q2 s θ) θ := by
    intro s θ
    have h1 := (((hasDerivAt_sin θ).const_mul (P.x - s * e.x)).fun_sub ((hasDerivAt_cos θ).const_mul P.y)).const_mul (2 * R)
    refine HasDerivAt.congr_deriv h1 ?_
    simp only [q2]
    ring
  have hsc : ∀ a b θ : ℝ, |a * cos θ + b * sin θ| ≤ √(a^2 + b^2) := by
    intro a b θ
    apply abs_le_sqrt
    have := sin_sq_add_cos_sq θ
    nlinarith [sq_nonneg (a * sin θ - b * cos θ)]
  have bq1 : ∀ s θ, |q1 s θ| ≤ 2 * R * √(q s θ) := by
    intro s θ
    have e1 : q1 s θ = 2 * R * (-(P.y - R * sin θ) * cos θ + (P.x - s * e.x - R * cos θ) * sin θ) := by simp only [q1]; ring
    rw [e1, abs_mul, abs_of_nonneg (by positivity : 0 ≤ 2 * R)]
    gcongr
    refine (hsc _ _ θ).trans (sqrt_le_sqrt ?_)
    simp only [q]
    nlinarith [sq_nonneg (P.z - s * e.z)]
  have bq2 : ∀ s θ, |q2 s θ| ≤ 2 * R^2 + 2 * R * √(q s θ) := by
    intro s θ
    have hcs := sin_sq_add_cos_sq θ
    have e1 : q2 s θ = 2 * R^2 + 2 * R * ((P.x - s * e.x - R * cos θ) * cos θ + (P.y - R * sin θ) * sin θ) := by
      simp only [q2]; linear_combination (2 * R^2) * hcs
    rw [e1]
    refine (abs_add_le _ _).trans (add_le_add ?_ ?_)
    · rw [abs_of_nonneg (by positivity)]
    · rw [abs_mul, abs_of_nonneg (by positivity : 0 ≤ 2 * R)]
      gcongr
      refine (hsc _ _ θ).trans (sqrt_le_sqrt ?_)
      simp only [q]
      nlinarith [sq_nonneg (P.z - s * e.z)]
  have hpi : (0:ℝ) < 1/(4*π) := by positivity
  have key := rule_swap (fun θ s => 1 / (4*π) * (1 / V3.norm (P - Spec.wakePoint R m θ s)^3) * N θ s)
    (fun θ s => 1/(4*π) * (N1 θ s * (√(q s θ))⁻¹^3 - 3/2 * N θ s * q1 s θ * (√(q s θ))⁻¹^5))
    (fun θ s => 1/(4*π) * (N2 θ s * (√(q s θ))⁻¹^3 - 3 * N1 θ s * q1 s θ * (√(q s θ))⁻¹^5 - 3/2 * N θ s * q2 s θ * (√(q s θ))⁻¹^5
      + 15/4 * N θ s * q1 s θ^2 * (√(q s θ))⁻¹^7))
    (by
      refine Measurable.mul (Measurable.const_mul (Measurable.div measurable_const ?_) _) hm
      exact (hcont.measurable).pow_const 3)
    (fun s => 1/(4*π) * R * (max D (|s - s0| - R))⁻¹^2) (fun s => 1/(4*π) * K * (max D (|s - s0| - R))⁻¹^2)
    (hwi.const_mul _)
    (by
      intro s hs θ
      have h1 := b0 θ s
      have h2 := hM θ s hs.le
      have h3 := hMp s
      have hd := lt_of_lt_of_le h3 h2
      generalize V3.norm (P - Spec.wakePoint R m θ s) = d at *
      rw [abs_mul, abs_of_pos (by positivity)]
      calc 1/(4*π) * (1/d^3) * |N θ s| ≤ 1/(4*π) * (1/d^3) * (R * d) := by gcongr
        _ = 1/(4*π) * R * d⁻¹^2 := by field_simp
        _ ≤ 1/(4*π) * R * (max D (|s - s0| - R))⁻¹^2 := by gcongr)
    (hwi.const_mul _)
    (by
      intro s hs θ
      have h := (quot_deriv (hN s) (hN1 s) (dq s) (dq1 s) (hqp s hs) θ).1.const_mul (1/(4*π))
      have e1 : (fun t => 1 / (4*π) * (1 / V3.norm (P - Spec.wakePoint R m t s)^3) * N t s) = fun t => 1/(4*π) * (N t s * (√(q s t))⁻¹^3) := by
        funext t
        rw [hnq]
        rw [one_div (√(q s t) ^ 3), inv_pow]
        ring
      rw [e1]
      exact h)
    (fun s hs θ => (quot_deriv (hN s) (hN1 s) (dq s) (dq1 s) (hqp s hs) θ).2.const_mul (1/(4*π)))
    (by
      intro s hs
      have c0 : Continuous fun θ => N θ s := continuous_iff_continuousAt.mpr fun θ => (hN s θ).continuousAt
      have c1 : Continuous fun θ => N1 θ s := continuous_iff_continuousAt.mpr fun θ => (hN1 s θ).continuousAt
      have c2 := hN2 s
      have cq : Continuous fun θ => (√(q s θ))⁻¹ := by
        refine Continuous.inv₀ ?_ fun θ => (sqrt_pos.mpr (hqp s hs θ)).ne'
        exact (continuous_iff_continuousAt.mpr fun θ => (dq s θ).continuousAt).sqrt
      have cq1 : Continuous (q1 s) := continuous_iff_continuousAt.mpr fun θ => (dq1 s θ).continuousAt
      have cq2 : Continuous (q2 s) := by simp only [q2]; fun_prop
      fun_prop)
    (by
      intro s hs θ
      have hd := sqrt_pos.mpr (hqp s hs θ)
      have h1 := quot_bound hd hR (by rw [← hnq]; exact b0 θ s) (b1 θ s) (b2 θ s) (bq1 s θ) (bq2 s θ)
      rw [hnq] at h1
      have h2 := hK (√(q s θ)) (by have := hdist θ s hs.le; rw [hnq] at this; exact this)
      have h3 := hM θ s hs.le
      rw [hnq] at h3
      have h4 := hMp s
      rw [abs_mul, abs_of_pos hpi, mul_assoc (1/(4*π)) K]
      refine mul_le_mul_of_nonneg_left (h1.trans (h2.trans ?_)) hpi.le
      gcongr)
    (by
      intro s θ
      rw [hper, wake_norm, wake_norm, cos_add_two_pi, sin_add_two_pi])
    θ0 hn
  refine key.trans ?_
  rw [integral_const_mul]
  gcongr

theorem turnRule_smul (θ0 γ : ℝ) (n : ℕ) (f : ℝ → ℝ) : Spec.turnRule θ0 n (fun θ => γ * f θ) = γ * Spec.turnRule θ0 n f := by
  unfold Spec.turnRule
  rw [Finset.mul_sum]
  refine Finset.sum_congr rfl fun i _ => ?_
  ring

end Wiz
