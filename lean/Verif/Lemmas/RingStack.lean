import Verif.Lemmas.Riemann
import Verif.Lemmas.SkewedConv
import Mathlib.MeasureTheory.Integral.Prod
import Mathlib.MeasureTheory.Integral.IntegralEqImproper
import Mathlib.Analysis.SpecialFunctions.ImproperIntegrals
/-! # A stack of filaments converges to the sheet -/
namespace Wiz
open MeasureTheory Set Filter Topology

/-- cutting a doubly integrated sheet into filaments of strength `c L/n` at the stations `c i L/n` -/
theorem sheet_sum (k : ℝ → ℝ → ℝ) (B c : ℝ) (hc : 0 < c)
    (hk : ContinuousOn (Function.uncurry k) (univ ×ˢ Ici 0))
    (hB : ∀ θ, ∀ s, 0 ≤ s → |k θ s| ≤ B / (1 + s^2)) :
    ∀ ε > 0, ∃ L0, 0 < L0 ∧ ∀ L ≥ L0, ∃ N0 : ℕ, ∀ n ≥ N0,
      |∑ i ∈ Finset.range (n+1), c * (L/n) * (∫ θ in Ioc 0 (2*Real.pi), k θ (c * (i * (L/n))))
        - ∫ θ in Ioc 0 (2*Real.pi), ∫ s in Ioi 0, k θ s| < ε := by
  set G : ℝ → ℝ := fun s => ∫ θ in Ioc 0 (2*Real.pi), k θ s with hG
  have hB0 : 0 ≤ B := by
    have h := hB 0 0 le_rfl
    have := abs_nonneg (k 0 0)
    norm_num at h
    linarith
  have hs : ∀ s, 0 ≤ s → Continuous fun θ => k θ s := by
    intro s hs
    have : Continuous fun θ : ℝ => ((θ, s) : ℝ × ℝ) := by fun_prop
    have h2 := hk.comp_continuous this (fun θ => ⟨mem_univ _, hs⟩)
    exact h2
  have ht : ∀ θ, ContinuousOn (fun s => k θ s) (Ici 0) := by
    intro θ
    have : ContinuousOn (fun s : ℝ => ((θ, s) : ℝ × ℝ)) (Ici 0) := by fun_prop
    exact hk.comp this (fun s hs => ⟨mem_univ _, hs⟩)
  have hGc : ContinuousOn G (Ici 0) := by
    apply continuousOn_of_dominated (bound := fun _ => B)
    · intro s h; exact (hs s h).aestronglyMeasurable
    · intro s h
      refine ae_of_all _ fun θ => ?_
      rw [Real.norm_eq_abs]
      refine (hB θ s h).trans (div_le_self hB0 (by nlinarith))
    · simp
    · exact ae_of_all _ fun θ => ht θ
  have hdec : IntegrableOn (fun s : ℝ => B / (1 + s^2)) (Ioi 0) := by
    have := (integrable_inv_one_add_sq.const_mul B).integrableOn (s := Ioi 0)
    simpa [div_eq_mul_inv] using this
  have hprod : Integrable (Function.uncurry k) ((volume.restrict (Ioc 0 (2*Real.pi))).prod (volume.restrict (Ioi 0))) := by
    have hint : Integrable (fun p : ℝ × ℝ => (1:ℝ) * (B / (1 + p.2^2))) ((volume.restrict (Ioc 0 (2*Real.pi))).prod (volume.restrict (Ioi 0))) :=
      Integrable.mul_prod (f := fun _ => (1:ℝ)) (g := fun s : ℝ => B / (1 + s^2)) (by simp) hdec
    refine hint.mono' ?_ ?_
    · rw [Measure.prod_restrict]
      exact (hk.mono (prod_mono (subset_univ _) Ioi_subset_Ici_self)).aestronglyMeasurable (measurableSet_Ioc.prod measurableSet_Ioi)
    · rw [Measure.prod_restrict]
      refine (ae_restrict_mem (measurableSet_Ioc.prod measurableSet_Ioi)).mono fun p hp => ?_
      rw [Real.norm_eq_abs, one_mul]
      exact hB p.1 p.2 (mem_Ioi.mp hp.2).le
  have hswap : ∫ θ in Ioc 0 (2*Real.pi), ∫ s in Ioi 0, k θ s = ∫ s in Ioi 0, G s := integral_integral_swap hprod
  have hGi : IntegrableOn G (Ioi 0) := hprod.integral_prod_right
  have hGci : IntegrableOn (fun z => c * G (c * z)) (Ioi 0) := by
    have := (integrableOn_Ioi_comp_mul_left_iff G 0 hc).mpr (by rwa [mul_zero])
    exact this.const_mul c
  have hcv : ∫ z in Ioi 0, c * G (c * z) = ∫ s in Ioi 0, G s := by
    rw [integral_const_mul, integral_comp_mul_left_Ioi G 0 hc, mul_zero, smul_eq_mul, ← mul_assoc, mul_inv_cancel₀ hc.ne', one_mul]
  have hlim := intervalIntegral_tendsto_integral_Ioi 0 hGci tendsto_id
  rw [hcv, ← hswap] at hlim
  intro ε hε
  rw [Metric.tendsto_atTop] at hlim
  obtain ⟨L1, hL1⟩ := hlim (ε/2) (by linarith)
  refine ⟨max L1 1, by positivity, fun L hL => ?_⟩
  have h1 := hL1 L (le_trans (le_max_left _ _) hL)
  have hLp : 0 < L := lt_of_lt_of_le (by norm_num) (le_trans (le_max_right L1 1) hL)
  have hcont : ContinuousOn (fun z => c * G (c * z)) (Icc 0 L) := by
    apply ContinuousOn.const_mul 
    exact hGc.comp (by fun_prop) (fun z hz => mul_nonneg hc.le hz.1)
  have h2 := closed_sum_tendsto (fun z => c * G (c * z)) 0 L hLp hcont
  rw [Metric.tendsto_atTop] at h2
  obtain ⟨N0, hN0⟩ := h2 (ε/2) (by linarith)
  refine ⟨N0, fun n hn => ?_⟩
  have h3 := hN0 n hn
  rw [Real.dist_eq] at h1 h3
  simp only [sub_zero, zero_add, id] at h1 h3
  have e : ∀ i : ℕ, c * (L/n) * G (c * (i * (L/n))) = L/n * (c * G (c * (i * (L/n)))) := fun i => by ring
  change |∑ i ∈ Finset.range (n+1), c * (L/n) * G (c * (i * (L/n))) - _| < ε
  rw [Finset.sum_congr rfl (fun i _ => e i)]
  rw [abs_lt] at h1 h3 ⊢
  constructor <;> linarith

/-- off the wake, the squared distance to the wake points grows like `1+s²` -/
theorem offWake_dist {R m : ℝ} {P : V3 ℝ} (h : Spec.OffWake R m P) :
    ∃ c > 0, ∀ θ s, 0 ≤ s → c * (1 + s^2) ≤ V3.norm (P - Spec.wakePoint R m θ s) ^ 2 := by
  have he := skewDir_unit m
  set e := Spec.skewDir m with hE
  have hsq : ∀ θ s, V3.norm (P - Spec.wakePoint R m θ s) ^ 2 =
      (P.x - (R * Real.cos θ + s * e.x))^2 + (P.y - (R * Real.sin θ + s * e.y))^2 + (P.z - s * e.z)^2 := by
    intro θ s
    rw [norm_sq]
    simp only [V3.dot, Spec.wakePoint, Spec.rim, V3.sub_x, V3.sub_y, V3.sub_z, V3.add_x, V3.add_y, V3.add_z, V3.smul_x, V3.smul_y, V3.smul_z, ← hE]
    ring
  have hpos : ∀ θ s, 0 ≤ s → 0 < V3.norm (P - Spec.wakePoint R m θ s) ^ 2 := by
    intro θ s hs
    rcases eq_or_lt_of_le (sq_nonneg (V3.norm (P - Spec.wakePoint R m θ s))) with h0 | h0
    · exfalso
      apply h θ s hs
      have h1 := hsq θ s
      rw [← h0] at h1
      have a1 : P.x - (R * Real.cos θ + s * e.x) = 0 := by nlinarith [sq_nonneg (P.x - (R * Real.cos θ + s * e.x)), sq_nonneg (P.y - (R * Real.sin θ + s * e.y)), sq_nonneg (P.z - s * e.z)]
      have a2 : P.y - (R * Real.sin θ + s * e.y) = 0 := by nlinarith [sq_nonneg (P.x - (R * Real.cos θ + s * e.x)), sq_nonneg (P.y - (R * Real.sin θ + s * e.y)), sq_nonneg (P.z - s * e.z)]
      have a3 : P.z - s * e.z = 0 := by nlinarith [sq_nonneg (P.x - (R * Real.cos θ + s * e.x)), sq_nonneg (P.y - (R * Real.sin θ + s * e.y)), sq_nonneg (P.z - s * e.z)]
      ext
      · simp only [Spec.wakePoint, Spec.rim, V3.add_x, V3.smul_x, ← hE]; linarith
      · simp only [Spec.wakePoint, Spec.rim, V3.add_y, V3.smul_y, ← hE]; linarith
      · simp only [Spec.wakePoint, Spec.rim, V3.add_z, V3.smul_z, ← hE]; linarith
    · exact h0
  -- far away
  set a : ℝ := P.x^2 + P.y^2 + P.z^2 + R^2 + 1 with ha
  have ha1 : 1 ≤ a := by rw [ha]; nlinarith [sq_nonneg P.x, sq_nonneg P.y, sq_nonneg P.z, sq_nonneg R]
  have he' : e.x^2 + e.y^2 + e.z^2 = 1 := by simp only [V3.dot] at he; linarith
  have hfar : ∀ θ s, 4*a ≤ s → 1/8 * (1 + s^2) ≤ V3.norm (P - Spec.wakePoint R m θ s) ^ 2 := by
    intro θ s hs
    rw [hsq]
    have hcs := Real.sin_sq_add_cos_sq θ
    have hA : (P.x - R * Real.cos θ)^2 + (P.y - R * Real.sin θ)^2 + P.z^2 ≤ 2*a := by
      rw [ha]
      nlinarith [sq_nonneg (P.x + R * Real.cos θ), sq_nonneg (P.y + R * Real.sin θ), sq_nonneg P.z]
    have hy : (P.x - (R * Real.cos θ + s * e.x))^2 + (P.y - (R * Real.sin θ + s * e.y))^2 + (P.z - s * e.z)^2
        + ((P.x - R * Real.cos θ)^2 + (P.y - R * Real.sin θ)^2 + P.z^2) ≥ s^2/2 := by
      have : ∀ u v : ℝ, (u - s*v)^2 + u^2 ≥ s^2/2 * v^2 := fun u v => by nlinarith [sq_nonneg (2*u - s*v)]
      have t1 := this (P.x - R * Real.cos θ) e.x
      have t2 := this (P.y - R * Real.sin θ) e.y
      have t3 := this P.z e.z
      have : s^2/2 = s^2/2*(e.x^2+e.y^2+e.z^2) := by rw [he']; ring
      rw [this]
      nlinarith
    nlinarith
  have hK : IsCompact (Icc (0:ℝ) (2*Real.pi) ×ˢ Icc (0:ℝ) (4*a)) := isCompact_Icc.prod isCompact_Icc
  have hne : (Icc (0:ℝ) (2*Real.pi) ×ˢ Icc (0:ℝ) (4*a)).Nonempty :=
    ⟨(0, 0), ⟨le_rfl, by positivity⟩, ⟨le_rfl, by linarith⟩⟩
  have hcont : Continuous fun p : ℝ × ℝ => V3.norm (P - Spec.wakePoint R m p.1 p.2) ^ 2 := by
    simp only [hsq]; fun_prop
  obtain ⟨p0, hp0, hmin⟩ := hK.exists_isMinOn hne hcont.continuousOn
  set μ := V3.norm (P - Spec.wakePoint R m p0.1 p0.2) ^ 2 with hμ
  have hμp : 0 < μ := hpos p0.1 p0.2 hp0.2.1
  refine ⟨min (1/8) (μ/(1 + (4*a)^2)), by positivity, fun θ s hs => ?_⟩
  by_cases hsa : s ≤ 4*a
  · have hper : Function.Periodic (fun θ => V3.norm (P - Spec.wakePoint R m θ s) ^ 2) (2*Real.pi) := by
      intro t
      simp only [hsq, Real.cos_add_two_pi, Real.sin_add_two_pi]
    obtain ⟨t, ht, hte⟩ := hper.exists_mem_Ico₀ (by positivity) θ
    have h1 : μ ≤ V3.norm (P - Spec.wakePoint R m t s) ^ 2 := hmin (a := (t, s)) ⟨⟨ht.1, ht.2.le⟩, ⟨hs, hsa⟩⟩
    rw [show V3.norm (P - Spec.wakePoint R m θ s) ^ 2 = _ from hte]
    refine le_trans ?_ h1
    have h2 : min (1/8) (μ/(1 + (4*a)^2)) ≤ μ/(1 + (4*a)^2) := min_le_right _ _
    have h3 : 1 + s^2 ≤ 1 + (4*a)^2 := by nlinarith
    calc min (1/8) (μ/(1 + (4*a)^2)) * (1 + s^2) ≤ μ/(1 + (4*a)^2) * (1 + (4*a)^2) := by gcongr
      _ = μ := by field_simp
  · push Not at hsa
    refine le_trans ?_ (hfar θ s hsa.le)
    gcongr
    exact min_le_left _ _

/-- the three components of the kernel of the tangential sheet are continuous and decay like `1/(1+s²)` -/
theorem tangKernel_bound {R m : ℝ} {P : V3 ℝ} (h : Spec.OffWake R m P) (π' : V3 ℝ → ℝ)
    (hπ : π' = V3.x ∨ π' = V3.y ∨ π' = V3.z) :
    ContinuousOn (Function.uncurry fun θ s => π' (Spec.bsKernel (Spec.wakePoint R m θ s) (Spec.rimTangent R θ) P)) (univ ×ˢ Ici 0) ∧
    ∃ B, ∀ θ s, 0 ≤ s → |π' (Spec.bsKernel (Spec.wakePoint R m θ s) (Spec.rimTangent R θ) P)| ≤ B / (1 + s^2) := by
  obtain ⟨c, hc, hd⟩ := offWake_dist h
  have hnp : ∀ θ s, 0 ≤ s → 0 < V3.norm (P - Spec.wakePoint R m θ s) := by
    intro θ s hs
    have h1 := hd θ s hs
    have h2 : 0 < c * (1 + s^2) := by positivity
    have h3 : 0 ≤ V3.norm (P - Spec.wakePoint R m θ s) := Real.sqrt_nonneg _
    exact lt_of_le_of_ne h3 (fun h0 => by rw [← h0] at h1; nlinarith)
  have hnc : Continuous fun p : ℝ × ℝ => V3.norm (P - Spec.wakePoint R m p.1 p.2) := by
    unfold V3.norm
    simp only [Spec.wakePoint, Spec.rim, V3.sub_x, V3.sub_y, V3.sub_z, V3.add_x, V3.add_y, V3.add_z, V3.smul_x, V3.smul_y, V3.smul_z]
    fun_prop
  have hf : ContinuousOn (fun p : ℝ × ℝ => 1 / (4 * Real.pi) * (1 / V3.norm (P - Spec.wakePoint R m p.1 p.2) ^ 3)) (univ ×ˢ Ici 0) := by
    apply ContinuousOn.const_mul
    apply ContinuousOn.div continuousOn_const (hnc.pow 3).continuousOn
    intro p hp
    exact pow_ne_zero 3 (hnp p.1 p.2 hp.2).ne'
  have key : ∀ q : ℝ → V3 ℝ → ℝ, (∀ θ v, |q θ v| ≤ 2 * |R| * V3.norm v) →
      (∀ θ s, 0 ≤ s → |1 / (4 * Real.pi) * (1 / V3.norm (P - Spec.wakePoint R m θ s) ^ 3) * q θ (P - Spec.wakePoint R m θ s)| ≤ (2 * |R| / (4 * Real.pi) / c) / (1 + s^2)) := by
    intro q hq θ s hs
    have hn := hnp θ s hs
    have h1 := hd θ s hs
    have h2 := hq θ (P - Spec.wakePoint R m θ s)
    generalize V3.norm (P - Spec.wakePoint R m θ s) = N at *
    generalize q θ _ = Q at *
    rw [abs_mul, abs_of_pos (by positivity)]
    calc 1 / (4 * Real.pi) * (1 / N^3) * |Q| ≤ 1 / (4 * Real.pi) * (1 / N^3) * (2 * |R| * N) := by gcongr
      _ = 2 * |R| / (4 * Real.pi) / N^2 := by field_simp
      _ ≤ 2 * |R| / (4 * Real.pi) / (c * (1 + s^2)) := by gcongr
      _ = _ := by rw [div_div _ c]
  have hx : ∀ v : V3 ℝ, |v.x| ≤ V3.norm v ∧ |v.y| ≤ V3.norm v ∧ |v.z| ≤ V3.norm v := by
    intro v
    unfold V3.norm
    refine ⟨Real.abs_le_sqrt (by nlinarith [sq_nonneg v.y, sq_nonneg v.z]), Real.abs_le_sqrt (by nlinarith [sq_nonneg v.x, sq_nonneg v.z]), Real.abs_le_sqrt (by nlinarith [sq_nonneg v.x, sq_nonneg v.y])⟩
  have hs1 := fun θ => Real.abs_sin_le_one θ
  have hc1 := fun θ => Real.abs_cos_le_one θ
  have mulb : ∀ (a b v N : ℝ), |a| ≤ 1 → |v| ≤ N → |b * a * v| ≤ |b| * N := by
    intro a b v N h1 h2
    rw [abs_mul, abs_mul]
    have := abs_nonneg a; have := abs_nonneg b; have := abs_nonneg v
    calc |b| * |a| * |v| ≤ |b| * 1 * N := by gcongr
      _ = _ := by ring
  rcases hπ with rfl | rfl | rfl
  · refine ⟨?_, 2 * |R| / (4 * Real.pi) / c, fun θ s hs => ?_⟩
    · refine hf.mul (f := fun p : ℝ × ℝ => 1 / (4 * Real.pi) * (1 / V3.norm (P - Spec.wakePoint R m p.1 p.2) ^ 3)) (g := fun p : ℝ × ℝ => (V3.cross (Spec.rimTangent R p.1) (P - Spec.wakePoint R m p.1 p.2)).x) ?_
      simp only [V3.cross, Spec.rimTangent, Spec.wakePoint, Spec.rim, V3.sub_x, V3.sub_y, V3.sub_z, V3.add_x, V3.add_y, V3.add_z, V3.smul_x, V3.smul_y, V3.smul_z]
      fun_prop
    · refine key (fun θ v => (V3.cross (Spec.rimTangent R θ) v).x) (fun θ v => ?_) θ s hs
      simp only [V3.cross, Spec.rimTangent]
      have t := mulb _ R _ _ (hc1 θ) (hx v).2.2
      have := mul_nonneg (abs_nonneg R) ((abs_nonneg _).trans (hx v).1)
      rw [zero_mul, sub_zero]; linarith
  · refine ⟨?_, 2 * |R| / (4 * Real.pi) / c, fun θ s hs => ?_⟩
    · refine hf.mul (f := fun p : ℝ × ℝ => 1 / (4 * Real.pi) * (1 / V3.norm (P - Spec.wakePoint R m p.1 p.2) ^ 3)) (g := fun p : ℝ × ℝ => (V3.cross (Spec.rimTangent R p.1) (P - Spec.wakePoint R m p.1 p.2)).y) ?_
      simp only [V3.cross, Spec.rimTangent, Spec.wakePoint, Spec.rim, V3.sub_x, V3.sub_y, V3.sub_z, V3.add_x, V3.add_y, V3.add_z, V3.smul_x, V3.smul_y, V3.smul_z]
      fun_prop
    · refine key (fun θ v => (V3.cross (Spec.rimTangent R θ) v).y) (fun θ v => ?_) θ s hs
      simp only [V3.cross, Spec.rimTangent]
      have t := mulb _ R _ _ (hs1 θ) (hx v).2.2
      have := mul_nonneg (abs_nonneg R) ((abs_nonneg _).trans (hx v).1)
      rw [zero_mul, zero_sub, neg_mul, neg_neg]; linarith
  · refine ⟨?_, 2 * |R| / (4 * Real.pi) / c, fun θ s hs => ?_⟩
    · refine hf.mul (f := fun p : ℝ × ℝ => 1 / (4 * Real.pi) * (1 / V3.norm (P - Spec.wakePoint R m p.1 p.2) ^ 3)) (g := fun p : ℝ × ℝ => (V3.cross (Spec.rimTangent R p.1) (P - Spec.wakePoint R m p.1 p.2)).z) ?_
      simp only [V3.cross, Spec.rimTangent, Spec.wakePoint, Spec.rim, V3.sub_x, V3.sub_y, V3.sub_z, V3.add_x, V3.add_y, V3.add_z, V3.smul_x, V3.smul_y, V3.smul_z]
      fun_prop
    · refine key (fun θ v => (V3.cross (Spec.rimTangent R θ) v).z) (fun θ v => ?_) θ s hs
      simp only [V3.cross, Spec.rimTangent]
      have t1 := mulb _ R _ _ (hs1 θ) (hx v).2.1
      have t2 := mulb _ R _ _ (hc1 θ) (hx v).1
      refine (abs_sub _ _).trans ?_
      rw [neg_mul, abs_neg]; linarith
end Wiz
