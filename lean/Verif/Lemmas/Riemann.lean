import Verif.Lemmas.VortexDoublet
import Mathlib.MeasureTheory.Integral.IntervalIntegral.Basic
import Mathlib.MeasureTheory.Integral.DominatedConvergence

/-! # Riemann sums with both end points -/
namespace Wiz
open MeasureTheory Set Filter Topology

theorem left_sum_close (f : ℝ → ℝ) (a b δ ε : ℝ) (hab : a < b) (hf : ContinuousOn f (Icc a b)) (n : ℕ) (hn : 0 < n)
    (hδ : (b - a)/n < δ) (hu : ∀ x ∈ Icc a b, ∀ y ∈ Icc a b, |x - y| < δ → |f x - f y| ≤ ε) :
    |(∑ i ∈ Finset.range n, (b-a)/n * f (a + i*((b-a)/n))) - ∫ x in a..b, f x| ≤ (b-a)*ε := by
  have hn' : (0:ℝ) < n := by exact_mod_cast hn
  have hn0 : (n:ℝ) ≠ 0 := hn'.ne'
  set h := (b-a)/n with hh
  have hpos : 0 < h := div_pos (sub_pos.mpr hab) hn'
  have hnh : a + (n:ℕ) * h = b := by rw [hh]; field_simp; ring
  have hmem : ∀ k : ℕ, k ≤ n → a + (k:ℝ)*h ∈ Icc a b := by
    intro k hk
    have hk' : (k:ℝ) ≤ n := by exact_mod_cast hk
    have hk0 : (0:ℝ) ≤ k := Nat.cast_nonneg k
    constructor
    · nlinarith
    · rw [← hnh]; nlinarith
  have hint : ∀ k < n, IntervalIntegrable f volume (a + (k:ℕ)*h) (a + ((k+1:ℕ):ℝ)*h) := by
    intro k hk
    apply ContinuousOn.intervalIntegrable
    refine hf.mono ?_
    apply uIcc_subset_Icc
    · exact hmem k hk.le
    · exact hmem (k+1) hk
  have hs := intervalIntegral.sum_integral_adjacent_intervals (a := fun k : ℕ => a + k*h) hint
  simp only [Nat.cast_zero, zero_mul, add_zero, hnh] at hs
  rw [← hs, ← Finset.sum_sub_distrib]
  refine (Finset.abs_sum_le_sum_abs _ _).trans ?_
  have key : ∀ i ∈ Finset.range n, |h * f (a + i*h) - ∫ x in (a + (i:ℝ)*h)..(a + ((i+1:ℕ):ℝ)*h), f x| ≤ ε * h := by
    intro i hi
    have hi' := Finset.mem_range.mp hi
    set c := f (a + i*h)
    have e : h * c = ∫ x in (a + (i:ℝ)*h)..(a + ((i+1:ℕ):ℝ)*h), c := by
      rw [intervalIntegral.integral_const]
      push_cast
      simp only [smul_eq_mul]
      ring
    rw [e, ← intervalIntegral.integral_sub (by simp) (hint i hi')]
    have := intervalIntegral.norm_integral_le_of_norm_le_const (a := a + (i:ℝ)*h) (b := a + ((i+1:ℕ):ℝ)*h)
      (f := fun x => c - f x) (C := ε) (by
      intro x hx
      rw [uIoc_of_le (by push_cast; nlinarith)] at hx
      have m1 := hmem i hi'.le
      have m2 := hmem (i+1) hi'
      obtain ⟨h1, h2⟩ := hx
      push_cast at h2 m2
      exact hu (a + i*h) m1 x ⟨m1.1.trans h1.le, h2.trans m2.2⟩ (by rw [abs_lt]; constructor <;> nlinarith))
    rw [Real.norm_eq_abs] at this
    refine this.trans (le_of_eq ?_)
    push_cast
    rw [show a + (i+1)*h - (a + i*h) = h by ring, abs_of_pos hpos]
  refine (Finset.sum_le_sum key).trans (le_of_eq ?_)
  rw [Finset.sum_const, Finset.card_range, nsmul_eq_mul, hh]
  field_simp

/-- the sum over the `n+1` equidistant points of `[a,b]`, both ends included, all with the weight
`(b-a)/n`, converges to the integral -/
theorem closed_sum_tendsto (f : ℝ → ℝ) (a b : ℝ) (hab : a < b) (hf : ContinuousOn f (Icc a b)) :
    Tendsto (fun n : ℕ => ∑ i ∈ Finset.range (n+1), (b-a)/n * f (a + i*((b-a)/n))) atTop (𝓝 (∫ x in a..b, f x)) := by
  have huc := isCompact_Icc.uniformContinuousOn_of_continuous hf
  rw [Metric.uniformContinuousOn_iff] at huc
  have hz : Tendsto (fun n : ℕ => (b-a)/(n:ℝ)) atTop (𝓝 0) := tendsto_const_div_atTop_nhds_zero_nat (b-a)
  have h1 : Tendsto (fun n : ℕ => ∑ i ∈ Finset.range n, (b-a)/n * f (a + i*((b-a)/n))) atTop (𝓝 (∫ x in a..b, f x)) := by
    rw [Metric.tendsto_atTop]
    intro ε hε
    obtain ⟨δ, hδ, h⟩ := huc (ε/(2*(b-a))) (div_pos hε (by linarith))
    have hev := (hz.eventually (gt_mem_nhds hδ)).and (eventually_gt_atTop 0)
    obtain ⟨N, hN⟩ := eventually_atTop.mp hev
    refine ⟨N, fun n hn => ?_⟩
    obtain ⟨c1, c2⟩ := hN n hn
    have := left_sum_close f a b δ (ε/(2*(b-a))) hab hf n c2 c1 (fun x hx y hy hxy => by
      have := h x hx y hy (by rw [Real.dist_eq]; exact hxy)
      rw [Real.dist_eq] at this; exact this.le)
    rw [Real.dist_eq]
    refine this.trans_lt ?_
    have hb : b - a ≠ 0 := by linarith
    rw [show (b-a)*(ε/(2*(b-a))) = ε/2 by field_simp]
    linarith
  have h2 : Tendsto (fun n : ℕ => (b-a)/(n:ℝ) * f b) atTop (𝓝 0) := by
    have := hz.mul_const (f b); rwa [zero_mul] at this
  have h3 := h1.add h2
  rw [add_zero] at h3
  refine h3.congr' ?_
  filter_upwards [eventually_gt_atTop 0] with n hn
  have hn' : (n:ℝ) ≠ 0 := by exact_mod_cast hn.ne'
  rw [Finset.sum_range_succ]
  congr 2
  congr 1
  field_simp
  ring
end Wiz
