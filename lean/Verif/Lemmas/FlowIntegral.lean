import Verif.Lemmas.FlowPoint
import Mathlib.Analysis.Normed.Module.FiniteDimension
/-! # Gradients of integrals over a compact interval -/
namespace Wiz
open Spec MeasureTheory Filter Topology
noncomputable section

theorem gradMap_continuousOn {X : Type} [TopologicalSpace X] {S : Set X} {g : X → V3 ℝ}
    (hx : ContinuousOn (fun t => (g t).x) S) (hy : ContinuousOn (fun t => (g t).y) S) (hz : ContinuousOn (fun t => (g t).z) S) :
    ContinuousOn (fun t => gradMap (g t)) S := by
  unfold gradMap
  exact ((hx.smul continuousOn_const).add (hy.smul continuousOn_const)).add (hz.smul continuousOn_const)

/-- differentiation under the integral sign, for an integrand whose gradient is jointly continuous near the point -/
theorem hasGrad_integral (F : V3 ℝ → ℝ → ℝ) (g : V3 ℝ → ℝ → V3 ℝ) (P : V3 ℝ) (a b : ℝ) (U : Set (ℝ × ℝ × ℝ))
    (hU : U ∈ 𝓝 (P.x, P.y, P.z))
    (hF : ∀ q ∈ U, ∀ t, HasGrad (fun p => F p t) ⟨q.1, q.2.1, q.2.2⟩ (g ⟨q.1, q.2.1, q.2.2⟩ t))
    (hc : ∀ q ∈ U, Continuous (F ⟨q.1, q.2.1, q.2.2⟩))
    (hx : ContinuousOn (fun w : (ℝ × ℝ × ℝ) × ℝ => (g ⟨w.1.1, w.1.2.1, w.1.2.2⟩ w.2).x) (U ×ˢ Set.univ))
    (hy : ContinuousOn (fun w : (ℝ × ℝ × ℝ) × ℝ => (g ⟨w.1.1, w.1.2.1, w.1.2.2⟩ w.2).y) (U ×ˢ Set.univ))
    (hz : ContinuousOn (fun w : (ℝ × ℝ × ℝ) × ℝ => (g ⟨w.1.1, w.1.2.1, w.1.2.2⟩ w.2).z) (U ×ˢ Set.univ)) :
    HasGrad (fun p => ∫ t in a..b, F p t) P ⟨∫ t in a..b, (g P t).x, ∫ t in a..b, (g P t).y, ∫ t in a..b, (g P t).z⟩ := by
  obtain ⟨r, hr, hrU⟩ := Metric.nhds_basis_closedBall.mem_iff.mp hU
  have hP : (P.x, P.y, P.z) ∈ U := mem_of_mem_nhds hU
  have hG := gradMap_continuousOn hx hy hz
  have hK : IsCompact (Metric.closedBall (P.x, P.y, P.z) r ×ˢ Set.uIcc a b) :=
    (isCompact_closedBall _ _).prod isCompact_uIcc
  obtain ⟨C, hC⟩ := hK.exists_bound_of_continuousOn (hG.mono (Set.prod_mono hrU (Set.subset_univ _)))
  have hsec : ∀ {f : V3 ℝ → ℝ → ℝ}, ContinuousOn (fun w : (ℝ × ℝ × ℝ) × ℝ => f ⟨w.1.1, w.1.2.1, w.1.2.2⟩ w.2) (U ×ˢ Set.univ) →
      Continuous (f P) := by
    intro f hf
    have h2 : Continuous (fun t : ℝ => (((P.x, P.y, P.z), t) : (ℝ × ℝ × ℝ) × ℝ)) := by fun_prop
    exact hf.comp_continuous h2 (fun t => ⟨hP, trivial⟩)
  have cx := hsec (f := fun p t => (g p t).x) hx
  have cy := hsec (f := fun p t => (g p t).y) hy
  have cz := hsec (f := fun p t => (g p t).z) hz
  have hGP : Continuous fun t => gradMap (g P t) := by
    have h2 : Continuous (fun t : ℝ => (((P.x, P.y, P.z), t) : (ℝ × ℝ × ℝ) × ℝ)) := by fun_prop
    exact hG.comp_continuous h2 (fun t => ⟨hP, trivial⟩)
  have key := intervalIntegral.hasFDerivAt_integral_of_dominated_of_fderiv_le (μ := volume) (a := a) (b := b)
    (F := fun (q : ℝ × ℝ × ℝ) t => F ⟨q.1, q.2.1, q.2.2⟩ t) (F' := fun q t => gradMap (g ⟨q.1, q.2.1, q.2.2⟩ t))
    (x₀ := (P.x, P.y, P.z)) (s := Metric.closedBall (P.x, P.y, P.z) r) (bound := fun _ => C)
    (Metric.closedBall_mem_nhds _ hr)
    (Filter.eventually_of_mem hU fun q hq => (hc q hq).aestronglyMeasurable)
    ((hc _ hP).intervalIntegrable a b)
    hGP.aestronglyMeasurable
    (ae_of_all _ fun t ht q hq => hC (q, t) ⟨hq, Set.uIoc_subset_uIcc ht⟩)
    (intervalIntegrable_const)
    (ae_of_all _ fun t _ q hq => hF q (hrU hq) t)
  rw [hasGrad_iff]
  have e : ∫ t in a..b, gradMap (g P t) = gradMap ⟨∫ t in a..b, (g P t).x, ∫ t in a..b, (g P t).y, ∫ t in a..b, (g P t).z⟩ := by
    have hi := hGP.intervalIntegrable (μ := volume) a b
    ext
    all_goals
      simp only [ContinuousLinearMap.coe_comp', Function.comp_apply]
      rw [ContinuousLinearMap.intervalIntegral_apply hi]
      simp [gradMap_apply]
  rw [← e]
  exact key

/-- the three components of an integral -/
theorem grads_integral (u : V3 ℝ → ℝ → V3 ℝ) (gx gy gz : V3 ℝ → ℝ → V3 ℝ) (P : V3 ℝ) (a b : ℝ) (U : Set (ℝ × ℝ × ℝ))
    (hU : U ∈ 𝓝 (P.x, P.y, P.z))
    (hF : ∀ q ∈ U, ∀ t, HasGrad (fun p => (u p t).x) ⟨q.1, q.2.1, q.2.2⟩ (gx ⟨q.1, q.2.1, q.2.2⟩ t) ∧
      HasGrad (fun p => (u p t).y) ⟨q.1, q.2.1, q.2.2⟩ (gy ⟨q.1, q.2.1, q.2.2⟩ t) ∧
      HasGrad (fun p => (u p t).z) ⟨q.1, q.2.1, q.2.2⟩ (gz ⟨q.1, q.2.1, q.2.2⟩ t))
    (hc : ∀ q ∈ U, Continuous (fun t => (u ⟨q.1, q.2.1, q.2.2⟩ t).x) ∧ Continuous (fun t => (u ⟨q.1, q.2.1, q.2.2⟩ t).y) ∧
      Continuous (fun t => (u ⟨q.1, q.2.1, q.2.2⟩ t).z))
    (hg : ∀ g ∈ [gx, gy, gz],
      ContinuousOn (fun w : (ℝ × ℝ × ℝ) × ℝ => (g ⟨w.1.1, w.1.2.1, w.1.2.2⟩ w.2).x) (U ×ˢ Set.univ) ∧
      ContinuousOn (fun w : (ℝ × ℝ × ℝ) × ℝ => (g ⟨w.1.1, w.1.2.1, w.1.2.2⟩ w.2).y) (U ×ˢ Set.univ) ∧
      ContinuousOn (fun w : (ℝ × ℝ × ℝ) × ℝ => (g ⟨w.1.1, w.1.2.1, w.1.2.2⟩ w.2).z) (U ×ˢ Set.univ)) :
    HasGrad (fun p => ∫ t in a..b, (u p t).x) P ⟨∫ t in a..b, (gx P t).x, ∫ t in a..b, (gx P t).y, ∫ t in a..b, (gx P t).z⟩ ∧
    HasGrad (fun p => ∫ t in a..b, (u p t).y) P ⟨∫ t in a..b, (gy P t).x, ∫ t in a..b, (gy P t).y, ∫ t in a..b, (gy P t).z⟩ ∧
    HasGrad (fun p => ∫ t in a..b, (u p t).z) P ⟨∫ t in a..b, (gz P t).x, ∫ t in a..b, (gz P t).y, ∫ t in a..b, (gz P t).z⟩ ∧
    (∀ g ∈ [gx, gy, gz], Continuous (fun t => (g P t).x) ∧ Continuous (fun t => (g P t).y) ∧ Continuous (fun t => (g P t).z)) := by
  obtain ⟨x1, x2, x3⟩ := hg gx (by simp)
  obtain ⟨y1, y2, y3⟩ := hg gy (by simp)
  obtain ⟨z1, z2, z3⟩ := hg gz (by simp)
  refine ⟨hasGrad_integral _ gx P a b U hU (fun q hq t => (hF q hq t).1) (fun q hq => (hc q hq).1) x1 x2 x3,
    hasGrad_integral _ gy P a b U hU (fun q hq t => (hF q hq t).2.1) (fun q hq => (hc q hq).2.1) y1 y2 y3,
    hasGrad_integral _ gz P a b U hU (fun q hq t => (hF q hq t).2.2) (fun q hq => (hc q hq).2.2) z1 z2 z3, ?_⟩
  intro g hgm
  have hP : (P.x, P.y, P.z) ∈ U := mem_of_mem_nhds hU
  have h2 : Continuous (fun t : ℝ => (((P.x, P.y, P.z), t) : (ℝ × ℝ × ℝ) × ℝ)) := by fun_prop
  obtain ⟨a1, a2, a3⟩ := hg g hgm
  exact ⟨a1.comp_continuous h2 (fun t => ⟨hP, trivial⟩), a2.comp_continuous h2 (fun t => ⟨hP, trivial⟩),
    a3.comp_continuous h2 (fun t => ⟨hP, trivial⟩)⟩

end
end Wiz
