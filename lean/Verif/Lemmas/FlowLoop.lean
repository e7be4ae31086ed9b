import Verif.Lemmas.FlowIntegral
import Mathlib.MeasureTheory.Integral.IntervalIntegral.FundThmCalculus
/-! # Velocity of a closed loop: divergence-free and irrotational -/
namespace Wiz
open Spec MeasureTheory Filter Topology
noncomputable section

/-- the point of space with the given coordinates -/
def pt (q : ℝ × ℝ × ℝ) : V3 ℝ := ⟨q.1, q.2.1, q.2.2⟩
def co (p : V3 ℝ) : ℝ × ℝ × ℝ := (p.x, p.y, p.z)

theorem hasGrad_continuousAt {f : V3 ℝ → ℝ} {P g : V3 ℝ} (h : HasGrad f P g) : ContinuousAt (fun q => f (pt q)) (co P) :=
  HasFDerivAt.continuousAt h

/-- derivative of a scalar field along a curve -/
theorem HasGrad.along {f : V3 ℝ → ℝ} {g : V3 ℝ} {c : ℝ → V3 ℝ} {c' : V3 ℝ} {t : ℝ} (h : HasGrad f (c t) g)
    (hx : HasDerivAt (fun t => (c t).x) c'.x t) (hy : HasDerivAt (fun t => (c t).y) c'.y t)
    (hz : HasDerivAt (fun t => (c t).z) c'.z t) : HasDerivAt (fun t => f (c t)) (V3.dot g c') t := by
  rw [hasGrad_iff] at h
  have h1 := HasFDerivAt.comp_hasDerivAt t (f := fun t => ((c t).x, (c t).y, (c t).z)) h (hx.prodMk (hy.prodMk hz))
  rw [gradMap_apply] at h1
  exact h1

/-- A kernel of the position relative to the source, with its three gradients on a domain `S`. -/
structure Kernel where
  /-- the vector field (source at the origin) -/
  K : V3 ℝ → V3 ℝ
  S : Set (V3 ℝ)
  hX : V3 ℝ → V3 ℝ
  hY : V3 ℝ → V3 ℝ
  hZ : V3 ℝ → V3 ℝ
  grad : ∀ a ∈ S, HasGrad (fun p => (K p).x) a (hX a) ∧ HasGrad (fun p => (K p).y) a (hY a) ∧ HasGrad (fun p => (K p).z) a (hZ a)
  symm : ∀ a ∈ S, (hZ a).y = (hY a).z ∧ (hX a).z = (hZ a).x ∧ (hY a).x = (hX a).y
  tr : ∀ a ∈ S, (hX a).x + (hY a).y + (hZ a).z = 0
  cont : ∀ g ∈ [hX, hY, hZ], ContinuousOn (fun q => (g (pt q)).x) (pt ⁻¹' S) ∧ ContinuousOn (fun q => (g (pt q)).y) (pt ⁻¹' S) ∧
    ContinuousOn (fun q => (g (pt q)).z) (pt ⁻¹' S)

theorem Kernel.cont_K (k : Kernel) : ContinuousOn (fun q => (k.K (pt q)).x) (pt ⁻¹' k.S) ∧
    ContinuousOn (fun q => (k.K (pt q)).y) (pt ⁻¹' k.S) ∧ ContinuousOn (fun q => (k.K (pt q)).z) (pt ⁻¹' k.S) :=
  ⟨fun q hq => (hasGrad_continuousAt (k.grad (pt q) hq).1).continuousWithinAt,
   fun q hq => (hasGrad_continuousAt (k.grad (pt q) hq).2.1).continuousWithinAt,
   fun q hq => (hasGrad_continuousAt (k.grad (pt q) hq).2.2).continuousWithinAt⟩

theorem hasGrad_shift {f : V3 ℝ → ℝ} {P A g : V3 ℝ} (h : HasGrad f (P - A) g) : HasGrad (fun p => f (p - A)) P g :=
  (HasGrad.comp (T := fun p => p - A) h ((hasGrad_x P).sub_const A.x) ((hasGrad_y P).sub_const A.y) ((hasGrad_z P).sub_const A.z)).congr_grad
    (by ext <;> simp)

/-- a closed curve with its tangent -/
structure Loop where
  A : ℝ → V3 ℝ
  T : ℝ → V3 ℝ
  dx : ∀ t, HasDerivAt (fun t => (A t).x) (T t).x t
  dy : ∀ t, HasDerivAt (fun t => (A t).y) (T t).y t
  dz : ∀ t, HasDerivAt (fun t => (A t).z) (T t).z t
  cT : Continuous (fun t => (T t).x) ∧ Continuous (fun t => (T t).y) ∧ Continuous (fun t => (T t).z)
  closed : A (2*Real.pi) = A 0

theorem Loop.cA (L : Loop) : Continuous (fun t => (L.A t).x) ∧ Continuous (fun t => (L.A t).y) ∧ Continuous (fun t => (L.A t).z) :=
  ⟨continuous_iff_continuousAt.mpr fun t => (L.dx t).continuousAt, continuous_iff_continuousAt.mpr fun t => (L.dy t).continuousAt,
    continuous_iff_continuousAt.mpr fun t => (L.dz t).continuousAt⟩

/-- the velocity of the loop -/
def loopField (k : Kernel) (L : Loop) (p : V3 ℝ) : V3 ℝ :=
  ⟨∫ t in (0:ℝ)..(2*Real.pi), (V3.cross (L.T t) (k.K (p - L.A t))).x,
   ∫ t in (0:ℝ)..(2*Real.pi), (V3.cross (L.T t) (k.K (p - L.A t))).y,
   ∫ t in (0:ℝ)..(2*Real.pi), (V3.cross (L.T t) (k.K (p - L.A t))).z⟩

theorem loopField_grads (k : Kernel) (L : Loop) (P : V3 ℝ) (U : Set (ℝ × ℝ × ℝ)) (hU : U ∈ 𝓝 (P.x, P.y, P.z))
    (hS : ∀ q ∈ U, ∀ t, pt q - L.A t ∈ k.S) :
    let gx := fun (p : V3 ℝ) t => V3.smul (L.T t).y (k.hZ (p - L.A t)) - V3.smul (L.T t).z (k.hY (p - L.A t))
    let gy := fun (p : V3 ℝ) t => V3.smul (L.T t).z (k.hX (p - L.A t)) - V3.smul (L.T t).x (k.hZ (p - L.A t))
    let gz := fun (p : V3 ℝ) t => V3.smul (L.T t).x (k.hY (p - L.A t)) - V3.smul (L.T t).y (k.hX (p - L.A t))
    HasGrad (fun p => (loopField k L p).x) P ⟨∫ t in (0:ℝ)..(2*Real.pi), (gx P t).x, ∫ t in (0:ℝ)..(2*Real.pi), (gx P t).y, ∫ t in (0:ℝ)..(2*Real.pi), (gx P t).z⟩ ∧
    HasGrad (fun p => (loopField k L p).y) P ⟨∫ t in (0:ℝ)..(2*Real.pi), (gy P t).x, ∫ t in (0:ℝ)..(2*Real.pi), (gy P t).y, ∫ t in (0:ℝ)..(2*Real.pi), (gy P t).z⟩ ∧
    HasGrad (fun p => (loopField k L p).z) P ⟨∫ t in (0:ℝ)..(2*Real.pi), (gz P t).x, ∫ t in (0:ℝ)..(2*Real.pi), (gz P t).y, ∫ t in (0:ℝ)..(2*Real.pi), (gz P t).z⟩ ∧
    (∀ g ∈ [gx, gy, gz], Continuous (fun t => (g P t).x) ∧ Continuous (fun t => (g P t).y) ∧ Continuous (fun t => (g P t).z)) := by
  intro gx gy gz
  obtain ⟨cx, cy, cz⟩ := L.cA
  obtain ⟨tx, ty, tz⟩ := L.cT
  obtain ⟨kx, ky, kz⟩ := k.cont_K
  -- continuity of a function of the relative position
  have hpull : ∀ {f : V3 ℝ → ℝ}, ContinuousOn (fun q => f (pt q)) (pt ⁻¹' k.S) →
      ContinuousOn (fun w : (ℝ × ℝ × ℝ) × ℝ => f (⟨w.1.1, w.1.2.1, w.1.2.2⟩ - L.A w.2)) (U ×ˢ Set.univ) := by
    intro f hf
    have h2 : Continuous (fun w : (ℝ × ℝ × ℝ) × ℝ => (w.1.1 - (L.A w.2).x, w.1.2.1 - (L.A w.2).y, w.1.2.2 - (L.A w.2).z)) :=
      (continuous_fst.fst.sub (cx.comp continuous_snd)).prodMk ((continuous_fst.snd.fst.sub (cy.comp continuous_snd)).prodMk
        (continuous_fst.snd.snd.sub (cz.comp continuous_snd)))
    exact hf.comp h2.continuousOn (fun w hw => hS w.1 hw.1 w.2)
  have hpull1 : ∀ {f : V3 ℝ → ℝ}, ContinuousOn (fun q => f (pt q)) (pt ⁻¹' k.S) → ∀ q ∈ U,
      Continuous (fun t => f (⟨q.1, q.2.1, q.2.2⟩ - L.A t)) := by
    intro f hf q hq
    have h2 : Continuous (fun t : ℝ => (q.1 - (L.A t).x, q.2.1 - (L.A t).y, q.2.2 - (L.A t).z)) := by fun_prop
    exact hf.comp_continuous h2 (fun t => hS q hq t)
  refine grads_integral (fun p t => V3.cross (L.T t) (k.K (p - L.A t))) gx gy gz P 0 (2*Real.pi) U hU ?_ ?_ ?_
  · intro q hq t
    obtain ⟨hx, hy, hz⟩ := k.grad _ (hS q hq t)
    have hx := hasGrad_shift (P := pt q) hx
    have hy := hasGrad_shift (P := pt q) hy
    have hz := hasGrad_shift (P := pt q) hz
    exact ⟨(hz.const_mul _).sub (hy.const_mul _), (hx.const_mul _).sub (hz.const_mul _), (hy.const_mul _).sub (hx.const_mul _)⟩
  · intro q hq
    have hx := hpull1 (f := fun p => (k.K p).x) kx q hq
    have hy := hpull1 (f := fun p => (k.K p).y) ky q hq
    have hz := hpull1 (f := fun p => (k.K p).z) kz q hq
    exact ⟨(ty.mul hz).sub (tz.mul hy), (tz.mul hx).sub (tx.mul hz), (tx.mul hy).sub (ty.mul hx)⟩
  · have sx : ContinuousOn (fun w : (ℝ × ℝ × ℝ) × ℝ => (L.T w.2).x) (U ×ˢ Set.univ) := (tx.comp continuous_snd).continuousOn
    have sy : ContinuousOn (fun w : (ℝ × ℝ × ℝ) × ℝ => (L.T w.2).y) (U ×ˢ Set.univ) := (ty.comp continuous_snd).continuousOn
    have sz : ContinuousOn (fun w : (ℝ × ℝ × ℝ) × ℝ => (L.T w.2).z) (U ×ˢ Set.univ) := (tz.comp continuous_snd).continuousOn
    obtain ⟨x1, x2, x3⟩ := k.cont k.hX (by simp)
    obtain ⟨y1, y2, y3⟩ := k.cont k.hY (by simp)
    obtain ⟨z1, z2, z3⟩ := k.cont k.hZ (by simp)
    have X1 := hpull (f := fun p => (k.hX p).x) x1; have X2 := hpull (f := fun p => (k.hX p).y) x2; have X3 := hpull (f := fun p => (k.hX p).z) x3
    have Y1 := hpull (f := fun p => (k.hY p).x) y1; have Y2 := hpull (f := fun p => (k.hY p).y) y2; have Y3 := hpull (f := fun p => (k.hY p).z) y3
    have Z1 := hpull (f := fun p => (k.hZ p).x) z1; have Z2 := hpull (f := fun p => (k.hZ p).y) z2; have Z3 := hpull (f := fun p => (k.hZ p).z) z3
    intro g hg
    simp only [List.mem_cons, List.not_mem_nil, or_false] at hg
    rcases hg with rfl | rfl | rfl
    · exact ⟨(sy.mul Z1).sub (sz.mul Y1), (sy.mul Z2).sub (sz.mul Y2), (sy.mul Z3).sub (sz.mul Y3)⟩
    · exact ⟨(sz.mul X1).sub (sx.mul Z1), (sz.mul X2).sub (sx.mul Z2), (sz.mul X3).sub (sx.mul Z3)⟩
    · exact ⟨(sx.mul Y1).sub (sy.mul X1), (sx.mul Y2).sub (sy.mul X2), (sx.mul Y3).sub (sy.mul X3)⟩

theorem loopField_divFree (k : Kernel) (L : Loop) (P : V3 ℝ) (U : Set (ℝ × ℝ × ℝ)) (hU : U ∈ 𝓝 (P.x, P.y, P.z))
    (hS : ∀ q ∈ U, ∀ t, pt q - L.A t ∈ k.S) : DivFreeAt (loopField k L) P := by
  obtain ⟨hx, hy, hz, hc⟩ := loopField_grads k L P U hU hS
  refine ⟨_, _, _, hx, hy, hz, ?_⟩
  have c1 := (hc _ (List.mem_cons_self)).1
  have c2 := (hc _ (List.mem_cons_of_mem _ List.mem_cons_self)).2.1
  have c3 := (hc _ (List.mem_cons_of_mem _ (List.mem_cons_of_mem _ List.mem_cons_self))).2.2
  simp only at *
  rw [← intervalIntegral.integral_add (c1.intervalIntegrable _ _) (c2.intervalIntegrable _ _),
    ← intervalIntegral.integral_add (f := fun t => (V3.smul (L.T t).y (k.hZ (P - L.A t)) - V3.smul (L.T t).z (k.hY (P - L.A t))).x +
        (V3.smul (L.T t).z (k.hX (P - L.A t)) - V3.smul (L.T t).x (k.hZ (P - L.A t))).y) ((c1.add c2).intervalIntegrable _ _) (c3.intervalIntegrable _ _)]
  rw [intervalIntegral.integral_congr (g := fun _ => 0), intervalIntegral.integral_zero]
  intro t _
  obtain ⟨s1, s2, s3⟩ := k.symm _ (hS _ (mem_of_mem_nhds hU) t)
  simp only [pt] at s1 s2 s3
  simp only [V3.sub_x, V3.sub_y, V3.sub_z, V3.smul_x, V3.smul_y, V3.smul_z]
  rw [s1, s2, s3]; ring

theorem loopField_curlFree (k : Kernel) (L : Loop) (P : V3 ℝ) (U : Set (ℝ × ℝ × ℝ)) (hU : U ∈ 𝓝 (P.x, P.y, P.z))
    (hS : ∀ q ∈ U, ∀ t, pt q - L.A t ∈ k.S) : CurlFreeAt (loopField k L) P := by
  obtain ⟨hx, hy, hz, hc⟩ := loopField_grads k L P U hU hS
  obtain ⟨x1, x2, x3⟩ := hc _ (List.mem_cons_self)
  obtain ⟨y1, y2, y3⟩ := hc _ (List.mem_cons_of_mem _ List.mem_cons_self)
  obtain ⟨z1, z2, z3⟩ := hc _ (List.mem_cons_of_mem _ (List.mem_cons_of_mem _ List.mem_cons_self))
  have hSP : ∀ t, P - L.A t ∈ k.S := fun t => hS _ (mem_of_mem_nhds hU) t
  have dA : ∀ t, HasDerivAt (fun t => (P - L.A t).x) (V3.smul (-1) (L.T t)).x t ∧ HasDerivAt (fun t => (P - L.A t).y) (V3.smul (-1) (L.T t)).y t
      ∧ HasDerivAt (fun t => (P - L.A t).z) (V3.smul (-1) (L.T t)).z t := by
    intro t
    simp only [V3.sub_x, V3.sub_y, V3.sub_z, V3.smul_x, V3.smul_y, V3.smul_z, neg_one_mul]
    exact ⟨(L.dx t).const_sub _, (L.dy t).const_sub _, (L.dz t).const_sub _⟩
  -- an exact derivative around the loop integrates to zero
  have zero : ∀ (f h : ℝ → ℝ) (F : V3 ℝ → ℝ) (g : V3 ℝ → V3 ℝ), Continuous f → Continuous h →
      (∀ a ∈ k.S, HasGrad F a (g a)) → (∀ t, f t - h t = V3.dot (g (P - L.A t)) (V3.smul (-1) (L.T t))) →
      ∫ t in (0:ℝ)..(2*Real.pi), f t = ∫ t in (0:ℝ)..(2*Real.pi), h t := by
    intro f h F g cf ch hF e
    have := intervalIntegral.integral_eq_sub_of_hasDerivAt (f := fun t => F (P - L.A t)) (f' := fun t => f t - h t) (a := 0) (b := 2*Real.pi)
      (fun t _ => by rw [e]; exact HasGrad.along (c := fun t => P - L.A t) (hF _ (hSP t)) (dA t).1 (dA t).2.1 (dA t).2.2)
      ((cf.sub ch).intervalIntegrable _ _)
    rw [L.closed, sub_self, intervalIntegral.integral_sub (cf.intervalIntegrable _ _) (ch.intervalIntegrable _ _)] at this
    exact sub_eq_zero.mp this
  refine ⟨_, _, _, hx, hy, hz, ?_, ?_, ?_⟩
  · refine zero _ _ (fun p => (k.K p).x) k.hX z2 y3 (fun a ha => (k.grad a ha).1) fun t => ?_
    obtain ⟨s1, s2, s3⟩ := k.symm _ (hSP t)
    have := k.tr _ (hSP t)
    simp only [V3.dot, V3.sub_x, V3.sub_y, V3.sub_z, V3.smul_x, V3.smul_y, V3.smul_z] at *
    linear_combination (L.T t).x * this
  · refine zero _ _ (fun p => (k.K p).y) k.hY x3 z1 (fun a ha => (k.grad a ha).2.1) fun t => ?_
    obtain ⟨s1, s2, s3⟩ := k.symm _ (hSP t)
    have := k.tr _ (hSP t)
    simp only [V3.dot, V3.sub_x, V3.sub_y, V3.sub_z, V3.smul_x, V3.smul_y, V3.smul_z] at *
    linear_combination (L.T t).y * this
  · refine zero _ _ (fun p => (k.K p).z) k.hZ y1 x2 (fun a ha => (k.grad a ha).2.2) fun t => ?_
    obtain ⟨s1, s2, s3⟩ := k.symm _ (hSP t)
    have := k.tr _ (hSP t)
    simp only [V3.dot, V3.sub_x, V3.sub_y, V3.sub_z, V3.smul_x, V3.smul_y, V3.smul_z] at *
    linear_combination (L.T t).z * this

end
end Wiz
