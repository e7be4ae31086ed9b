import Verif.Lemmas.FlowLoop
import Verif.Spec.Ring
import Verif.Spec.Cylinder
import Mathlib.Analysis.SpecialFunctions.Trigonometric.Deriv
/-! # Ring and (skewed) cylinder fields are divergence-free and irrotational off the vorticity -/
namespace Wiz
open Spec MeasureTheory Filter Topology
noncomputable section

theorem norm_pt_continuous : Continuous fun q => V3.norm (pt q) := by
  unfold V3.norm pt; fun_prop
theorem dot_pt_continuous (d : V3 ℝ) : Continuous fun q => V3.dot (pt q) d := by
  unfold V3.dot pt; fun_prop

theorem sub_zero3 (p : V3 ℝ) : p - 0 = p := by ext <;> simp

/-- the source kernel `a/|a|³` -/
def pointKernel : Kernel where
  K := pointGrad 0
  S := {a | 0 < V3.norm a}
  hX a := ⟨1 / V3.norm a^3 - 3 * a.x * a.x / V3.norm a^5, 0 / V3.norm a^3 - 3 * a.x * a.y / V3.norm a^5, 0 / V3.norm a^3 - 3 * a.x * a.z / V3.norm a^5⟩
  hY a := ⟨0 / V3.norm a^3 - 3 * a.y * a.x / V3.norm a^5, 1 / V3.norm a^3 - 3 * a.y * a.y / V3.norm a^5, 0 / V3.norm a^3 - 3 * a.y * a.z / V3.norm a^5⟩
  hZ a := ⟨0 / V3.norm a^3 - 3 * a.z * a.x / V3.norm a^5, 0 / V3.norm a^3 - 3 * a.z * a.y / V3.norm a^5, 1 / V3.norm a^3 - 3 * a.z * a.z / V3.norm a^5⟩
  grad a ha := by
    have := pointGrad_hasGrad 0 a (by rw [sub_zero3]; exact ha)
    simpa only [sub_zero3] using this
  symm a ha := by refine ⟨?_, ?_, ?_⟩ <;> ring
  tr a ha := by
    have hs := norm_sq a
    have hn : 0 < V3.norm a := ha
    simp only [V3.dot] at hs
    have : 1 / V3.norm a ^ 3 - 3 * a.x * a.x / V3.norm a ^ 5 + (1 / V3.norm a ^ 3 - 3 * a.y * a.y / V3.norm a ^ 5) + (1 / V3.norm a ^ 3 - 3 * a.z * a.z / V3.norm a ^ 5)
      = 3 / V3.norm a^3 - 3 * (a.x * a.x + a.y * a.y + a.z * a.z) / V3.norm a^5 := by ring
    rw [this, ← hs]
    have := hn.ne'
    field_simp
    ring
  cont g hg := by
    have hc := norm_pt_continuous
    have c3 : ∀ q ∈ pt ⁻¹' {a | 0 < V3.norm a}, V3.norm (pt q)^3 ≠ 0 := fun q hq => by
      have : 0 < V3.norm (pt q) := hq
      positivity
    have c5 : ∀ q ∈ pt ⁻¹' {a | 0 < V3.norm a}, V3.norm (pt q)^5 ≠ 0 := fun q hq => by
      have : 0 < V3.norm (pt q) := hq
      positivity
    have hx : Continuous fun q => (pt q).x := by unfold pt; fun_prop
    have hy : Continuous fun q => (pt q).y := by unfold pt; fun_prop
    have hz : Continuous fun q => (pt q).z := by unfold pt; fun_prop
    have A : ∀ (k : ℝ) (u v : ℝ × ℝ × ℝ → ℝ), Continuous u → Continuous v →
        ContinuousOn (fun q => k / V3.norm (pt q)^3 - 3 * u q * v q / V3.norm (pt q)^5) (pt ⁻¹' {a | 0 < V3.norm a}) := by
      intro k u v hu hv
      exact (continuousOn_const.div (hc.pow 3).continuousOn c3).sub
        (((continuous_const.mul hu).mul hv).continuousOn.div (hc.pow 5).continuousOn c5)
    simp only [List.mem_cons, List.not_mem_nil, or_false] at hg
    rcases hg with rfl | rfl | rfl
    · exact ⟨A _ _ _ hx hx, A _ _ _ hx hy, A _ _ _ hx hz⟩
    · exact ⟨A _ _ _ hy hx, A _ _ _ hy hy, A _ _ _ hy hz⟩
    · exact ⟨A _ _ _ hz hx, A _ _ _ hz hy, A _ _ _ hz hz⟩

/-- the half-line kernel `grad log(|a| - a·d)` -/
def lineKernel (d : V3 ℝ) (hd : V3.dot d d = 1) : Kernel where
  K := lineGrad 0 d
  S := {a | 0 < V3.norm a ∧ 0 < V3.norm a - V3.dot a d}
  hX a := ⟨(1 / V3.norm a - a.x * a.x / V3.norm a^3) / (V3.norm a - V3.dot a d) - (a.x / V3.norm a - d.x) * (a.x / V3.norm a - d.x) / (V3.norm a - V3.dot a d)^2,
      (0 / V3.norm a - a.x * a.y / V3.norm a^3) / (V3.norm a - V3.dot a d) - (a.x / V3.norm a - d.x) * (a.y / V3.norm a - d.y) / (V3.norm a - V3.dot a d)^2,
      (0 / V3.norm a - a.x * a.z / V3.norm a^3) / (V3.norm a - V3.dot a d) - (a.x / V3.norm a - d.x) * (a.z / V3.norm a - d.z) / (V3.norm a - V3.dot a d)^2⟩
  hY a := ⟨(0 / V3.norm a - a.y * a.x / V3.norm a^3) / (V3.norm a - V3.dot a d) - (a.y / V3.norm a - d.y) * (a.x / V3.norm a - d.x) / (V3.norm a - V3.dot a d)^2,
      (1 / V3.norm a - a.y * a.y / V3.norm a^3) / (V3.norm a - V3.dot a d) - (a.y / V3.norm a - d.y) * (a.y / V3.norm a - d.y) / (V3.norm a - V3.dot a d)^2,
      (0 / V3.norm a - a.y * a.z / V3.norm a^3) / (V3.norm a - V3.dot a d) - (a.y / V3.norm a - d.y) * (a.z / V3.norm a - d.z) / (V3.norm a - V3.dot a d)^2⟩
  hZ a := ⟨(0 / V3.norm a - a.z * a.x / V3.norm a^3) / (V3.norm a - V3.dot a d) - (a.z / V3.norm a - d.z) * (a.x / V3.norm a - d.x) / (V3.norm a - V3.dot a d)^2,
      (0 / V3.norm a - a.z * a.y / V3.norm a^3) / (V3.norm a - V3.dot a d) - (a.z / V3.norm a - d.z) * (a.y / V3.norm a - d.y) / (V3.norm a - V3.dot a d)^2,
      (1 / V3.norm a - a.z * a.z / V3.norm a^3) / (V3.norm a - V3.dot a d) - (a.z / V3.norm a - d.z) * (a.z / V3.norm a - d.z) / (V3.norm a - V3.dot a d)^2⟩
  grad a ha := by
    have := lineGrad_hasGrad 0 d a (by rw [sub_zero3]; exact ha.1) (by rw [sub_zero3]; exact ha.2)
    simpa only [sub_zero3] using this
  symm a ha := by refine ⟨?_, ?_, ?_⟩ <;> ring
  tr a ha := by
    obtain ⟨hn, hD⟩ := ha
    have hs := norm_sq a
    generalize hDD : V3.norm a - V3.dot a d = D' at *
    generalize V3.norm a = n at *
    have key : ((1 / n - a.x * a.x / n ^ 3) / D' - (a.x / n - d.x) * (a.x / n - d.x) / D' ^ 2)
        + ((1 / n - a.y * a.y / n ^ 3) / D' - (a.y / n - d.y) * (a.y / n - d.y) / D' ^ 2)
        + ((1 / n - a.z * a.z / n ^ 3) / D' - (a.z / n - d.z) * (a.z / n - d.z) / D' ^ 2)
        = (3 / n - V3.dot a a / n ^ 3) / D' - (V3.dot a a / n ^ 2 - 2 * V3.dot a d / n + V3.dot d d) / D' ^ 2 := by
      simp only [V3.dot]; ring
    have hT : V3.dot a d = n - D' := by linarith
    refine key.trans ?_
    rw [← hs, hT, hd]
    have := hn.ne'; have := hD.ne'
    field_simp
    ring
  cont g hg := by
    have hc := norm_pt_continuous
    have hD := hc.sub (dot_pt_continuous d)
    have c1 : ∀ q ∈ pt ⁻¹' {a | 0 < V3.norm a ∧ 0 < V3.norm a - V3.dot a d}, V3.norm (pt q) ≠ 0 := fun q hq => ne_of_gt hq.1
    have c3 : ∀ q ∈ pt ⁻¹' {a | 0 < V3.norm a ∧ 0 < V3.norm a - V3.dot a d}, V3.norm (pt q)^3 ≠ 0 := fun q hq => pow_ne_zero _ (ne_of_gt hq.1)
    have d1 : ∀ q ∈ pt ⁻¹' {a | 0 < V3.norm a ∧ 0 < V3.norm a - V3.dot a d}, V3.norm (pt q) - V3.dot (pt q) d ≠ 0 := fun q hq => ne_of_gt hq.2
    have d2 : ∀ q ∈ pt ⁻¹' {a | 0 < V3.norm a ∧ 0 < V3.norm a - V3.dot a d}, (V3.norm (pt q) - V3.dot (pt q) d)^2 ≠ 0 := fun q hq => pow_ne_zero _ (ne_of_gt hq.2)
    have hx : Continuous fun q => (pt q).x := by unfold pt; fun_prop
    have hy : Continuous fun q => (pt q).y := by unfold pt; fun_prop
    have hz : Continuous fun q => (pt q).z := by unfold pt; fun_prop
    have A : ∀ (k e f : ℝ) (u v : ℝ × ℝ × ℝ → ℝ), Continuous u → Continuous v →
        ContinuousOn (fun q => (k / V3.norm (pt q) - u q * v q / V3.norm (pt q)^3) / (V3.norm (pt q) - V3.dot (pt q) d)
          - (u q / V3.norm (pt q) - e) * (v q / V3.norm (pt q) - f) / (V3.norm (pt q) - V3.dot (pt q) d)^2)
          (pt ⁻¹' {a | 0 < V3.norm a ∧ 0 < V3.norm a - V3.dot a d}) := by
      intro k e f u v hu hv
      refine (((continuousOn_const.div hc.continuousOn c1).sub ((hu.mul hv).continuousOn.div (hc.pow 3).continuousOn c3)).div hD.continuousOn d1).sub
        ((((hu.continuousOn.div hc.continuousOn c1).sub continuousOn_const).mul ((hv.continuousOn.div hc.continuousOn c1).sub continuousOn_const)).div (hD.pow 2).continuousOn d2)
    simp only [List.mem_cons, List.not_mem_nil, or_false] at hg
    rcases hg with rfl | rfl | rfl
    · exact ⟨A _ _ _ _ _ hx hx, A _ _ _ _ _ hx hy, A _ _ _ _ _ hx hz⟩
    · exact ⟨A _ _ _ _ _ hy hx, A _ _ _ _ _ hy hy, A _ _ _ _ _ hy hz⟩
    · exact ⟨A _ _ _ _ _ hz hx, A _ _ _ _ _ hz hy, A _ _ _ _ _ hz hz⟩

/-- the rotor circle -/
def rimLoop (R : ℝ) : Loop where
  A := rim R
  T := rimTangent R
  dx t := by
    simp only [rim, rimTangent]
    exact ((Real.hasDerivAt_cos t).const_mul R).congr_deriv (by ring)
  dy t := by
    simp only [rim, rimTangent]
    exact (Real.hasDerivAt_sin t).const_mul R
  dz t := by simp only [rim, rimTangent]; exact hasDerivAt_const _ _
  cT := by unfold rimTangent; exact ⟨by fun_prop, by fun_prop, by fun_prop⟩
  closed := by unfold rim; simp

theorem lineGrad_shift (A d p : V3 ℝ) : lineGrad A d p = lineGrad 0 d (p - A) := by
  unfold lineGrad; rw [sub_zero3]; ext <;> simp
theorem pointGrad_shift (A p : V3 ℝ) : pointGrad A p = pointGrad 0 (p - A) := by
  unfold pointGrad; rw [sub_zero3]; ext <;> simp

theorem skewTang_loop (γ R m : ℝ) (P : V3 ℝ) (h : OffWake R m P) :
    skewTangField γ R m P = V3.smul (γ/(4*Real.pi)) (loopField (lineKernel (skewDir m) (skewDir_unit m)) (rimLoop R) P) := by
  have hpi : (0:ℝ) ≤ 2*Real.pi := by positivity
  unfold skewTangField vint loopField
  ext
  all_goals
    simp only [V3.smul_x, V3.smul_y, V3.smul_z, tangGenerator_cross h, intervalIntegral.integral_of_le hpi, ← integral_const_mul]
    apply integral_congr_ae
    filter_upwards with t
    rw [lineGrad_shift]
    rfl

theorem ring_loop (Γ R : ℝ) (P : V3 ℝ) :
    ringField Γ R P = V3.smul (Γ/(4*Real.pi)) (loopField pointKernel (rimLoop R) P) := by
  have hpi : (0:ℝ) ≤ 2*Real.pi := by positivity
  have e : ∀ t, bsKernel ⟨R * Real.cos t, R * Real.sin t, 0⟩ ⟨-R * Real.sin t, R * Real.cos t, 0⟩ P
      = V3.smul (1/(4*Real.pi)) (V3.cross ((rimLoop R).T t) (pointKernel.K (P - (rimLoop R).A t))) := by
    intro t
    rw [bsKernel_cross, pointGrad_shift, neg_mul]; rfl
  unfold ringField biotSavart vint loopField
  simp only [e]
  ext
  all_goals
    simp only [V3.smul_x, V3.smul_y, V3.smul_z, intervalIntegral.integral_of_le hpi, integral_const_mul]
    ring

/-- the exact field of the skewed sheet of tangential vorticity is divergence-free and irrotational off the sheet -/
theorem skewTang_flow (γ : ℝ) {R m : ℝ} {P : V3 ℝ} (h : OffWake R m P) :
    DivFreeAt (skewTangField γ R m) P ∧ CurlFreeAt (skewTangField γ R m) P := by
  have hn := offWake_near h
  have hS : ∀ q ∈ {q : ℝ × ℝ × ℝ | OffWake R m ⟨q.1, q.2.1, q.2.2⟩}, ∀ t, pt q - (rimLoop R).A t ∈ (lineKernel (skewDir m) (skewDir_unit m)).S :=
    fun q hq t => offWake_pos hq t
  exact ⟨((loopField_divFree _ _ P _ hn hS).smul (γ/(4*Real.pi))).congr (hn.mono fun q hq => skewTang_loop γ R m _ hq),
    ((loopField_curlFree _ _ P _ hn hS).smul (γ/(4*Real.pi))).congr (hn.mono fun q hq => skewTang_loop γ R m _ hq)⟩

theorem off_circle_iff (R : ℝ) (P : V3 ℝ) : (∀ t, 0 < V3.norm (P - rim R t)) ↔ ¬ (P.z = 0 ∧ P.x^2 + P.y^2 = R^2) := by
  constructor
  · rintro h ⟨hz, he⟩
    have : ¬ OffWake R 0 P := by
      rw [offWake_iff]; push Not; exact ⟨hz.ge, by rw [zero_mul, sub_zero]; exact he⟩
    unfold OffWake at this
    push Not at this
    obtain ⟨θ, s, hs, e⟩ := this
    have e3 := congrArg V3.z e
    simp only [wakePoint, rim, skewDir, V3.add_z, V3.smul_z, hz] at e3
    simp at e3
    have e4 : P = rim R θ := by rw [e, ← e3]; unfold wakePoint; ext <;> simp
    have := h θ
    rw [e4] at this
    simp [V3.norm] at this
  · intro h t
    apply norm_pos
    intro e
    apply h
    have hx := congrArg V3.x e; have hy := congrArg V3.y e; have hz := congrArg V3.z e
    simp only [V3.sub_x, V3.sub_y, V3.sub_z, rim, V3.zero_x, V3.zero_y, V3.zero_z] at hx hy hz
    have h1 := Real.sin_sq_add_cos_sq t
    refine ⟨by linarith, ?_⟩
    rw [show P.x = R * Real.cos t by linarith, show P.y = R * Real.sin t by linarith]
    linear_combination R^2 * h1

/-- the field of a vortex ring is divergence-free and irrotational off the ring -/
theorem ring_flow (Γ : ℝ) {R : ℝ} {P : V3 ℝ} (h : ¬ (P.z = 0 ∧ P.x^2 + P.y^2 = R^2)) :
    DivFreeAt (ringField Γ R) P ∧ CurlFreeAt (ringField Γ R) P := by
  have hn : {q : ℝ × ℝ × ℝ | ¬ (q.2.2 = 0 ∧ q.1^2 + q.2.1^2 = R^2)} ∈ 𝓝 (P.x, P.y, P.z) := by
    have hc : IsClosed {q : ℝ × ℝ × ℝ | q.2.2 = 0 ∧ q.1^2 + q.2.1^2 = R^2} :=
      IsClosed.and (isClosed_eq (by fun_prop : Continuous fun q : ℝ × ℝ × ℝ => q.2.2) continuous_const)
        (isClosed_eq (by fun_prop : Continuous fun q : ℝ × ℝ × ℝ => q.1^2 + q.2.1^2) continuous_const)
    exact hc.isOpen_compl.mem_nhds h
  have hS : ∀ q ∈ {q : ℝ × ℝ × ℝ | ¬ (q.2.2 = 0 ∧ q.1^2 + q.2.1^2 = R^2)}, ∀ t, pt q - (rimLoop R).A t ∈ pointKernel.S :=
    fun q hq t => (off_circle_iff R (pt q)).mpr hq t
  exact ⟨((loopField_divFree _ _ P _ hn hS).smul (Γ/(4*Real.pi))).congr (Eventually.of_forall fun q => ring_loop Γ R _),
    ((loopField_curlFree _ _ P _ hn hS).smul (Γ/(4*Real.pi))).congr (Eventually.of_forall fun q => ring_loop Γ R _)⟩

end
end Wiz
