import Verif.Spec.Flow
import Mathlib.Analysis.Calculus.FDeriv.Mul
import Mathlib.Analysis.Calculus.FDeriv.Add
import Mathlib.Analysis.Calculus.Deriv.Inv
import Mathlib.Analysis.SpecialFunctions.Sqrt
import Mathlib.Analysis.Calculus.ParametricIntervalIntegral
/-! # Calculus of gradients -/
namespace Wiz.Spec
noncomputable section

/-- the linear form with gradient `g` -/
def gradMap (g : V3 ℝ) : ℝ × ℝ × ℝ →L[ℝ] ℝ :=
  g.x • ContinuousLinearMap.fst ℝ ℝ (ℝ × ℝ)
      + g.y • (ContinuousLinearMap.fst ℝ ℝ ℝ).comp (ContinuousLinearMap.snd ℝ ℝ (ℝ × ℝ))
      + g.z • (ContinuousLinearMap.snd ℝ ℝ ℝ).comp (ContinuousLinearMap.snd ℝ ℝ (ℝ × ℝ))

theorem gradMap_apply (g : V3 ℝ) (q : ℝ × ℝ × ℝ) : gradMap g q = g.x * q.1 + g.y * q.2.1 + g.z * q.2.2 := by
  simp [gradMap]

theorem hasGrad_iff {f : V3 ℝ → ℝ} {P g : V3 ℝ} :
    HasGrad f P g ↔ HasFDerivAt (fun q : ℝ × ℝ × ℝ => f ⟨q.1, q.2.1, q.2.2⟩) (gradMap g) (P.x, P.y, P.z) := Iff.rfl

theorem HasGrad.congr_grad {f : V3 ℝ → ℝ} {P g g' : V3 ℝ} (h : HasGrad f P g) (e : g = g') : HasGrad f P g' := e ▸ h

theorem gradMap_add (a b : V3 ℝ) : gradMap (a + b) = gradMap a + gradMap b := by
  ext <;> simp [gradMap]
theorem gradMap_smul (k : ℝ) (a : V3 ℝ) : gradMap (V3.smul k a) = k • gradMap a := by
  ext <;> simp [gradMap]

theorem hasGrad_const (c : ℝ) (P : V3 ℝ) : HasGrad (fun _ => c) P 0 := by
  rw [hasGrad_iff]
  have : gradMap 0 = 0 := by ext <;> simp [gradMap]
  rw [this]; exact hasFDerivAt_const _ _
theorem hasGrad_x (P : V3 ℝ) : HasGrad (fun p => p.x) P ⟨1, 0, 0⟩ := by
  rw [hasGrad_iff]
  have : gradMap ⟨1, 0, 0⟩ = ContinuousLinearMap.fst ℝ ℝ (ℝ × ℝ) := by ext <;> simp [gradMap]
  rw [this]; exact hasFDerivAt_fst
theorem hasGrad_y (P : V3 ℝ) : HasGrad (fun p => p.y) P ⟨0, 1, 0⟩ := by
  rw [hasGrad_iff]
  have : gradMap ⟨0, 1, 0⟩ = (ContinuousLinearMap.fst ℝ ℝ ℝ).comp (ContinuousLinearMap.snd ℝ ℝ (ℝ × ℝ)) := by
    ext <;> simp [gradMap]
  rw [this]; exact HasFDerivAt.comp (P.x, P.y, P.z) (g := Prod.fst) (f := Prod.snd) hasFDerivAt_fst hasFDerivAt_snd
theorem hasGrad_z (P : V3 ℝ) : HasGrad (fun p => p.z) P ⟨0, 0, 1⟩ := by
  rw [hasGrad_iff]
  have : gradMap ⟨0, 0, 1⟩ = (ContinuousLinearMap.snd ℝ ℝ ℝ).comp (ContinuousLinearMap.snd ℝ ℝ (ℝ × ℝ)) := by
    ext <;> simp [gradMap]
  rw [this]; exact HasFDerivAt.comp (P.x, P.y, P.z) (g := Prod.snd) (f := Prod.snd) hasFDerivAt_snd hasFDerivAt_snd

theorem HasGrad.add {f g : V3 ℝ → ℝ} {P a b : V3 ℝ} (hf : HasGrad f P a) (hg : HasGrad g P b) :
    HasGrad (fun p => f p + g p) P (a + b) := by
  rw [hasGrad_iff, gradMap_add] at *
  exact HasFDerivAt.add hf hg
theorem HasGrad.const_mul {f : V3 ℝ → ℝ} {P a : V3 ℝ} (k : ℝ) (hf : HasGrad f P a) :
    HasGrad (fun p => k * f p) P (V3.smul k a) := by
  rw [hasGrad_iff, gradMap_smul]
  exact HasFDerivAt.const_mul hf k
theorem HasGrad.mul {f g : V3 ℝ → ℝ} {P a b : V3 ℝ} (hf : HasGrad f P a) (hg : HasGrad g P b) :
    HasGrad (fun p => f p * g p) P (V3.smul (f P) b + V3.smul (g P) a) := by
  rw [hasGrad_iff, gradMap_add, gradMap_smul, gradMap_smul]
  exact HasFDerivAt.mul hf hg
theorem HasGrad.neg {f : V3 ℝ → ℝ} {P a : V3 ℝ} (hf : HasGrad f P a) :
    HasGrad (fun p => - f p) P (V3.smul (-1) a) := by
  have := hf.const_mul (-1)
  simp only [neg_one_mul] at this
  exact this
theorem HasGrad.sub {f g : V3 ℝ → ℝ} {P a b : V3 ℝ} (hf : HasGrad f P a) (hg : HasGrad g P b) :
    HasGrad (fun p => f p - g p) P (a - b) := by
  have := hf.add hg.neg
  simp only [← sub_eq_add_neg] at this
  exact this.congr_grad (by ext <;> simp <;> ring)
theorem HasGrad.sub_const {f : V3 ℝ → ℝ} {P a : V3 ℝ} (hf : HasGrad f P a) (c : ℝ) :
    HasGrad (fun p => f p - c) P a :=
  (hf.sub (hasGrad_const c P)).congr_grad (by ext <;> simp)
theorem HasGrad.add_const {f : V3 ℝ → ℝ} {P a : V3 ℝ} (hf : HasGrad f P a) (c : ℝ) :
    HasGrad (fun p => f p + c) P a :=
  (hf.add (hasGrad_const c P)).congr_grad (by ext <;> simp)
theorem HasGrad.comp_deriv {f : V3 ℝ → ℝ} {φ : ℝ → ℝ} {P a : V3 ℝ} {k : ℝ} (hφ : HasDerivAt φ k (f P)) (hf : HasGrad f P a) :
    HasGrad (fun p => φ (f p)) P (V3.smul k a) := by
  rw [hasGrad_iff, gradMap_smul]
  exact HasDerivAt.comp_hasFDerivAt (P.x, P.y, P.z) hφ hf
theorem HasGrad.sqrt {f : V3 ℝ → ℝ} {P a : V3 ℝ} (hf : HasGrad f P a) (h : f P ≠ 0) :
    HasGrad (fun p => Real.sqrt (f p)) P (V3.smul (1 / (2 * Real.sqrt (f P))) a) :=
  HasGrad.comp_deriv (Real.hasDerivAt_sqrt h) hf
theorem HasGrad.inv {f : V3 ℝ → ℝ} {P a : V3 ℝ} (hf : HasGrad f P a) (h : f P ≠ 0) :
    HasGrad (fun p => (f p)⁻¹) P (V3.smul (-(f P ^ 2)⁻¹) a) :=
  HasGrad.comp_deriv (hasDerivAt_inv h) hf
theorem HasGrad.div {f g : V3 ℝ → ℝ} {P a b : V3 ℝ} (hf : HasGrad f P a) (hg : HasGrad g P b) (h : g P ≠ 0) :
    HasGrad (fun p => f p / g p) P (V3.smul (1 / g P) a - V3.smul (f P / g P ^ 2) b) := by
  have := hf.mul (hg.inv h)
  simp only [← div_eq_mul_inv] at this
  refine this.congr_grad ?_
  ext <;> simp [div_eq_mul_inv] <;> ring

theorem HasGrad.sum {ι : Type} (s : Finset ι) {f : ι → V3 ℝ → ℝ} {P : V3 ℝ} {a : ι → V3 ℝ}
    (h : ∀ i ∈ s, HasGrad (f i) P (a i)) :
    HasGrad (fun p => ∑ i ∈ s, f i p) P ⟨∑ i ∈ s, (a i).x, ∑ i ∈ s, (a i).y, ∑ i ∈ s, (a i).z⟩ := by
  classical
  induction s using Finset.induction_on with
  | empty => simp only [Finset.sum_empty]; exact hasGrad_const 0 P
  | insert i s hi ih =>
    simp only [Finset.sum_insert hi]
    refine ((h i (Finset.mem_insert_self _ _)).add (ih fun j hj => h j (Finset.mem_insert_of_mem hj))).congr_grad ?_
    ext <;> simp

/-- composition with a change of coordinates -/
theorem HasGrad.comp {f : V3 ℝ → ℝ} {T : V3 ℝ → V3 ℝ} {P g a b c : V3 ℝ} (hf : HasGrad f (T P) g)
    (hx : HasGrad (fun p => (T p).x) P a) (hy : HasGrad (fun p => (T p).y) P b) (hz : HasGrad (fun p => (T p).z) P c) :
    HasGrad (fun p => f (T p)) P (V3.smul g.x a + V3.smul g.y b + V3.smul g.z c) := by
  rw [hasGrad_iff] at *
  have h := HasFDerivAt.comp (P.x, P.y, P.z) hf (hx.prodMk (hy.prodMk hz))
  have e : (gradMap g).comp ((gradMap a).prod ((gradMap b).prod (gradMap c))) = gradMap (V3.smul g.x a + V3.smul g.y b + V3.smul g.z c) := by
    ext <;> simp [gradMap]
  rw [← e]
  exact h

/-- the gradient only depends on the field near the point -/
theorem HasGrad.congr {f f' : V3 ℝ → ℝ} {P g : V3 ℝ} (h : HasGrad f P g)
    (e : ∀ᶠ q : ℝ × ℝ × ℝ in nhds (P.x, P.y, P.z), f' ⟨q.1, q.2.1, q.2.2⟩ = f ⟨q.1, q.2.1, q.2.2⟩) : HasGrad f' P g := by
  rw [hasGrad_iff] at *
  exact h.congr_of_eventuallyEq e

theorem HasGrad.unique {f : V3 ℝ → ℝ} {P g g' : V3 ℝ} (h : HasGrad f P g) (h' : HasGrad f P g') : g = g' := by
  rw [hasGrad_iff] at h h'
  have e := h.unique h'
  have e1 := congrArg (fun L : ℝ × ℝ × ℝ →L[ℝ] ℝ => L (1, 0, 0)) e
  have e2 := congrArg (fun L : ℝ × ℝ × ℝ →L[ℝ] ℝ => L (0, 1, 0)) e
  have e3 := congrArg (fun L : ℝ × ℝ × ℝ →L[ℝ] ℝ => L (0, 0, 1)) e
  simp [gradMap_apply] at e1 e2 e3
  ext <;> assumption

/-! ### divergence and curl -/

theorem DivFreeAt.congr {u u' : V3 ℝ → V3 ℝ} {P : V3 ℝ} (h : DivFreeAt u P)
    (e : ∀ᶠ q : ℝ × ℝ × ℝ in nhds (P.x, P.y, P.z), u' ⟨q.1, q.2.1, q.2.2⟩ = u ⟨q.1, q.2.1, q.2.2⟩) : DivFreeAt u' P := by
  obtain ⟨gx, gy, gz, hx, hy, hz, hd⟩ := h
  exact ⟨gx, gy, gz, hx.congr (e.mono fun q h => by rw [h]), hy.congr (e.mono fun q h => by rw [h]),
    hz.congr (e.mono fun q h => by rw [h]), hd⟩
theorem CurlFreeAt.congr {u u' : V3 ℝ → V3 ℝ} {P : V3 ℝ} (h : CurlFreeAt u P)
    (e : ∀ᶠ q : ℝ × ℝ × ℝ in nhds (P.x, P.y, P.z), u' ⟨q.1, q.2.1, q.2.2⟩ = u ⟨q.1, q.2.1, q.2.2⟩) : CurlFreeAt u' P := by
  obtain ⟨gx, gy, gz, hx, hy, hz, hd⟩ := h
  exact ⟨gx, gy, gz, hx.congr (e.mono fun q h => by rw [h]), hy.congr (e.mono fun q h => by rw [h]),
    hz.congr (e.mono fun q h => by rw [h]), hd⟩
theorem divFree_const (c P : V3 ℝ) : DivFreeAt (fun _ => c) P :=
  ⟨0, 0, 0, hasGrad_const _ _, hasGrad_const _ _, hasGrad_const _ _, by simp⟩
theorem curlFree_const (c P : V3 ℝ) : CurlFreeAt (fun _ => c) P :=
  ⟨0, 0, 0, hasGrad_const _ _, hasGrad_const _ _, hasGrad_const _ _, by simp⟩
theorem DivFreeAt.add {u v : V3 ℝ → V3 ℝ} {P : V3 ℝ} (hu : DivFreeAt u P) (hv : DivFreeAt v P) :
    DivFreeAt (fun p => u p + v p) P := by
  obtain ⟨gx, gy, gz, hx, hy, hz, hd⟩ := hu
  obtain ⟨kx, ky, kz, kx', ky', kz', kd⟩ := hv
  refine ⟨_, _, _, hx.add kx', hy.add ky', hz.add kz', ?_⟩
  simp only [V3.add_x, V3.add_y, V3.add_z]; linarith
theorem CurlFreeAt.add {u v : V3 ℝ → V3 ℝ} {P : V3 ℝ} (hu : CurlFreeAt u P) (hv : CurlFreeAt v P) :
    CurlFreeAt (fun p => u p + v p) P := by
  obtain ⟨gx, gy, gz, hx, hy, hz, h1, h2, h3⟩ := hu
  obtain ⟨kx, ky, kz, kx', ky', kz', k1, k2, k3⟩ := hv
  refine ⟨_, _, _, hx.add kx', hy.add ky', hz.add kz', ?_, ?_, ?_⟩
  all_goals simp only [V3.add_x, V3.add_y, V3.add_z]; linarith
theorem DivFreeAt.smul {u : V3 ℝ → V3 ℝ} {P : V3 ℝ} (k : ℝ) (hu : DivFreeAt u P) :
    DivFreeAt (fun p => V3.smul k (u p)) P := by
  obtain ⟨gx, gy, gz, hx, hy, hz, hd⟩ := hu
  refine ⟨_, _, _, hx.const_mul k, hy.const_mul k, hz.const_mul k, ?_⟩
  simp only [V3.smul_x, V3.smul_y, V3.smul_z]; linear_combination k * hd
theorem CurlFreeAt.smul {u : V3 ℝ → V3 ℝ} {P : V3 ℝ} (k : ℝ) (hu : CurlFreeAt u P) :
    CurlFreeAt (fun p => V3.smul k (u p)) P := by
  obtain ⟨gx, gy, gz, hx, hy, hz, h1, h2, h3⟩ := hu
  refine ⟨_, _, _, hx.const_mul k, hy.const_mul k, hz.const_mul k, ?_, ?_, ?_⟩
  all_goals simp only [V3.smul_x, V3.smul_y, V3.smul_z]; simp only [h1, h2, h3]
theorem DivFreeAt.list_sum {ι : Type} (l : List ι) {u : ι → V3 ℝ → V3 ℝ} {P : V3 ℝ} (h : ∀ i ∈ l, DivFreeAt (u i) P) :
    DivFreeAt (fun p => (l.map fun i => u i p).sum) P := by
  induction l with
  | nil => simpa using divFree_const 0 P
  | cons i l ih =>
    simp only [List.map_cons, List.sum_cons]
    exact (h i (by simp)).add (ih fun j hj => h j (by simp [hj]))
theorem CurlFreeAt.list_sum {ι : Type} (l : List ι) {u : ι → V3 ℝ → V3 ℝ} {P : V3 ℝ} (h : ∀ i ∈ l, CurlFreeAt (u i) P) :
    CurlFreeAt (fun p => (l.map fun i => u i p).sum) P := by
  induction l with
  | nil => simpa using curlFree_const 0 P
  | cons i l ih =>
    simp only [List.map_cons, List.sum_cons]
    exact (h i (by simp)).add (ih fun j hj => h j (by simp [hj]))

/-- the gradient of a scalar field with symmetric second derivatives, crossed with a constant vector, is divergence-free -/
theorem divFree_cross {G : V3 ℝ → V3 ℝ} {P : V3 ℝ} (h : CurlFreeAt G P) (t : V3 ℝ) :
    DivFreeAt (fun p => V3.cross t (G p)) P := by
  obtain ⟨gx, gy, gz, hx, hy, hz, h1, h2, h3⟩ := h
  refine ⟨_, _, _, (hz.const_mul t.y).sub (hy.const_mul t.z), (hx.const_mul t.z).sub (hz.const_mul t.x),
    (hy.const_mul t.x).sub (hx.const_mul t.y), ?_⟩
  simp only [V3.sub_x, V3.sub_y, V3.sub_z, V3.smul_x, V3.smul_y, V3.smul_z, h1, h2, h3]; ring

end
end Wiz.Spec
