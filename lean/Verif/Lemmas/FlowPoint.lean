import Verif.Lemmas.FlowKernels
import Verif.Spec.Doublet
/-! # Divergence and curl of point singularities -/
namespace Wiz
open Spec
noncomputable section

/-- `a/|a|³`, `a = p - A` -/
def pointGrad (A p : V3 ℝ) : V3 ℝ :=
  ⟨(p.x - A.x) / (V3.norm (p - A) * V3.norm (p - A) * V3.norm (p - A)),
   (p.y - A.y) / (V3.norm (p - A) * V3.norm (p - A) * V3.norm (p - A)),
   (p.z - A.z) / (V3.norm (p - A) * V3.norm (p - A) * V3.norm (p - A))⟩

theorem pointGrad_hasGrad (A P : V3 ℝ) (hn : 0 < V3.norm (P - A)) :
    let n := V3.norm (P - A)
    let a := P - A
    let g := fun (ai ex ey ez : ℝ) => (⟨ex / n^3 - 3 * ai * a.x / n^5, ey / n^3 - 3 * ai * a.y / n^5, ez / n^3 - 3 * ai * a.z / n^5⟩ : V3 ℝ)
    HasGrad (fun p => (pointGrad A p).x) P (g a.x 1 0 0) ∧ HasGrad (fun p => (pointGrad A p).y) P (g a.y 0 1 0) ∧
      HasGrad (fun p => (pointGrad A p).z) P (g a.z 0 0 1) := by
  intro n a g
  have hN := hasGrad_norm A P hn
  have hn' : V3.norm (P - A) ≠ 0 := hn.ne'
  have hN3 := (hN.mul hN).mul hN
  have hn3 : V3.norm (P - A) * V3.norm (P - A) * V3.norm (P - A) ≠ 0 := by positivity
  have hx := ((hasGrad_x P).sub_const A.x).div hN3 hn3
  have hy := ((hasGrad_y P).sub_const A.y).div hN3 hn3
  have hz := ((hasGrad_z P).sub_const A.z).div hN3 hn3
  refine ⟨hx.congr_grad ?_, hy.congr_grad ?_, hz.congr_grad ?_⟩
  all_goals
    simp only [g, a, n]
    ext
    all_goals
      simp only [V3.sub_x, V3.sub_y, V3.sub_z, V3.smul_x, V3.smul_y, V3.smul_z, V3.add_x, V3.add_y, V3.add_z]
      generalize V3.norm (P - A) = n' at *
      field_simp
      ring

theorem pointGrad_curlFree (A P : V3 ℝ) (hn : 0 < V3.norm (P - A)) : CurlFreeAt (pointGrad A) P := by
  obtain ⟨hx, hy, hz⟩ := pointGrad_hasGrad A P hn
  refine ⟨_, _, _, hx, hy, hz, ?_, ?_, ?_⟩ <;> ring

theorem pointGrad_divFree (A P : V3 ℝ) (hn : 0 < V3.norm (P - A)) : DivFreeAt (pointGrad A) P := by
  obtain ⟨hx, hy, hz⟩ := pointGrad_hasGrad A P hn
  refine ⟨_, _, _, hx, hy, hz, ?_⟩
  have hs := norm_sq (P - A)
  simp only [V3.dot] at hs
  generalize V3.norm (P - A) = n at *
  generalize P - A = a at *
  have : 1 / n ^ 3 - 3 * a.x * a.x / n ^ 5 + (1 / n ^ 3 - 3 * a.y * a.y / n ^ 5) + (1 / n ^ 3 - 3 * a.z * a.z / n ^ 5)
     = 3 / n^3 - 3 * (a.x * a.x + a.y * a.y + a.z * a.z) / n^5 := by ring
  rw [this, ← hs]
  have := hn.ne'
  field_simp
  ring

theorem bsKernel_cross (X T P : V3 ℝ) : bsKernel X T P = V3.smul (1/(4*Real.pi)) (V3.cross T (pointGrad X P)) := by
  unfold bsKernel pointGrad
  ext <;> simp only [V3.cross, V3.smul_x, V3.smul_y, V3.smul_z, V3.sub_x, V3.sub_y, V3.sub_z] <;> ring

/-- doublet: minus the derivative of the source field -/
theorem doublet_hasGrad (mom A P : V3 ℝ) (hn : 0 < V3.norm (P - A)) :
    let n := V3.norm (P - A)
    let a := P - A
    let q := V3.dot mom a
    let g := fun (ai mi ex ey ez : ℝ) => (⟨(3 * (ai * mom.x + mi * a.x + q * ex) / n^5 - 15 * q * ai * a.x / n^7) / (4*Real.pi),
      (3 * (ai * mom.y + mi * a.y + q * ey) / n^5 - 15 * q * ai * a.y / n^7) / (4*Real.pi),
      (3 * (ai * mom.z + mi * a.z + q * ez) / n^5 - 15 * q * ai * a.z / n^7) / (4*Real.pi)⟩ : V3 ℝ)
    HasGrad (fun p => (doubletField mom A p).x) P (g a.x mom.x 1 0 0) ∧ HasGrad (fun p => (doubletField mom A p).y) P (g a.y mom.y 0 1 0) ∧
      HasGrad (fun p => (doubletField mom A p).z) P (g a.z mom.z 0 0 1) := by
  intro n a q g
  have hpi := Real.pi_pos
  have hN := hasGrad_norm A P hn
  have hn' : V3.norm (P - A) ≠ 0 := hn.ne'
  have hN3 := (hN.mul hN).mul hN
  have hn3 : V3.norm (P - A) * V3.norm (P - A) * V3.norm (P - A) ≠ 0 := by positivity
  have hN5 := (hN3.mul hN).mul hN
  have hn5 : V3.norm (P - A) * V3.norm (P - A) * V3.norm (P - A) * V3.norm (P - A) * V3.norm (P - A) ≠ 0 := by positivity
  have hq := hasGrad_dot A mom P
  have hx := (((((hasGrad_x P).sub_const A.x).mul hq).const_mul 3).div hN5 hn5).sub ((hasGrad_const mom.x P).div hN3 hn3) |>.const_mul (1/(4*Real.pi))
  have hy := (((((hasGrad_y P).sub_const A.y).mul hq).const_mul 3).div hN5 hn5).sub ((hasGrad_const mom.y P).div hN3 hn3) |>.const_mul (1/(4*Real.pi))
  have hz := (((((hasGrad_z P).sub_const A.z).mul hq).const_mul 3).div hN5 hn5).sub ((hasGrad_const mom.z P).div hN3 hn3) |>.const_mul (1/(4*Real.pi))
  have ex : ∀ p, (doubletField mom A p).x = 1/(4*Real.pi) * (3 * ((p.x - A.x) * V3.dot (p - A) mom) / (V3.norm (p - A) * V3.norm (p - A) * V3.norm (p - A) * V3.norm (p - A) * V3.norm (p - A)) - mom.x / (V3.norm (p - A) * V3.norm (p - A) * V3.norm (p - A))) := by
    intro p; simp only [doubletField, dot_comm mom, V3.smul_x, V3.sub_x]; ring
  have ey : ∀ p, (doubletField mom A p).y = 1/(4*Real.pi) * (3 * ((p.y - A.y) * V3.dot (p - A) mom) / (V3.norm (p - A) * V3.norm (p - A) * V3.norm (p - A) * V3.norm (p - A) * V3.norm (p - A)) - mom.y / (V3.norm (p - A) * V3.norm (p - A) * V3.norm (p - A))) := by
    intro p; simp only [doubletField, dot_comm mom, V3.smul_y, V3.sub_y]; ring
  have ez : ∀ p, (doubletField mom A p).z = 1/(4*Real.pi) * (3 * ((p.z - A.z) * V3.dot (p - A) mom) / (V3.norm (p - A) * V3.norm (p - A) * V3.norm (p - A) * V3.norm (p - A) * V3.norm (p - A)) - mom.z / (V3.norm (p - A) * V3.norm (p - A) * V3.norm (p - A))) := by
    intro p; simp only [doubletField, dot_comm mom, V3.smul_z, V3.sub_z]; ring
  simp only [ex, ey, ez]
  refine ⟨hx.congr_grad ?_, hy.congr_grad ?_, hz.congr_grad ?_⟩
  all_goals
    simp only [g, a, n, q, dot_comm mom]
    ext
    all_goals
      simp only [V3.sub_x, V3.sub_y, V3.sub_z, V3.smul_x, V3.smul_y, V3.smul_z, V3.add_x, V3.add_y, V3.add_z, V3.zero_x, V3.zero_y, V3.zero_z]
      generalize V3.norm (P - A) = n' at *
      generalize V3.dot (P - A) mom = q' at *
      field_simp
      ring

theorem doublet_curlFree (mom A P : V3 ℝ) (hn : 0 < V3.norm (P - A)) : CurlFreeAt (doubletField mom A) P := by
  obtain ⟨hx, hy, hz⟩ := doublet_hasGrad mom A P hn
  refine ⟨_, _, _, hx, hy, hz, ?_, ?_, ?_⟩ <;> ring

theorem doublet_divFree (mom A P : V3 ℝ) (hn : 0 < V3.norm (P - A)) : DivFreeAt (doubletField mom A) P := by
  obtain ⟨hx, hy, hz⟩ := doublet_hasGrad mom A P hn
  refine ⟨_, _, _, hx, hy, hz, ?_⟩
  have hs := norm_sq (P - A)
  have hpi := Real.pi_pos
  generalize V3.norm (P - A) = n at *
  generalize P - A = a at *
  generalize hq : V3.dot mom a = q at *
  have : (3 * (a.x * mom.x + mom.x * a.x + q * 1) / n^5 - 15 * q * a.x * a.x / n^7) / (4*Real.pi)
     + (3 * (a.y * mom.y + mom.y * a.y + q * 1) / n^5 - 15 * q * a.y * a.y / n^7) / (4*Real.pi)
     + (3 * (a.z * mom.z + mom.z * a.z + q * 1) / n^5 - 15 * q * a.z * a.z / n^7) / (4*Real.pi)
     = (3 * (2 * V3.dot mom a + 3 * q) / n^5 - 15 * q * V3.dot a a / n^7) / (4*Real.pi) := by simp only [V3.dot]; ring
  refine this.trans ?_
  rw [← hs, hq]
  have := hn.ne'
  field_simp
  ring

end
end Wiz
