import Verif.Lemmas.Polar
import Verif.Lemmas.Geometry
import Verif.Lemmas.LineIntegrals
import Verif.Spec.BiotSavart

namespace Wiz
open Classical MeasureTheory Set

/-- the singularity guard of `vl_semiinf_u`, in real numbers -/
def lineGuard (a e : V3 ℝ) : Prop :=
  V3.norm a * (V3.norm a - V3.dot a e) < 1e-12 ∨ V3.norm a < 1e-5

theorem cauchy_schwarz (a e : V3 ℝ) (he : V3.dot e e = 1) : V3.dot a e ^ 2 ≤ V3.norm a ^ 2 := by
  rw [norm_sq]
  have h : V3.dot a a * V3.dot e e - V3.dot a e^2 = V3.dot (V3.cross a e) (V3.cross a e) := by
    simp [V3.dot, V3.cross]; ring
  have := dot_self_nonneg (V3.cross a e)
  rw [he] at h
  linarith

theorem norm_nonneg (a : V3 ℝ) : 0 ≤ V3.norm a := Real.sqrt_nonneg _

/-- evaluation of `vl_semiinf_u` for a real direction and circulation -/
theorem vlSemiinf_eval (a e : V3 ℝ) (Γ : ℝ) (vm : ℤ) (t : ℝ) :
    vlSemiinf a (V3.fin e) (.fin Γ) vm t =
      if lineGuard a e then .ok ⟨0, 0, 0⟩
      else if vm = 1 ∨ vm = 2 ∨ vm = 3 ∨ vm = 4 then .error "NameError: name 'xb' is not defined"
      else
        .ok (V3.smul (.fin (Γ * 1 / 4 / Real.pi) / .fin (V3.norm a * (V3.norm a - V3.dot a e)
            + if vm = 5 then t else 0)) (V3.fin (V3.cross e a))) := by
  have hs : Num.sqrt (Num.fin a.x ^ 2 + Num.fin a.y ^ 2 + Num.fin a.z ^ 2) = Num.fin (V3.norm a) := normN_fin a
  have hpi := Real.pi_ne_zero
  unfold vlSemiinf lineGuard
  simp only [hs]
  simp only [V3.fin_x, V3.fin_y, V3.fin_z, Num.fin_mul, Num.fin_add, Num.fin_sub, Num.lt_fin, Num.one_def,
    Num.ofNat_def, Num.fin_div four_ne_zero, Num.fin_div hpi]
  have hdot : a.x*e.x + a.y*e.y + a.z*e.z = V3.dot a e := rfl
  have hcr : (⟨.fin (e.y*a.z - e.z*a.y), .fin (e.z*a.x - e.x*a.z), .fin (e.x*a.y - e.y*a.x)⟩ : V3 Num)
    = V3.fin (V3.cross e a) := rfl
  rw [hdot, hcr]
  by_cases h5 : vm = 5
  · simp [h5]
  · simp [h5]

theorem not_guard {a e : V3 ℝ} (h : ¬ lineGuard a e) :
    0 < V3.norm a ∧ 0 < V3.norm a - V3.dot a e := by
  unfold lineGuard at h
  push Not at h
  have hn : 0 < V3.norm a := lt_of_lt_of_le (by norm_num) h.2
  exact ⟨hn, pos_of_mul_pos_right (lt_of_lt_of_le (by norm_num) h.1) hn.le⟩

theorem norm_line (a e : V3 ℝ) (he : V3.dot e e = 1) (s : ℝ) :
    V3.norm (a - V3.smul s e) = LineInt.q (V3.norm a) (V3.dot a e) 1 s := by
  rw [norm_eq_sqrt_dot]
  unfold LineInt.q LineInt.Q
  rw [norm_sq]
  congr 1
  have he' : e.x*e.x + e.y*e.y + e.z*e.z = 1 := he
  simp only [V3.dot, V3.sub_x, V3.sub_y, V3.sub_z, V3.smul_x, V3.smul_y, V3.smul_z]
  linear_combination s^2 * he'

theorem cross_line (a e : V3 ℝ) (s : ℝ) : V3.cross e (a - V3.smul s e) = V3.cross e a := by
  ext <;> simp [V3.cross] <;> ring

theorem cross_eq_zero_of_antiparallel (a e : V3 ℝ) (he : V3.dot e e = 1) (h : V3.dot a e = -V3.norm a) :
    V3.cross e a = 0 := by
  apply dot_self_eq_zero.mp
  have h2 : V3.dot (V3.cross e a) (V3.cross e a) = V3.dot a a * V3.dot e e - V3.dot a e^2 := by
    simp [V3.dot, V3.cross]; ring
  rw [h2, he, h, ← norm_sq]; ring

/-- the Biot–Savart integral along a half line -/
theorem biotSavart_halfline (a e : V3 ℝ) (he : V3.dot e e = 1) (hn : 0 < V3.norm a)
    (hd : 0 < V3.norm a - V3.dot a e) (Γ : ℝ) :
    Spec.biotSavart Γ (Ioi 0) (fun s => V3.smul s e) (fun _ => e) a =
      V3.smul (Γ/(4*Real.pi)/(V3.norm a * (V3.norm a - V3.dot a e))) (V3.cross e a) := by
  unfold Spec.biotSavart Spec.vint Spec.bsKernel
  simp only [norm_line a e he, cross_line]
  have hcs := cauchy_schwarz a e he
  by_cases hb : V3.dot a e = -V3.norm a
  · rw [cross_eq_zero_of_antiparallel a e he hb]
    ext <;> simp
  · have hlow : -(V3.norm a * 1) < V3.dot a e := by
      have : |V3.dot a e| ≤ |V3.norm a| := sq_le_sq.mp hcs
      rw [abs_of_pos hn] at this
      have := (abs_le.mp this).1
      rw [mul_one]
      exact lt_of_le_of_ne this (Ne.symm hb)
    have hI := LineInt.int30 hn one_pos hlow (by linarith : V3.dot a e < V3.norm a * 1)
    have key : ∀ k : ℝ, ∫ s in Ioi (0:ℝ), 1/(4*Real.pi)*(1/LineInt.q (V3.norm a) (V3.dot a e) 1 s^3)*k
        = 1/(4*Real.pi)*(1/(V3.norm a * (V3.norm a - V3.dot a e)))*k := by
      intro k
      rw [integral_mul_const, integral_const_mul, hI]
      simp
    ext <;> simp only [V3.smul_x, V3.smul_y, V3.smul_z, key] <;> ring

end Wiz
