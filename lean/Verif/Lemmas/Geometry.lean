import Verif.Model.Geometry
import Mathlib.Tactic.LinearCombination

namespace Wiz
open Classical

theorem rot_mulVec (u v : V3 ℝ) (t : ℝ) :
    M3.mulVec (rotMatAxisAngle u t) v =
      V3.smul (Real.cos t) v + V3.smul (Real.sin t) (V3.cross u v)
        + V3.smul ((1 - Real.cos t) * V3.dot u v) u := by
  ext <;> simp [M3.mulVec, rotMatAxisAngle, V3.cross, V3.dot] <;> ring

theorem cs (t : ℝ) : Real.cos t ^ 2 = 1 - Real.sin t ^ 2 := by
  have := Real.sin_sq_add_cos_sq t; linarith

theorem rot_dot (u v w : V3 ℝ) (hu : V3.dot u u = 1) (t : ℝ) :
    V3.dot (M3.mulVec (rotMatAxisAngle u t) v) (M3.mulVec (rotMatAxisAngle u t) w) = V3.dot v w := by
  have h := Real.sin_sq_add_cos_sq t
  have hu' : u.x*u.x + u.y*u.y + u.z*u.z = 1 := hu
  simp only [rot_mulVec]
  simp only [V3.dot, V3.cross, V3.add_x, V3.add_y, V3.add_z, V3.smul_x, V3.smul_y, V3.smul_z] at *
  have hv : u.z*u.z = 1 - u.x*u.x - u.y*u.y := by linarith
  generalize Real.cos t = c at *
  generalize Real.sin t = s at *
  have hs : s^2 = 1 - c^2 := by linarith
  -- Lagrange identity
  set A := u.x*v.x + u.y*v.y + u.z*v.z with hA
  set B := u.x*w.x + u.y*w.y + u.z*w.z with hB
  set D := v.x*w.x + v.y*w.y + v.z*w.z with hD
  have lag : (u.y*v.z - u.z*v.y)*(u.y*w.z - u.z*w.y) + (u.z*v.x - u.x*v.z)*(u.z*w.x - u.x*w.z)
      + (u.x*v.y - u.y*v.x)*(u.x*w.y - u.y*w.x) = D - A*B := by
    rw [hA, hB, hD]; linear_combination (v.x*w.x + v.y*w.y + v.z*w.z) * hu'
  have e : ∀ _ : True, c^2 * D + s^2 * (D - A*B) + 2*c*(1-c)*A*B + (1-c)^2*(A*B) = D := by
    intro _; rw [hs]; ring
  have e1 := e trivial
  rw [← lag] at e1
  have hAB : (1-c)^2*(A*B) = (1-c)*A*((1-c)*B)*(u.x*u.x + u.y*u.y + u.z*u.z) := by rw [hu']; ring
  rw [hAB] at e1
  rw [← e1]
  rw [hA, hB, hD]
  ring

theorem rot_axis (u : V3 ℝ) (hu : V3.dot u u = 1) (t : ℝ) :
    M3.mulVec (rotMatAxisAngle u t) u = u := by
  rw [rot_mulVec, hu]
  ext <;> simp [V3.cross] <;> ring

theorem rot_dot_axis (u v : V3 ℝ) (hu : V3.dot u u = 1) (t : ℝ) :
    V3.dot u (M3.mulVec (rotMatAxisAngle u t) v) = V3.dot u v := by
  have h := rot_dot u u v hu t
  rwa [rot_axis u hu t] at h

theorem rot_comp (u v : V3 ℝ) (hu : V3.dot u u = 1) (s t : ℝ) :
    M3.mulVec (rotMatAxisAngle u s) (M3.mulVec (rotMatAxisAngle u t) v)
      = M3.mulVec (rotMatAxisAngle u (s + t)) v := by
  rw [rot_mulVec u _ s, rot_dot_axis u v hu t, rot_mulVec u v t, rot_mulVec u v (s+t), Real.cos_add,
    Real.sin_add]
  have hu' : u.x*u.x + u.y*u.y + u.z*u.z = 1 := hu
  ext
  · simp only [V3.dot, V3.cross, V3.add_x, V3.add_y, V3.add_z, V3.smul_x, V3.smul_y, V3.smul_z]
    linear_combination (-v.x * Real.sin s * Real.sin t) * hu'
  · simp only [V3.dot, V3.cross, V3.add_x, V3.add_y, V3.add_z, V3.smul_x, V3.smul_y, V3.smul_z]
    linear_combination (-v.y * Real.sin s * Real.sin t) * hu'
  · simp only [V3.dot, V3.cross, V3.add_x, V3.add_y, V3.add_z, V3.smul_x, V3.smul_y, V3.smul_z]
    linear_combination (-v.z * Real.sin s * Real.sin t) * hu'

theorem rot_det (u : V3 ℝ) (hu : V3.dot u u = 1) (t : ℝ) : M3.det (rotMatAxisAngle u t) = 1 := by
  have hu' : u.x*u.x + u.y*u.y + u.z*u.z = 1 := hu
  have h := Real.sin_sq_add_cos_sq t
  simp only [M3.det, rotMatAxisAngle]
  generalize Real.cos t = c at *
  generalize Real.sin t = s at *
  set N := u.x*u.x + u.y*u.y + u.z*u.z with hN
  have e : (u.x^2*(1-c)+c) * ((u.y^2*(1-c)+c) * (u.z^2*(1-c)+c) - (u.y*u.z*(1-c)-u.x*s) * (u.z*u.y*(1-c)+u.x*s))
     - (u.x*u.y*(1-c)-u.z*s) * ((u.y*u.x*(1-c)+u.z*s) * (u.z^2*(1-c)+c) - (u.y*u.z*(1-c)-u.x*s) * (u.z*u.x*(1-c)-u.y*s))
     + (u.x*u.z*(1-c)+u.y*s) * ((u.y*u.x*(1-c)+u.z*s) * (u.z*u.y*(1-c)+u.x*s) - (u.y^2*(1-c)+c) * (u.z*u.x*(1-c)-u.y*s))
     = c^3 + c^2*(1-c)*N + s^2*c*N + s^2*(1-c)*N^2 := by rw [hN]; ring
  rw [e, hu']
  linear_combination h

theorem transformT_eq {α} [Add α] [Mul α] (T : M3 α) (b : V3 α) :
    transformT T b = M3.mulVec (M3.transpose T) b := rfl
theorem transform_eq {α} [Add α] [Mul α] (T : M3 α) (b : V3 α) :
    transform T b = M3.mulVec T b := rfl

theorem fin_mulVec (M : M3 ℝ) (v : V3 ℝ) : M3.mulVec (M3.fin M) (V3.fin v) = V3.fin (M3.mulVec M v) := by
  ext <;> simp [M3.mulVec, M3.fin]

theorem fin_addV (a b : V3 ℝ) : V3.fin a + V3.fin b = V3.fin (a + b) := by
  ext <;> simp

theorem normN_fin (v : V3 ℝ) : V3.normN (V3.fin v) = Num.fin (V3.norm v) := by
  unfold V3.normN V3.norm
  simp only [V3.fin_x, V3.fin_y, V3.fin_z, Num.fin_pow, Num.fin_add]
  exact Num.sqrt_fin (by positivity)

theorem norm_sq (v : V3 ℝ) : V3.norm v ^ 2 = V3.dot v v := by
  unfold V3.norm V3.dot
  rw [Real.sq_sqrt (by positivity)]; ring

theorem dot_self_nonneg (v : V3 ℝ) : 0 ≤ V3.dot v v := by
  unfold V3.dot
  nlinarith [mul_self_nonneg v.x, mul_self_nonneg v.y, mul_self_nonneg v.z]

theorem norm_eq_sqrt_dot (v : V3 ℝ) : V3.norm v = Real.sqrt (V3.dot v v) := by
  rw [← norm_sq, Real.sqrt_sq (by unfold V3.norm; positivity)]

theorem dot_self_eq_zero {v : V3 ℝ} : V3.dot v v = 0 ↔ v = 0 := by
  constructor
  · intro h
    unfold V3.dot at h
    have hx := mul_self_nonneg v.x
    have hy := mul_self_nonneg v.y
    have hz := mul_self_nonneg v.z
    ext
    · exact mul_self_eq_zero.mp (by linarith)
    · exact mul_self_eq_zero.mp (by linarith)
    · exact mul_self_eq_zero.mp (by linarith)
  · rintro rfl; simp [V3.dot]

theorem norm_pos {v : V3 ℝ} (h : v ≠ 0) : 0 < V3.norm v := by
  rw [norm_eq_sqrt_dot]
  exact Real.sqrt_pos.mpr (lt_of_le_of_ne (dot_self_nonneg v) (fun e => h (dot_self_eq_zero.mp e.symm)))

theorem sdiv_fin (v : V3 ℝ) {s : ℝ} (hs : s ≠ 0) :
    V3.sdiv (V3.fin v) (Num.fin s) = V3.fin (V3.smul (1 / s) v) := by
  ext <;> simp [V3.sdiv, Num.fin_div hs] <;> ring

/-- Normalising a perpendicular non-zero vector. -/
theorem normalise_fin (v : V3 ℝ) (h : v ≠ 0) :
    V3.sdiv (V3.fin v) (V3.normN (V3.fin v)) = V3.fin (V3.smul (1 / V3.norm v) v) := by
  rw [normN_fin, sdiv_fin _ (norm_pos h).ne']

theorem dot_smul_left (s : ℝ) (a b : V3 ℝ) : V3.dot (V3.smul s a) b = s * V3.dot a b := by
  simp [V3.dot]; ring
theorem dot_smul_right (s : ℝ) (a b : V3 ℝ) : V3.dot a (V3.smul s b) = s * V3.dot a b := by
  simp [V3.dot]; ring
theorem dot_comm (a b : V3 ℝ) : V3.dot a b = V3.dot b a := by simp [V3.dot]; ring
theorem dot_add_left (a b c : V3 ℝ) : V3.dot (a + b) c = V3.dot a c + V3.dot b c := by
  simp [V3.dot]; ring
theorem dot_add_right (a b c : V3 ℝ) : V3.dot a (b + c) = V3.dot a b + V3.dot a c := by
  simp [V3.dot]; ring
theorem dot_sub_left (a b c : V3 ℝ) : V3.dot (a - b) c = V3.dot a c - V3.dot b c := by
  simp [V3.dot]; ring

theorem dot_normalised (v : V3 ℝ) (h : v ≠ 0) :
    V3.dot (V3.smul (1 / V3.norm v) v) (V3.smul (1 / V3.norm v) v) = 1 := by
  rw [dot_smul_left, dot_smul_right, ← norm_sq]
  have := (norm_pos h).ne'
  field_simp

theorem inv_sqrt3_sq : (1 / Real.sqrt 3) ^ 2 = 1 / 3 := by
  rw [div_pow, Real.sq_sqrt (by norm_num)]; norm_num

theorem inv_sqrt3_pos : 0 < 1 / Real.sqrt 3 := by positivity

theorem orthVect_ok (u : V3 ℝ) (hu : u ≠ 0) :
    ∃ v : V3 ℝ, orthVect u = .ok (V3.fin v) ∧ V3.dot v v = 1 ∧ V3.dot v u = 0 := by
  set w := V3.smul (1 / V3.norm u) u with hw
  have hww : V3.dot w w = 1 := dot_normalised u hu
  have hn := norm_pos hu
  have hwu : ∀ v, V3.dot v w = 0 → V3.dot v u = 0 := by
    intro v hv
    rw [hw, dot_smul_right] at hv
    rcases mul_eq_zero.mp hv with h | h
    · exact absurd h (by positivity)
    · exact h
  have ht : (1 : Num) / Num.sqrt 3 = Num.fin (1 / Real.sqrt 3) := by
    simp only [Num.one_def, Num.ofNat_def]
    rw [Num.sqrt_fin (by norm_num), Num.fin_div (by positivity)]
  have hxyz : w.x*w.x + w.y*w.y + w.z*w.z = 1 := hww
  have key : ∀ v : V3 ℝ, v ≠ 0 → V3.dot v w = 0 →
      ∃ v' : V3 ℝ, V3.sdiv (V3.fin v) (V3.normN (V3.fin v)) = V3.fin v' ∧ V3.dot v' v' = 1 ∧ V3.dot v' u = 0 := by
    intro v hv hvw
    refine ⟨_, normalise_fin v hv, dot_normalised v hv, ?_⟩
    rw [dot_smul_left, hwu v hvw, mul_zero]
  have big : ∀ a : ℝ, 1 / Real.sqrt 3 ≤ |a| → a ≠ 0 := by
    intro a ha h0
    rw [h0, abs_zero] at ha
    exact absurd ha (not_le.mpr inv_sqrt3_pos)
  unfold orthVect
  simp only [normalise_fin u hu, ← hw, ht, V3.fin_x, V3.fin_y, V3.fin_z, Num.abs_fin, Num.le_fin]
  split_ifs with h1 h2 h3
  · obtain ⟨v', e, p, q⟩ := key ⟨-w.y, w.x, 0⟩ (fun h => big _ h1 (congrArg V3.y h)) (by simp [V3.dot]; ring)
    exact ⟨v', by rw [← e]; rfl, p, q⟩
  · obtain ⟨v', e, p, q⟩ := key ⟨0, -w.z, w.y⟩ (fun h => big _ h2 (congrArg V3.z h)) (by simp [V3.dot]; ring)
    exact ⟨v', by rw [← e]; rfl, p, q⟩
  · obtain ⟨v', e, p, q⟩ := key ⟨w.z, 0, -w.x⟩ (fun h => big _ h3 (congrArg V3.x h)) (by simp [V3.dot]; ring)
    exact ⟨v', by rw [← e]; rfl, p, q⟩
  · exfalso
    have sq : ∀ a : ℝ, ¬ 1 / Real.sqrt 3 ≤ |a| → a * a < 1 / 3 := by
      intro a ha
      have h := not_le.mp ha
      have h2 := mul_self_lt_mul_self (abs_nonneg a) h
      rw [abs_mul_abs_self] at h2
      have := inv_sqrt3_sq
      nlinarith
    have := sq _ h1
    have := sq _ h2
    have := sq _ h3
    linarith

theorem orthVect_zero : orthVect 0 = .error "Cannot find orthogonal vector to a zero vector" := by
  have h0 : V3.normN (V3.fin 0) = Num.fin 0 := by
    rw [normN_fin]; simp [V3.norm]
  have hd : V3.sdiv (V3.fin 0) (Num.fin 0) = (⟨Num.nan, Num.nan, Num.nan⟩ : V3 Num) := by
    ext <;> simp [V3.sdiv, Num.fin_div_zero, Num.infSign]
  have hnle : ∀ a : Num, ¬ a ≤ Num.nan := by
    intro a h; change Num.Le a Num.nan at h; cases a <;> simp [Num.Le] at h
  unfold orthVect
  simp only [h0, hd, Num.abs]
  simp [hnle]

theorem linspace_length (a b : ℝ) (n : ℕ) : (linspace a b n).length = n := by simp [linspace]

end Wiz
