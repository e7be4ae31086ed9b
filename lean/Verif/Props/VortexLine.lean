import Verif.Lemmas.VortexLine

/-!
# Properties C60–C62: semi-infinite vortex lines
-/
namespace Wiz
open Classical Set

/-- C60: for a unit direction `e`, at every point outside the singularity guard (i.e. with
`|a|(|a|-a·e) ≥ 1e-12` and `|a| ≥ 1e-5`; this excludes the line itself) the velocity without
core model is the Biot–Savart integral over the half line `{s e, s>0}`; inside the guard it
is exactly zero. -/
theorem C60_halfline_biot_savart (a e : V3 ℝ) (he : V3.dot e e = 1) (Γ t : ℝ) :
    (1e-12 ≤ V3.norm a * (V3.norm a - V3.dot a e) → 1e-5 ≤ V3.norm a →
      vlSemiinf a (V3.fin e) (.fin Γ) 0 t =
        .ok (V3.fin (Spec.biotSavart Γ (Ioi 0) (fun s => V3.smul s e) (fun _ => e) a))) ∧
    (V3.norm a * (V3.norm a - V3.dot a e) < 1e-12 ∨ V3.norm a < 1e-5 →
      vlSemiinf a (V3.fin e) (.fin Γ) 0 t = .ok (V3.fin 0)) := by
  constructor
  · intro h1 h2
    have hg : ¬ lineGuard a e := by unfold lineGuard; push Not; exact ⟨h1, h2⟩
    obtain ⟨hn, hd⟩ := not_guard hg
    rw [vlSemiinf_eval, if_neg hg, biotSavart_halfline a e he hn hd]
    simp only [show ¬((0:ℤ) = 1 ∨ (0:ℤ) = 2 ∨ (0:ℤ) = 3 ∨ (0:ℤ) = 4) by decide, if_false,
      show ¬((0:ℤ) = 5) by decide, add_zero]
    have hm : V3.norm a * (V3.norm a - V3.dot a e) ≠ 0 := by positivity
    rw [Num.fin_div hm]
    apply congrArg Except.ok
    have hp := Real.pi_ne_zero
    ext <;> simp only [V3.smul_x, V3.smul_y, V3.smul_z, V3.fin_x, V3.fin_y, V3.fin_z, Num.fin_mul] <;>
      (rw [Num.fin_inj]; field_simp)
  · intro h
    rw [vlSemiinf_eval, if_pos (show lineGuard a e from h)]
    rfl

/-- a point beside the start of an oblique line meets the hypotheses of C60. -/
example : V3.dot (⟨3/5, 0, 4/5⟩ : V3 ℝ) ⟨3/5, 0, 4/5⟩ = 1 ∧
    1e-12 ≤ V3.norm ⟨0, 2, 0⟩ * (V3.norm ⟨0, 2, 0⟩ - V3.dot (⟨0, 2, 0⟩ : V3 ℝ) ⟨3/5, 0, 4/5⟩) ∧
    1e-5 ≤ V3.norm ⟨0, 2, 0⟩ := by
  have : V3.norm ⟨0, 2, 0⟩ = 2 := by
    unfold V3.norm; norm_num
    rw [show (4:ℝ) = 2^2 by norm_num, Real.sqrt_sq (by norm_num)]
  rw [this]; norm_num [V3.dot]

/-- C61: for the line along `z`, the general routine and the straight routine (Cartesian
inputs and output) return the same velocity at every point off the axis and outside the
guard. -/
theorem C61_straight_agrees (p : V3 ℝ) (Γ : ℝ) (t : ℝ) (hoff : p.x ≠ 0 ∨ p.y ≠ 0)
    (h1 : 1e-12 ≤ V3.norm p * (V3.norm p - p.z)) (h2 : 1e-5 ≤ V3.norm p) :
    vlSemiinf p (V3.fin ⟨0, 0, 1⟩) (.fin Γ) 0 t = .ok (vlSemiinfStraight p (.fin Γ) false) := by
  have hdz : V3.dot p ⟨0, 0, 1⟩ = p.z := by simp [V3.dot]
  have hg : ¬ lineGuard p ⟨0, 0, 1⟩ := by
    unfold lineGuard; push Not; rw [hdz]; exact ⟨h1, h2⟩
  obtain ⟨hn, hd⟩ := not_guard hg
  rw [vlSemiinf_eval, if_neg hg]
  simp only [show ¬((0:ℤ) = 1 ∨ (0:ℤ) = 2 ∨ (0:ℤ) = 3 ∨ (0:ℤ) = 4) by decide, if_false,
      show ¬((0:ℤ) = 5) by decide, add_zero]
  apply congrArg Except.ok
  rw [hdz] at hd ⊢
  have hm : V3.norm p * (V3.norm p - p.z) ≠ 0 := by positivity
  rw [Num.fin_div hm]
  have hr := polarR_pos hoff
  unfold vlSemiinfStraight vlSemiinfStraightPolar
  have hns : Real.sqrt (polarR p.x p.y ^ 2 + p.z ^ 2) = V3.norm p := by
    rw [polarR_sq]; rfl
  have hpi := Real.pi_ne_zero
  have hpp : (4 * Real.pi * polarR p.x p.y) ≠ 0 := by positivity
  by_cases hΓ : Γ = 0
  · subst hΓ
    simp [Num.Eqv]
    ext <;> simp
  · have : ¬ Num.Eqv (.fin Γ) 0 := by simpa using hΓ
    simp only [this, if_false, Bool.false_eq_true, Num.fin_pow, Num.fin_add, Num.fin_mul]
    rw [Num.sqrt_fin (by positivity), hns, Num.fin_div hpp, Num.fin_div hn.ne']
    simp only [Num.one_def, Num.fin_add, Num.fin_mul, cos_arctan2 hoff, sin_arctan2 hoff]
    have hsq : V3.norm p ^ 2 = polarR p.x p.y ^ 2 + p.z^2 := by rw [norm_sq, polarR_sq]; simp [V3.dot]; ring
    generalize polarR p.x p.y = r at *
    generalize V3.norm p = n at *
    have hd' := hd.ne'
    have hprod : (n - p.z) * (n + p.z) = r^2 := by linear_combination hsq
    have hkey : 1/(n*(n-p.z)) = (1 + p.z/n)/r^2 := by
      rw [← hprod]
      have : n + p.z ≠ 0 := by
        intro h; rw [h, mul_zero] at hprod; exact (pow_pos hr 2).ne hprod
      rw [show 1 + p.z/n = (n+p.z)/n by field_simp]
      generalize n - p.z = d at *
      generalize n + p.z = g at *
      field_simp
    ext
    · simp only [V3.smul_x, V3.fin_x, V3.cross, Num.fin_mul, Num.fin_inj]
      rw [div_eq_mul_one_div, hkey]
      field_simp
      ring
    · simp only [V3.smul_y, V3.fin_y, V3.cross, Num.fin_mul, Num.fin_inj]
      rw [div_eq_mul_one_div, hkey]
      field_simp
      ring
    · simp only [V3.smul_z, V3.fin_z, V3.cross, Num.fin_mul, Num.zero_def, Num.fin_inj]
      ring

/-- C61 (polar routine): for `r>0` the polar-input routine gives the same velocity as the
Cartesian-input one at `(r cos ψ, r sin ψ, z)`, and its polar output `(u_r,u_ψ,u_z)` holds the
components of that velocity along the radial, azimuthal and axial directions. -/
theorem C61_polar_agrees (r psi z Γ : ℝ) (hr : 0 < r) :
    vlSemiinfStraightPolar r psi z (.fin Γ) false
        = vlSemiinfStraight ⟨r * Real.cos psi, r * Real.sin psi, z⟩ (.fin Γ) false ∧
    ∃ w : ℝ, vlSemiinfStraightPolar r psi z (.fin Γ) true = V3.fin ⟨0, w, 0⟩ ∧
      vlSemiinfStraightPolar r psi z (.fin Γ) false
        = V3.fin ⟨-Real.sin psi * w, Real.cos psi * w, 0⟩ := by
  have hR : polarR (r * Real.cos psi) (r * Real.sin psi) = r := by
    unfold polarR
    rw [show (r * Real.cos psi)^2 + (r * Real.sin psi)^2 = r^2 * (Real.sin psi^2 + Real.cos psi^2) by ring,
      Real.sin_sq_add_cos_sq, mul_one, Real.sqrt_sq hr.le]
  have hcos := r_cos (r * Real.cos psi) (r * Real.sin psi)
  have hsin := r_sin (r * Real.cos psi) (r * Real.sin psi)
  rw [hR] at hcos hsin
  have hc := mul_left_cancel₀ hr.ne' hcos
  have hs := mul_left_cancel₀ hr.ne' hsin
  constructor
  · unfold vlSemiinfStraight vlSemiinfStraightPolar
    simp only [hR, hc, hs]
  · have hpp : 4 * Real.pi * r ≠ 0 := by have := Real.pi_pos; positivity
    have hq : 0 < Real.sqrt (r^2 + z^2) := Real.sqrt_pos.mpr (by positivity)
    unfold vlSemiinfStraightPolar
    by_cases hΓ : Γ = 0
    · subst hΓ
      refine ⟨0, ?_, ?_⟩ <;> simp [Num.Eqv] <;> ext <;> simp
    · have : ¬ Num.Eqv (.fin Γ) 0 := by simpa using hΓ
      simp only [this, if_false, if_true, Bool.false_eq_true, Num.fin_pow, Num.fin_add, Num.fin_mul]
      rw [Num.sqrt_fin (by positivity), Num.fin_div hpp, Num.fin_div hq.ne']
      refine ⟨Γ / (4 * Real.pi * r) * (1 + z / Real.sqrt (r^2 + z^2)), ?_, ?_⟩ <;> ext <;> simp

/-- a point beside the line meets the hypotheses of C61. -/
example : ((3:ℝ) ≠ 0 ∨ (0:ℝ) ≠ 0) ∧ 1e-12 ≤ V3.norm ⟨3, 0, 4⟩ * (V3.norm ⟨3, 0, 4⟩ - (4:ℝ)) ∧
    1e-5 ≤ V3.norm ⟨3, 0, 4⟩ := by
  have : V3.norm ⟨3, 0, 4⟩ = 5 := by
    unfold V3.norm; norm_num
    rw [show (25:ℝ) = 5^2 by norm_num, Real.sqrt_sq (by norm_num)]
  rw [this]; norm_num

/-- C62 (1/3): models 1–4 raise (undefined names) at every point outside the guard. -/
theorem C62_models_1_4_raise (a e : V3 ℝ) (Γ t : ℝ) (vm : ℤ) (hvm : 1 ≤ vm ∧ vm ≤ 4)
    (h1 : 1e-12 ≤ V3.norm a * (V3.norm a - V3.dot a e)) (h2 : 1e-5 ≤ V3.norm a) :
    ∃ err, vlSemiinf a (V3.fin e) (.fin Γ) vm t = .error err := by
  have hg : ¬ lineGuard a e := by unfold lineGuard; push Not; exact ⟨h1, h2⟩
  rw [vlSemiinf_eval, if_neg hg, if_pos (by omega)]
  exact ⟨_, rfl⟩

/-- C62 (2/3): any model number other than 1..5 behaves like model 0. -/
theorem C62_other_models (a e : V3 ℝ) (Γ t : ℝ) (vm : ℤ) (hvm : vm < 1 ∨ 5 < vm) :
    vlSemiinf a (V3.fin e) (.fin Γ) vm t = vlSemiinf a (V3.fin e) (.fin Γ) 0 t := by
  rw [vlSemiinf_eval, vlSemiinf_eval]
  have e1 : ¬ (vm = 1 ∨ vm = 2 ∨ vm = 3 ∨ vm = 4) := by omega
  have e2 : ¬ vm = 5 := by omega
  simp [e1, e2]

/-- C62 (3/3): with the dimensional cut-off (model 5, `t>0`) the velocity is the unregularised
Biot–Savart velocity with `t` added to the denominator `|a|(|a|-a·e)`, and its norm never
exceeds `|Γ|/(4 pi sqrt(2t))`, however close the point is to the line. -/
theorem C62_cutoff_bounded (a e : V3 ℝ) (he : V3.dot e e = 1) (Γ t : ℝ) (ht : 0 < t) :
    ∃ u : V3 ℝ, vlSemiinf a (V3.fin e) (.fin Γ) 5 t = .ok (V3.fin u) ∧
      V3.norm u ≤ |Γ| / (4 * Real.pi * Real.sqrt (2 * t)) ∧
      (1e-12 ≤ V3.norm a * (V3.norm a - V3.dot a e) → 1e-5 ≤ V3.norm a →
        V3.smul (V3.norm a * (V3.norm a - V3.dot a e) + t) u =
          V3.smul (V3.norm a * (V3.norm a - V3.dot a e))
            (Spec.biotSavart Γ (Ioi 0) (fun s => V3.smul s e) (fun _ => e) a)) := by
  have hpi := Real.pi_pos
  rw [vlSemiinf_eval]
  by_cases hg : lineGuard a e
  · rw [if_pos hg]
    refine ⟨0, rfl, ?_, ?_⟩
    · have : V3.norm 0 = 0 := by simp [V3.norm]
      rw [this]; positivity
    · intro h1 h2
      rcases hg with h | h
      · exact absurd h (not_lt.mpr h1)
      · exact absurd h (not_lt.mpr h2)
  · obtain ⟨hn, hd⟩ := not_guard hg
    have hdot := cauchy_schwarz a e he
    rw [if_neg hg, biotSavart_halfline a e he hn hd]
    simp only [show ¬((5:ℤ) = 1 ∨ (5:ℤ) = 2 ∨ (5:ℤ) = 3 ∨ (5:ℤ) = 4) by decide, if_false, if_true]
    set D := V3.norm a * (V3.norm a - V3.dot a e) with hD
    have hDp : 0 < D := by positivity
    have hDt : D + t ≠ 0 := by positivity
    refine ⟨V3.smul (Γ * 1 / 4 / Real.pi / (D + t)) (V3.cross e a), ?_, ?_, ?_⟩
    · rw [Num.fin_div hDt]
      apply congrArg Except.ok
      ext <;> simp
    · have hc : V3.dot (V3.cross e a) (V3.cross e a) ≤ 2 * D := by
        have h2 : V3.dot (V3.cross e a) (V3.cross e a) = V3.dot a a * V3.dot e e - V3.dot a e^2 := by
          simp [V3.dot, V3.cross]; ring
        rw [h2, he, ← norm_sq, hD]
        nlinarith [sq_nonneg (V3.norm a - V3.dot a e)]
      rw [norm_eq_sqrt_dot, dot_smul_left, dot_smul_right]
      have hle : Γ * 1 / 4 / Real.pi / (D + t) * (Γ * 1 / 4 / Real.pi / (D + t) * V3.dot (V3.cross e a) (V3.cross e a))
          ≤ (|Γ| / (4 * Real.pi * Real.sqrt (2 * t)))^2 := by
        rw [div_pow, mul_pow, Real.sq_sqrt (by positivity), sq_abs]
        have h4 : 4 * D * t ≤ (D + t)^2 := by nlinarith [sq_nonneg (D - t)]
        have h5 : 2 * D / (D+t)^2 ≤ 1/(2*t) := by
          rw [div_le_div_iff₀ (by positivity) (by positivity)]
          nlinarith
        calc _ = (Γ^2/(4*Real.pi)^2) * (V3.dot (V3.cross e a) (V3.cross e a) / (D+t)^2) := by
                field_simp
          _ ≤ (Γ^2/(4*Real.pi)^2) * (2 * D / (D+t)^2) := by gcongr
          _ ≤ (Γ^2/(4*Real.pi)^2) * (1/(2*t)) := by gcongr
          _ = _ := by field_simp
      exact (Real.sqrt_le_sqrt hle).trans (by rw [Real.sqrt_sq (by positivity)])
    · intro _ _
      ext <;> simp only [V3.smul_x, V3.smul_y, V3.smul_z] <;> field_simp

end Wiz
