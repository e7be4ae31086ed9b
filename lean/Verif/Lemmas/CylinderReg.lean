import Verif.Lemmas.VortexCylinder
/-! Evaluation of the regularised (`epsilon≠0`) vortex cylinder. -/
namespace Wiz
open Spec Real Classical

/-- `k²` -/
noncomputable def vcMe (R ε r z : ℝ) : ℝ := 4*r*R/((R+r)^2+z^2+vcEps2 ε z)
/-- `k0²` -/
noncomputable def vcNe (R ε r z : ℝ) : ℝ := 4*r*R/((R+r)^2+vcEps2 ε z)
/-- `T1` -/
noncomputable def vcTe (R ε r z : ℝ) : ℝ :=
  if 0 ≤ z then 1/2 * (1 + (R-r)*√(1 + ε^2/(R+r)^2)/√((R-r)^2+ε^2)) else vcT R r

theorem vcEps2_nonneg (ε z : ℝ) : 0 ≤ vcEps2 ε z := by unfold vcEps2; split_ifs <;> positivity
theorem vcEps2_down {ε z : ℝ} (hz : 0 ≤ z) : vcEps2 ε z = ε^2 := by unfold vcEps2; rw [if_neg (not_lt.mpr hz)]
theorem vcEps2_up {ε z : ℝ} (hz : z < 0) : vcEps2 ε z = 0 := by unfold vcEps2; rw [if_pos hz]

/-- the regularisation acts on `k²` as a shift of the height -/
theorem vcMe_shift (R ε r z : ℝ) : vcMe R ε r z = vcM R r (√(z^2 + vcEps2 ε z)) := by
  unfold vcMe vcM
  rw [sq_sqrt (add_nonneg (sq_nonneg z) (vcEps2_nonneg ε z)), ← add_assoc]

theorem vcK2_reg {R r z ε : ℝ} (hR : 0 < R) (hr : 0 ≤ r) (hε : ε ≠ 0) : vcK2 R ε r z = .fin (vcMe R ε r z) := by
  have := vcEps2_nonneg ε z
  have hp : (R+r)^2+z^2+vcEps2 ε z ≠ 0 := by positivity
  unfold vcK2 vcMe
  simp only [if_neg hε, Num.ofNat_def, Num.fin_mul, Num.fin_add, Num.fin_pow, Num.fin_div hp]
theorem vcK02_reg {R r z ε : ℝ} (hR : 0 < R) (hr : 0 ≤ r) (hε : ε ≠ 0) : vcK02 R ε r z = .fin (vcNe R ε r z) := by
  have := vcEps2_nonneg ε z
  have hp : (R+r)^2+vcEps2 ε z ≠ 0 := by positivity
  unfold vcK02 vcNe
  simp only [if_neg hε, Num.ofNat_def, Num.fin_mul, Num.fin_add, Num.fin_pow, Num.fin_div hp]

theorem vcMe_pos {R r : ℝ} (hR : 0 < R) (hr : 0 < r) (ε z : ℝ) : 0 < vcMe R ε r z := by
  rw [vcMe_shift]; exact vcM_pos hR hr _
theorem shift_ne {ε z : ℝ} (hε : ε ≠ 0) (h : z ≠ 0 ∨ 0 ≤ z) : √(z^2 + vcEps2 ε z) ≠ 0 := by
  rw [sqrt_ne_zero']
  rcases lt_or_ge z 0 with hz | hz
  · have := hz.ne
    rw [vcEps2_up hz]; positivity
  · rw [vcEps2_down hz]; positivity
theorem vcMe_lt {R r z ε : ℝ} (hR : 0 < R) (hr : 0 ≤ r) (hε : ε ≠ 0) : vcMe R ε r z < 1 := by
  rw [vcMe_shift]
  refine vcM_lt hR hr (fun h => shift_ne hε ?_ h.2)
  rcases lt_or_ge z 0 with hz | hz
  · exact Or.inl hz.ne
  · exact Or.inr hz
theorem vcNe_lt {R r z ε : ℝ} (hR : 0 < R) (hr : 0 ≤ r) (h : r ≠ R) : vcNe R ε r z < 1 := by
  have := vcEps2_nonneg ε z
  have h2 : 0 < (R-r)^2 := by have := sub_ne_zero.mpr h.symm; positivity
  unfold vcNe
  rw [div_lt_one (by positivity)]
  nlinarith

theorem vcT1_reg {R r z ε : ℝ} (hR : 0 < R) (hr : 0 ≤ r) (hε : ε ≠ 0) : vcT1 R ε r z = .fin (vcTe R ε r z) := by
  unfold vcTe
  by_cases hz : 0 ≤ z
  · rw [if_pos hz]
    unfold vcT1
    simp only [ne_eq, hε, not_false_iff, hz, and_self, if_true]
    have h1 : 0 < (R+r)^2 := by positivity
    have h2 : 0 < (R-r)^2+ε^2 := by positivity
    have h3 : 0 ≤ 1 + ε^2/(R+r)^2 := by positivity
    simp only [Num.ofNat_def, Num.one_def, Num.fin_add, Num.fin_sub, Num.fin_pow, Num.fin_div h1.ne', Num.sqrt_fin h3, Num.sqrt_fin h2.le,
      Num.fin_mul, Num.fin_div (sqrt_pos.mpr h2).ne', Num.fin_div (two_ne_zero)]
  · rw [if_neg hz]
    have := vcT1_fin R r z
    unfold vcT1 at this ⊢
    simp only [hz, and_false, if_false] at this ⊢
    exact this

noncomputable def vcUze (γ R ε r z q : ℝ) : ℝ :=
  γ/2 * (vcTe R ε r z + z * √(vcMe R ε r z)/(2*π*√(r*R)) * (ellK (vcMe R ε r z) + (R-r)/(R+r)*q))

theorem vcRegular_reg {R r z ε : ℝ} (γ : ℝ) (hR : 0 < R) (hr : 0 < r) (hε : ε ≠ 0) (PI : Num) (q : ℝ)
    (hPI : r ≠ R → PI = .fin q) :
    vcRegular (.fin γ) R ε r z PI = (.fin (vcUr γ R r (√(z^2 + vcEps2 ε z))), .fin (vcUze γ R ε r z q)) := by
  have hm0 := vcMe_pos hR hr ε z
  have hm := vcMe_lt (z := z) hR hr.le hε
  have hs := sqrt_pos.mpr hm0
  have hpi := pi_pos
  have hrR : 0 < r*R := mul_pos hr hR
  have hsr := sqrt_pos.mpr hrR
  have d2 : ∀ a : ℝ, Num.fin a / Num.fin 2 = Num.fin (a/2) := fun a => Num.fin_div two_ne_zero
  have key : (if r = R then (0:Num) else if Num.Eqv PI .pinf then 0 else PI) = .fin (if r = R then 0 else q) := by
    by_cases hrr : r = R
    · simp [hrr]
    · rw [if_neg hrr, if_neg hrr, hPI hrr]; simp
  unfold vcRegular
  simp only [vcK2_reg hR hr.le hε, clip1_fin hm.le, ellipk_fin hm, ellipe_fin hm.le, vcT1_reg hR hr.le hε, key,
    Num.not_eqv_fin_pinf, if_false, Num.sqrt_fin hm0.le]
  simp only [Num.ofNat_def, Num.fin_mul, Num.fin_neg, Num.fin_sub, Num.fin_add, Num.fin_div (show 2*π ≠ 0 by positivity),
    Num.fin_div hr.ne', Num.fin_div hs.ne', d2, Num.sqrt_fin (show 0 ≤ R/r by positivity), Num.sqrt_fin hrR.le,
    Num.fin_div (show 2*π*√(r*R) ≠ 0 by positivity), Num.fin_div (show R + r ≠ 0 by positivity)]
  apply pair_fin
  · unfold vcUr; rw [vcMe_shift]
  · unfold vcUze
    split_ifs with hrr
    · subst hrr; simp
    · ring

/-- real value at one point (`q` evaluates the third-kind integral) -/
noncomputable def vcVale (q : ℝ → ℝ → ℝ) (γ R ε r z : ℝ) : ℝ × ℝ :=
  if |r - R| < 1e-8 * R ∧ |z| < 1e-8 * R then (0, γ/4)
  else if r < 1e-7 * R then (0, γ/2 * (1 + z/√(z^2 + R^2)))
  else (vcUr γ R r (√(z^2 + vcEps2 ε z)), vcUze γ R ε r z (q (vcNe R ε r z) (vcMe R ε r z)))

theorem vcPt_reg {R r z ε : ℝ} (nm : List (Num × Num)) (γ : ℝ) (hR : 0 < R) (hr : 0 ≤ r) (hε : ε ≠ 0) :
    vcPt (piOf nm) (.fin γ) R ε r z =
      (.fin (vcVale (piReal nm) γ R ε r z).1, .fin (vcVale (piReal nm) γ R ε r z).2) := by
  unfold vcPt vcVale vcSpecial vcAxis
  simp only [vcEdge_iff hR]
  by_cases h1 : |r - R| < 1e-8 * R ∧ |z| < 1e-8 * R
  · rw [if_neg (by simp [h1]), if_pos h1, if_pos h1]
    simp only [Num.ofNat_def, Num.fin_div (show (4:ℝ) ≠ 0 by norm_num)]; rfl
  · by_cases h2 : r < 1e-7 * R
    · rw [if_neg (by simp [h2]), if_neg h1, if_pos h2, if_neg h1, if_pos h2]
      have hp : 0 < z^2 + R^2 := by positivity
      simp only [Num.ofNat_def, Num.one_def, Num.fin_pow, Num.fin_add, Num.sqrt_fin hp.le, Num.fin_div (sqrt_pos.mpr hp).ne',
        Num.fin_div (two_ne_zero), Num.fin_mul]; rfl
    · rw [if_pos (by simp only [h1, h2, or_self, not_false_iff]), if_neg h1, if_neg h2]
      have hr' : 0 < r := by
        push Not at h2
        have : 0 < 1e-7 * R := by positivity
        linarith
      apply vcRegular_reg γ hR hr' hε
      intro hrR
      rw [vcK02_reg hR hr hε, vcK2_reg hR hr hε, clip1_fin (vcMe_lt hR hr hε).le]
      exact piReal_spec nm (vcNe_lt hR hr hrR) (vcMe_lt hR hr hε).le

theorem vcTangPolar_reg (pts : List (V3 ℝ)) (γ R ε : ℝ) (hR : 0 < R) (hε : ε ≠ 0) :
    vcTangPolar pts (.fin γ) R ε = pts.map fun p =>
      (.fin (vcVale (piReal (vcBatch pts R ε)) γ R ε (polarR p.x p.y) p.z).1,
       .fin (vcVale (piReal (vcBatch pts R ε)) γ R ε (polarR p.x p.y) p.z).2) := by
  rw [vcTangPolar_map]
  apply List.map_congr_left
  intro p _
  exact vcPt_reg _ γ hR (polarR_nonneg _ _) hε

theorem vcTang_reg (pts : List (V3 ℝ)) (γ R ε : ℝ) (hR : 0 < R) (hε : ε ≠ 0) :
    vcTang pts (.fin γ) R ε = pts.map fun p =>
      V3.fin ⟨(vcVale (piReal (vcBatch pts R ε)) γ R ε (polarR p.x p.y) p.z).1 * cos (arctan2 p.y p.x),
        (vcVale (piReal (vcBatch pts R ε)) γ R ε (polarR p.x p.y) p.z).1 * sin (arctan2 p.y p.x),
        (vcVale (piReal (vcBatch pts R ε)) γ R ε (polarR p.x p.y) p.z).2⟩ := by
  unfold vcTang
  rw [vcTangPolar_reg pts γ R ε hR hε, List.zipWith_map_right, List.zipWith_self]
  rfl

end Wiz
