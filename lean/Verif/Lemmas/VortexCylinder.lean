import Verif.Lemmas.CarlsonReal
import Verif.Lemmas.Ring
import Verif.Model.VortexCylinder
/-! Evaluation of the vortex cylinder on batches of control points. -/
namespace Wiz
open Spec Real Classical

/-! ### Third-kind integrals of a batch as a function of the parameters -/

theorem piOf_exists (nm : List (Num × Num)) : ∃ P : Num → Num → Num,
    ellipticPiCarlson nm = nm.map (fun p => P p.1 p.2) ∧
    (∃ (kF kJ : ℕ) (kC : ℕ → ℕ), (1 ≤ kF ∧ kF ≤ 20) ∧ (1 ≤ kJ ∧ kJ ≤ 20) ∧ (∀ j, 1 ≤ kC j ∧ kC j ≤ 20) ∧
      P = carlsonPi kF kJ kC) ∧
    ∀ n m : ℝ, m ≤ 1 → (n < 1 → ∃ v : ℝ, P (.fin n) (.fin m) = .fin v) ∧ (1 ≤ n → P (.fin n) (.fin m) = .pinf) := by
  obtain ⟨kF, kJ, kC, hF, hJ, hC, e⟩ := carlson_schedule nm
  exact ⟨_, e, ⟨kF, kJ, kC, hF, hJ, hC, rfl⟩, fun n m hm => ⟨fun hn => ⟨_, carlsonPi_fin kF kJ kC hF.1 hJ.1 (fun j => (hC j).1) _ _ hn hm⟩,
    fun hn => carlsonPi_inf kF kJ kC hF.1 _ _ hn hm⟩⟩

/-- the evaluator of the third-kind integral used for the batch `nm` -/
noncomputable def piOf (nm : List (Num × Num)) : Num → Num → Num := (piOf_exists nm).choose
theorem piOf_map (nm : List (Num × Num)) : ellipticPiCarlson nm = nm.map (fun p => piOf nm p.1 p.2) :=
  (piOf_exists nm).choose_spec.1
theorem piOf_fin (nm : List (Num × Num)) {n m : ℝ} (hn : n < 1) (hm : m ≤ 1) :
    ∃ v : ℝ, piOf nm (.fin n) (.fin m) = .fin v := ((piOf_exists nm).choose_spec.2.2 n m hm).1 hn
theorem piOf_schedule (nm : List (Num × Num)) : ∃ (kF kJ : ℕ) (kC : ℕ → ℕ), (1 ≤ kF ∧ kF ≤ 20) ∧ (1 ≤ kJ ∧ kJ ≤ 20) ∧
    (∀ j, 1 ≤ kC j ∧ kC j ≤ 20) ∧ piOf nm = carlsonPi kF kJ kC := (piOf_exists nm).choose_spec.2.1

/-- real-valued evaluator -/
noncomputable def piReal (nm : List (Num × Num)) (n m : ℝ) : ℝ := (piOf nm (.fin n) (.fin m)).toReal
theorem piReal_spec (nm : List (Num × Num)) {n m : ℝ} (hn : n < 1) (hm : m ≤ 1) :
    piOf nm (.fin n) (.fin m) = .fin (piReal nm n m) := by
  obtain ⟨v, hv⟩ := piOf_fin nm hn hm
  rw [piReal, hv]; rfl

/-! ### The batch as a map -/

/-- value at one point with a given evaluator `P` of the third-kind integral -/
noncomputable def vcPt (P : Num → Num → Num) (g : Num) (R eps r z : ℝ) : Num × Num :=
  if ¬ (vcAxis R r ∨ vcEdge R r z) then vcRegular g R eps r z (P (vcK02 R eps r z) (clip1 (vcK2 R eps r z)))
  else vcSpecial g R r z

/-- the arguments passed to `ellipticPiCarlson` -/
noncomputable def vcBatch (pts : List (V3 ℝ)) (R eps : ℝ) : List (Num × Num) :=
  (((pts.map fun p => (polarR p.x p.y, p.z)).filter fun q => decide (¬ (vcAxis R q.1 ∨ vcEdge R q.1 q.2))).map
    fun q => (vcK02 R eps q.1 q.2, clip1 (vcK2 R eps q.1 q.2)))

theorem vcTangPolar_map (pts : List (V3 ℝ)) (g : Num) (R eps : ℝ) :
    vcTangPolar pts g R eps = pts.map fun p => vcPt (piOf (vcBatch pts R eps)) g R eps (polarR p.x p.y) p.z := by
  unfold vcTangPolar
  simp only
  have := piOf_map (vcBatch pts R eps)
  unfold vcBatch at this
  rw [this, List.map_map, List.zipWith_map_right, List.zipWith_self, scatter_map, List.map_map]
  rfl

theorem vcTangPolar_length (pts : List (V3 ℝ)) (g : Num) (R eps : ℝ) : (vcTangPolar pts g R eps).length = pts.length := by
  rw [vcTangPolar_map, List.length_map]

theorem vcTang_map (pts : List (V3 ℝ)) (g : Num) (R eps : ℝ) :
    vcTang pts g R eps = pts.map fun p => polarToCart p (vcPt (piOf (vcBatch pts R eps)) g R eps (polarR p.x p.y) p.z) := by
  unfold vcTang
  rw [vcTangPolar_map, List.zipWith_map_right, List.zipWith_self]

/-! ### Real values -/

theorem vcEdge_iff {R : ℝ} (hR : 0 < R) (r z : ℝ) : vcEdge R r z ↔ |r - R| < 1e-8 * R ∧ |z| < 1e-8 * R := by
  unfold vcEdge
  rw [Num.abs_fin, Num.fin_div hR.ne', Num.fin_div hR.ne', Num.abs_fin, Num.lt_fin, Num.lt_fin, abs_div, abs_of_pos hR,
    div_lt_iff₀ hR, div_lt_iff₀ hR]

/-- `k²` -/
noncomputable def vcM (R r z : ℝ) : ℝ := 4*r*R/((R+r)^2+z^2)
/-- `k0²` -/
noncomputable def vcN (R r : ℝ) : ℝ := 4*r*R/(R+r)^2
noncomputable def vcT (R r : ℝ) : ℝ := if r < R then 1 else if r = R then 1/2 else 0
noncomputable def vcUr (γ R r z : ℝ) : ℝ :=
  -γ/(2*π) * √(R/r) * ((2 - vcM R r z)/√(vcM R r z) * ellK (vcM R r z) - 2/√(vcM R r z) * ellE (vcM R r z))
noncomputable def vcUz (γ R r z q : ℝ) : ℝ :=
  γ/2 * (vcT R r + z * √(vcM R r z)/(2*π*√(r*R)) * (ellK (vcM R r z) + (R-r)/(R+r)*q))

theorem vcM_eq (R r z : ℝ) : vcM R r z = 4*r*R/((r+R)^2+z^2) := by unfold vcM; rw [add_comm R r]
theorem vcM_pos {R r : ℝ} (hR : 0 < R) (hr : 0 < r) (z : ℝ) : 0 < vcM R r z := by unfold vcM; positivity
theorem vcM_lt {R r z : ℝ} (hR : 0 < R) (hr : 0 ≤ r) (h : ¬ (r = R ∧ z = 0)) : vcM R r z < 1 := by
  rw [vcM_eq]; exact ring_m_lt hr hR h
theorem vcN_lt {R r : ℝ} (hR : 0 < R) (hr : 0 ≤ r) (h : r ≠ R) : vcN R r < 1 := by
  have := vcM_lt (z := 0) hR hr (fun h' => h h'.1)
  unfold vcM at this; unfold vcN
  simpa using this

theorem vcK2_fin {R r z : ℝ} (hR : 0 < R) (hr : 0 ≤ r) : vcK2 R 0 r z = .fin (vcM R r z) := by
  have hp : (R+r)^2+z^2 ≠ 0 := by positivity
  unfold vcK2 vcM
  simp only [if_true, Num.ofNat_def, Num.fin_mul, Num.fin_add, Num.fin_pow, Num.fin_div hp]
theorem vcK02_fin {R r z : ℝ} (hR : 0 < R) (hr : 0 ≤ r) : vcK02 R 0 r z = .fin (vcN R r) := by
  have hp : (R+r)^2 ≠ 0 := by positivity
  unfold vcK02 vcN
  simp only [if_true, Num.ofNat_def, Num.fin_mul, Num.fin_add, Num.fin_pow, Num.fin_div hp]
theorem clip1_fin {m : ℝ} (h : m ≤ 1) : clip1 (.fin m) = .fin m := by
  unfold clip1; simp [not_lt.mpr h]
theorem vcT1_fin (R r z : ℝ) : vcT1 R 0 r z = .fin (vcT R r) := by
  unfold vcT1 vcT
  simp only [ne_eq, not_true, false_and, if_false]
  split_ifs
  · rfl
  · simp only [Num.one_def, Num.ofNat_def]; rw [Num.fin_div two_ne_zero]
  · rfl

theorem pair_fin {a b c d : ℝ} (h1 : a = c) (h2 : b = d) : ((Num.fin a, Num.fin b) : Num × Num) = (Num.fin c, Num.fin d) := by
  rw [h1, h2]

/-- the regular branch computes with reals; at `r=R` the third-kind integral is dropped. -/
theorem vcRegular_fin {R r z : ℝ} (γ : ℝ) (hR : 0 < R) (hr : 0 < r) (h : ¬ (r = R ∧ z = 0)) (PI : Num) (q : ℝ)
    (hPI : r ≠ R → PI = .fin q) :
    vcRegular (.fin γ) R 0 r z PI = (.fin (vcUr γ R r z), .fin (vcUz γ R r z q)) := by
  have hm0 := vcM_pos hR hr z
  have hm := vcM_lt hR hr.le h
  have hs := sqrt_pos.mpr hm0
  have hpi := pi_pos
  have hrR : 0 < r*R := mul_pos hr hR
  have hsr := sqrt_pos.mpr hrR
  have d2 : ∀ a : ℝ, Num.fin a / Num.fin 2 = Num.fin (a/2) := fun a => Num.fin_div two_ne_zero
  have key : (if r = R then (0:Num) else if Num.Eqv PI .pinf then 0 else PI) = .fin (if r = R then 0 else q) := by
    by_cases hrr : r = R
    · simp [hrr]
    · rw [if_neg hrr, if_neg hrr, hPI hrr]; simp
  unfold vcRegular
  simp only [vcK2_fin hR hr.le, clip1_fin hm.le, ellipk_fin hm, ellipe_fin hm.le, vcT1_fin, key,
    Num.not_eqv_fin_pinf, if_false, Num.sqrt_fin hm0.le]
  simp only [Num.ofNat_def, Num.fin_mul, Num.fin_neg, Num.fin_sub, Num.fin_add, Num.fin_div (show 2*π ≠ 0 by positivity),
    Num.fin_div hr.ne', Num.fin_div hs.ne', d2, Num.sqrt_fin (show 0 ≤ R/r by positivity), Num.sqrt_fin hrR.le,
    Num.fin_div (show 2*π*√(r*R) ≠ 0 by positivity), Num.fin_div (show R + r ≠ 0 by positivity)]
  apply pair_fin
  · unfold vcUr; ring
  · unfold vcUz
    split_ifs with hrr
    · subst hrr; simp
    · ring

/-- real value at one point (`q` evaluates the third-kind integral) -/
noncomputable def vcVal (q : ℝ → ℝ → ℝ) (γ R r z : ℝ) : ℝ × ℝ :=
  if |r - R| < 1e-8 * R ∧ |z| < 1e-8 * R then (0, γ/4)
  else if r < 1e-7 * R then (0, γ/2 * (1 + z/√(z^2 + R^2)))
  else (vcUr γ R r z, vcUz γ R r z (q (vcN R r) (vcM R r z)))

theorem vcPt_fin {R r z : ℝ} (nm : List (Num × Num)) (γ : ℝ) (hR : 0 < R) (hr : 0 ≤ r) :
    vcPt (piOf nm) (.fin γ) R 0 r z =
      (.fin (vcVal (piReal nm) γ R r z).1, .fin (vcVal (piReal nm) γ R r z).2) := by
  unfold vcPt vcVal vcSpecial vcAxis
  simp only [vcEdge_iff hR]
  by_cases h1 : |r - R| < 1e-8 * R ∧ |z| < 1e-8 * R
  · rw [if_neg (by simp [h1]), if_pos h1, if_pos h1]
    simp only [Num.ofNat_def, Num.fin_div (show (4:ℝ) ≠ 0 by norm_num)]; rfl
  · by_cases h2 : r < 1e-7 * R
    · rw [if_neg (by simp [h2]), if_neg h1, if_pos h2, if_neg h1, if_pos h2]
      have hp : 0 < z^2 + R^2 := by positivity
      simp only [Num.ofNat_def, Num.one_def, Num.fin_pow, Num.fin_add, Num.sqrt_fin hp.le, Num.fin_div (sqrt_pos.mpr hp).ne',
        Num.fin_div (two_ne_zero), Num.fin_mul]; rfl
    · rw [if_pos (by simp only [h1, h2, or_self, not_false_iff]), if_neg h1, if_neg h2]
      have hr' : 0 < r := by
        push Not at h2
        have : 0 < 1e-7 * R := by positivity
        linarith
      have hne : ¬ (r = R ∧ z = 0) := by
        rintro ⟨rfl, rfl⟩; apply h1; simp only [sub_self, abs_zero, and_self]; positivity
      apply vcRegular_fin γ hR hr' hne
      intro hrR
      rw [vcK02_fin hR hr, vcK2_fin hR hr, clip1_fin (vcM_lt hR hr hne).le]
      exact piReal_spec nm (vcN_lt hR hr hrR) (vcM_lt hR hr hne).le

/-- `vc_tang_u` on any batch, with real numbers. -/
theorem vcTangPolar_eval (pts : List (V3 ℝ)) (γ R : ℝ) (hR : 0 < R) :
    vcTangPolar pts (.fin γ) R 0 = pts.map fun p =>
      (.fin (vcVal (piReal (vcBatch pts R 0)) γ R (polarR p.x p.y) p.z).1,
       .fin (vcVal (piReal (vcBatch pts R 0)) γ R (polarR p.x p.y) p.z).2) := by
  rw [vcTangPolar_map]
  apply List.map_congr_left
  intro p _
  exact vcPt_fin _ γ hR (polarR_nonneg _ _)

theorem vcTang_eval (pts : List (V3 ℝ)) (γ R : ℝ) (hR : 0 < R) :
    vcTang pts (.fin γ) R 0 = pts.map fun p =>
      V3.fin ⟨(vcVal (piReal (vcBatch pts R 0)) γ R (polarR p.x p.y) p.z).1 * cos (arctan2 p.y p.x),
        (vcVal (piReal (vcBatch pts R 0)) γ R (polarR p.x p.y) p.z).1 * sin (arctan2 p.y p.x),
        (vcVal (piReal (vcBatch pts R 0)) γ R (polarR p.x p.y) p.z).2⟩ := by
  unfold vcTang
  rw [vcTangPolar_eval pts γ R hR, List.zipWith_map_right, List.zipWith_self]
  rfl

end Wiz
