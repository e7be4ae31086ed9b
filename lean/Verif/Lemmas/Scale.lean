import Verif.Lemmas.MirrorKernels

/-! # Positive scale factors on numbers -/
namespace Wiz
open Classical

/-- multiplication by a real factor -/
noncomputable def sc (k : ℝ) (a : Num) : Num := Num.fin k * a

theorem sc_fin (k a : ℝ) : sc k (.fin a) = .fin (k * a) := rfl
theorem sc_nan (k : ℝ) : sc k .nan = .nan := rfl
theorem sc_pinf {k : ℝ} (hk : 0 < k) : sc k .pinf = .pinf := by
  change Num.infSign k = _; unfold Num.infSign; rw [if_pos hk]
theorem sc_ninf {k : ℝ} (hk : 0 < k) : sc k .ninf = .ninf := by
  change Num.infSign (-k) = _; unfold Num.infSign; rw [if_neg (by linarith), if_pos (by linarith)]

theorem infSign_scale {k : ℝ} (hk : 0 < k) (a : ℝ) : Num.infSign (k * a) = Num.infSign a := by
  unfold Num.infSign
  simp only [mul_pos_iff_of_pos_left hk, mul_neg_iff, hk, true_and, not_lt.2 hk.le, false_and, or_false]

theorem sc_infSign {k : ℝ} (hk : 0 < k) (a : ℝ) : sc k (Num.infSign a) = Num.infSign a := by
  unfold Num.infSign
  split
  · exact sc_pinf hk
  · split
    · exact sc_ninf hk
    · exact sc_nan k

theorem sc_one (a : Num) : sc 1 a = a := by
  cases a with
  | fin a => rw [sc_fin, one_mul]
  | pinf => exact sc_pinf one_pos
  | ninf => exact sc_ninf one_pos
  | nan => rfl

theorem sc_sc {k l : ℝ} (hk : 0 < k) (hl : 0 < l) (a : Num) : sc k (sc l a) = sc (k * l) a := by
  have := mul_pos hk hl
  cases a with
  | fin a => rw [sc_fin, sc_fin, sc_fin, mul_assoc]
  | pinf => rw [sc_pinf hl, sc_pinf hk, sc_pinf this]
  | ninf => rw [sc_ninf hl, sc_ninf hk, sc_ninf this]
  | nan => rfl

theorem sc_add {k : ℝ} (hk : 0 < k) (a b : Num) : sc k (a + b) = sc k a + sc k b := by
  cases a <;> cases b <;> simp only [sc_pinf hk, sc_ninf hk, sc_nan, sc_fin, Num.fin_add, mul_add] <;>
    first | rfl | (change sc k .pinf = _; exact sc_pinf hk) | (change sc k .ninf = _; exact sc_ninf hk)

theorem sc_neg (k : ℝ) (a : Num) : sc k (-a) = -sc k a := Num.mul_neg_ _ _
theorem sc_sub {k : ℝ} (hk : 0 < k) (a b : Num) : sc k (a - b) = sc k a - sc k b := by
  rw [Num.sub_def, Num.sub_def, sc_add hk, sc_neg]

theorem sc_mul {k : ℝ} (hk : 0 < k) (a b : Num) : sc k (a * b) = sc k a * b := by
  cases a with
  | fin a =>
    cases b with
    | fin b => simp only [Num.fin_mul, sc_fin, mul_assoc]
    | pinf => change sc k (Num.infSign a) = Num.infSign (k * a); rw [sc_infSign hk, infSign_scale hk]
    | ninf => change sc k (Num.infSign (-a)) = Num.infSign (-(k * a)); rw [sc_infSign hk, ← mul_neg, infSign_scale hk]
    | nan => rfl
  | pinf =>
    rw [sc_pinf hk]
    cases b with
    | fin b => exact sc_infSign hk b
    | pinf => exact sc_pinf hk
    | ninf => exact sc_ninf hk
    | nan => rfl
  | ninf =>
    rw [sc_ninf hk]
    cases b with
    | fin b => exact sc_infSign hk (-b)
    | pinf => exact sc_ninf hk
    | ninf => exact sc_pinf hk
    | nan => rfl
  | nan => cases b <;> rfl

theorem sc_mul_right {k : ℝ} (hk : 0 < k) (a b : Num) : sc k (a * b) = a * sc k b := by
  rw [Num.mul_comm_, sc_mul hk, Num.mul_comm_]

theorem sc_div {k : ℝ} (hk : 0 < k) (a b : Num) : sc k (a / b) = sc k a / b := by
  cases a with
  | fin a =>
    cases b with
    | fin b =>
      change sc k (if b = 0 then Num.infSign a else Num.fin (a / b)) = if b = 0 then Num.infSign (k * a) else Num.fin (k * a / b)
      split
      · rw [sc_infSign hk, infSign_scale hk]
      · rw [sc_fin, mul_div_assoc]
    | pinf => change Num.fin (k * 0) = Num.fin 0; rw [mul_zero]
    | ninf => change Num.fin (k * 0) = Num.fin 0; rw [mul_zero]
    | nan => rfl
  | pinf =>
    rw [sc_pinf hk]
    cases b with
    | fin b =>
      change sc k (if b < 0 then Num.ninf else Num.pinf) = if b < 0 then Num.ninf else Num.pinf
      split
      · exact sc_ninf hk
      · exact sc_pinf hk
    | _ => rfl
  | ninf =>
    rw [sc_ninf hk]
    cases b with
    | fin b =>
      change sc k (if b < 0 then Num.pinf else Num.ninf) = if b < 0 then Num.pinf else Num.ninf
      split
      · exact sc_pinf hk
      · exact sc_ninf hk
    | _ => rfl
  | nan => cases b <;> rfl

/-- a common factor cancels -/
theorem sc_div_sc {k : ℝ} (hk : 0 < k) (a b : Num) : sc k a / sc k b = a / b := by
  cases b with
  | fin b =>
    rw [sc_fin]
    cases a with
    | fin a =>
      rw [sc_fin]
      change (if k * b = 0 then Num.infSign (k * a) else Num.fin (k * a / (k * b))) = if b = 0 then Num.infSign a else Num.fin (a / b)
      rw [infSign_scale hk, mul_div_mul_left _ _ hk.ne']
      simp only [mul_eq_zero, hk.ne', false_or]
    | pinf =>
      rw [sc_pinf hk]
      change (if k * b < 0 then Num.ninf else Num.pinf) = if b < 0 then Num.ninf else Num.pinf
      simp only [mul_neg_iff, hk, true_and, not_lt.2 hk.le, false_and, or_false]
    | ninf =>
      rw [sc_ninf hk]
      change (if k * b < 0 then Num.pinf else Num.ninf) = if b < 0 then Num.pinf else Num.ninf
      simp only [mul_neg_iff, hk, true_and, not_lt.2 hk.le, false_and, or_false]
    | nan => rfl
  | pinf => rw [sc_pinf hk]; cases a <;> simp only [sc_pinf hk, sc_ninf hk, sc_nan, sc_fin] <;> rfl
  | ninf => rw [sc_ninf hk]; cases a <;> simp only [sc_pinf hk, sc_ninf hk, sc_nan, sc_fin] <;> rfl
  | nan => rw [sc_nan]; cases a <;> simp only [sc_pinf hk, sc_ninf hk, sc_nan, sc_fin] <;> rfl

theorem div_sc {k : ℝ} (hk : 0 < k) (a b : Num) : a / sc k b = sc k⁻¹ (a / b) := by
  have h := sc_div_sc hk (sc k⁻¹ a) b
  rw [sc_sc hk (inv_pos.2 hk), mul_inv_cancel₀ hk.ne', sc_one] at h
  rw [h, sc_div (inv_pos.2 hk)]

theorem sc_pow_two {k : ℝ} (hk : 0 < k) (a : Num) : (sc k a)^2 = sc (k*k) (a^2) := by
  change (1 * sc k a) * sc k a = sc (k*k) ((1 * a) * a)
  rw [← sc_sc hk hk, sc_mul hk, sc_mul_right hk, ← sc_mul_right hk, ← sc_mul_right hk, ← sc_mul_right hk, sc_mul hk]

theorem sqrt_sc {k : ℝ} (hk : 0 < k) (a : Num) : Num.sqrt (sc (k*k) a) = sc k (Num.sqrt a) := by
  have hkk := mul_pos hk hk
  cases a with
  | fin a =>
    rw [sc_fin]
    change (if 0 ≤ k * k * a then Num.fin √(k * k * a) else Num.nan) = sc k (if 0 ≤ a then Num.fin √a else Num.nan)
    have : 0 ≤ k * k * a ↔ 0 ≤ a := mul_nonneg_iff_of_pos_left hkk
    simp only [this]
    split
    · rw [Real.sqrt_mul hkk.le, Real.sqrt_mul_self hk.le, sc_fin]
    · rfl
  | pinf => rw [sc_pinf hkk]; change Num.pinf = sc k Num.pinf; rw [sc_pinf hk]
  | ninf => rw [sc_ninf hkk]; rfl
  | nan => rfl

theorem abs_sc {k : ℝ} (hk : 0 < k) (a : Num) : Num.abs (sc k a) = sc k (Num.abs a) := by
  cases a with
  | fin a => change Num.fin |k * a| = Num.fin (k * |a|); rw [abs_mul, abs_of_pos hk]
  | pinf => rw [sc_pinf hk]; exact (sc_pinf hk).symm
  | ninf => rw [sc_ninf hk]; exact (sc_pinf hk).symm
  | nan => rfl

theorem lt_sc {k : ℝ} (hk : 0 < k) (a b : Num) : sc k a < sc k b ↔ a < b := by
  cases a <;> cases b <;> simp only [sc_pinf hk, sc_ninf hk, sc_nan, sc_fin, Num.lt_fin, mul_lt_mul_iff_right₀ hk] <;> rfl

theorem zero_sc {k : ℝ} : sc k 0 = 0 := by change Num.fin (k * 0) = Num.fin 0; rw [mul_zero]

theorem eqv_sc {k : ℝ} (hk : 0 < k) (a b : Num) : Num.Eqv (sc k a) (sc k b) ↔ Num.Eqv a b := by
  cases a <;> cases b <;> simp only [sc_pinf hk, sc_ninf hk, sc_nan, sc_fin, Num.eqv_fin, mul_right_inj' hk.ne'] <;> rfl

theorem eqv_zero_sc {k : ℝ} (hk : 0 < k) (a : Num) : Num.Eqv (sc k a) 0 ↔ Num.Eqv a 0 := by
  have := eqv_sc hk a 0
  rwa [zero_sc] at this

theorem pos_sc {k : ℝ} (hk : 0 < k) (a : Num) : 0 < sc k a ↔ 0 < a := by
  have := lt_sc hk 0 a
  rwa [zero_sc] at this

theorem sign_sc {k : ℝ} (hk : 0 < k) (a : Num) : Num.sign (sc k a) = Num.sign a := by
  cases a with
  | fin a =>
    change (if 0 < k * a then Num.fin 1 else if k * a < 0 then Num.fin (-1) else Num.fin 0) = if 0 < a then Num.fin 1 else if a < 0 then Num.fin (-1) else Num.fin 0
    simp only [mul_pos_iff_of_pos_left hk, mul_neg_iff, hk, true_and, not_lt.2 hk.le, false_and, or_false]
  | pinf => rw [sc_pinf hk]
  | ninf => rw [sc_ninf hk]
  | nan => rfl

/-! ### Fields -/

/-- a scaled point -/
def scP (k : ℝ) (p : V3 ℝ) : V3 ℝ := ⟨k * p.x, k * p.y, k * p.z⟩
/-- a scaled velocity -/
noncomputable def scV (m : ℝ) (u : V3 Num) : V3 Num := ⟨sc m u.x, sc m u.y, sc m u.z⟩

theorem scV_add {m : ℝ} (hm : 0 < m) (a b : V3 Num) : scV m (a + b) = scV m a + scV m b :=
  V3.ext (sc_add hm _ _) (sc_add hm _ _) (sc_add hm _ _)
theorem scV_zero {m : ℝ} : scV m 0 = 0 := V3.ext zero_sc zero_sc zero_sc
theorem scV_addFields {m : ℝ} (hm : 0 < m) (u v : List (V3 Num)) : (addFields u v).map (scV m) = addFields (u.map (scV m)) (v.map (scV m)) := by
  unfold addFields
  rw [List.map_zipWith, List.zipWith_map]
  simp only [scV_add hm]
theorem scV_fin (m : ℝ) (v : V3 ℝ) : scV m (V3.fin v) = V3.fin (scP m v) := rfl
theorem scP_sub (k : ℝ) (a b : V3 ℝ) : scP k (a - b) = scP k a - scP k b := by
  ext <;> simp [scP, mul_sub]
theorem scP_add (k : ℝ) (a b : V3 ℝ) : scP k (a + b) = scP k a + scP k b := by
  ext <;> simp [scP, mul_add]
theorem scP_polarR {k : ℝ} (hk : 0 < k) (p : V3 ℝ) : polarR (scP k p).x (scP k p).y = k * polarR p.x p.y := by
  change √((k*p.x)^2 + (k*p.y)^2) = k * √(p.x^2 + p.y^2)
  rw [show (k*p.x)^2 + (k*p.y)^2 = k*k*(p.x^2 + p.y^2) by ring, Real.sqrt_mul (by positivity), Real.sqrt_mul_self hk.le]

end Wiz
