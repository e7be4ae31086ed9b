import Verif.Lemmas.Scale

/-! # The velocity kernels do not depend on the unit of length -/
namespace Wiz
open Classical

section
variable {k m : ℝ} (hk : 0 < k) (hm : 0 < m)
include hk

theorem arctan2_scale (x y : ℝ) : arctan2 (k*y) (k*x) = arctan2 y x := by
  unfold arctan2
  rw [← Complex.arg_real_mul (⟨x, y⟩ : ℂ) hk]
  congr 1
  apply Complex.ext <;> simp

theorem vcAxis_scale (R r : ℝ) : vcAxis (k*R) (k*r) ↔ vcAxis R r := by
  unfold vcAxis
  rw [show 1e-7 * (k*R) = k * (1e-7 * R) by ring, mul_lt_mul_iff_right₀ hk]

theorem vcEdge_scale (R r z : ℝ) : vcEdge (k*R) (k*r) (k*z) ↔ vcEdge R r z := by
  unfold vcEdge
  rw [← mul_sub, ← sc_fin, ← sc_fin, ← sc_fin, abs_sc hk, sc_div_sc hk, sc_div_sc hk]

theorem vcK2_scale (R r z : ℝ) : vcK2 (k*R) 0 (k*r) (k*z) = vcK2 R 0 r z := by
  unfold vcK2
  rw [if_pos rfl, if_pos rfl]
  simp only [Num.ofNat_def, Num.fin_mul, Num.fin_add, Num.fin_pow]
  rw [show 4*(k*r)*(k*R) = (k*k)*(4*r*R) by ring, show (k*R+k*r)^2 + (k*z)^2 = (k*k)*((R+r)^2+z^2) by ring, ← sc_fin, ← sc_fin (k*k),
    sc_div_sc (mul_pos hk hk)]

theorem vcK02_scale (R r z : ℝ) : vcK02 (k*R) 0 (k*r) (k*z) = vcK02 R 0 r z := by
  unfold vcK02
  rw [if_pos rfl, if_pos rfl]
  simp only [Num.ofNat_def, Num.fin_mul, Num.fin_add, Num.fin_pow]
  rw [show 4*(k*r)*(k*R) = (k*k)*(4*r*R) by ring, show (k*R+k*r)^2 = (k*k)*((R+r)^2) by ring, ← sc_fin, ← sc_fin (k*k),
    sc_div_sc (mul_pos hk hk)]

theorem vcT1_scale (R r z : ℝ) : vcT1 (k*R) 0 (k*r) (k*z) = vcT1 R 0 r z := by
  unfold vcT1
  simp only [ne_eq, not_true_eq_false, false_and, if_false, mul_lt_mul_iff_right₀ hk, mul_right_inj' hk.ne']

omit hk in
theorem pair_sc (a b : Num) : Prod.map (sc m) (sc m) (a, b) = (sc m a, sc m b) := rfl

include hm

theorem vcRegular_scale (g : Num) (R r z : ℝ) (PI : Num) :
    vcRegular (sc m g) (k*R) 0 (k*r) (k*z) PI = Prod.map (sc m) (sc m) (vcRegular g R 0 r z PI) := by
  have hkk := mul_pos hk hk
  unfold vcRegular
  simp only [vcK2_scale hk, vcT1_scale hk, mul_right_inj' hk.ne', pair_sc]
  have e1 : Num.fin (k*R) / Num.fin (k*r) = Num.fin R / Num.fin r := sc_div_sc hk (.fin R) (.fin r)
  have e2 : (Num.fin (k*R) - Num.fin (k*r)) / (Num.fin (k*R) + Num.fin (k*r)) = (Num.fin R - Num.fin r) / (Num.fin R + Num.fin r) := by
    rw [← sc_fin, ← sc_fin, ← sc_sub hk, ← sc_add hk, sc_div_sc hk]
  have e3 : ∀ x : Num, Num.fin (k*z) * x / (2 * .fin Real.pi * Num.sqrt (.fin (k*r) * .fin (k*R))) = Num.fin z * x / (2 * .fin Real.pi * Num.sqrt (.fin r * .fin R)) := by
    intro x
    have : Num.fin (k*r) * Num.fin (k*R) = sc (k*k) (.fin r * .fin R) := by
      simp only [Num.fin_mul, sc_fin]; congr 1; ring
    rw [this, sqrt_sc hk, ← sc_mul_right hk, ← sc_fin, ← sc_mul hk, sc_div_sc hk]
  rw [e1, e2, e3, sc_mul hm, sc_mul hm, sc_div hm, sc_neg, sc_mul hm, sc_div hm]

theorem vcSpecial_scale (g : Num) (R r z : ℝ) : vcSpecial (sc m g) (k*R) (k*r) (k*z) = Prod.map (sc m) (sc m) (vcSpecial g R r z) := by
  unfold vcSpecial
  simp only [vcEdge_scale hk, vcAxis_scale hk]
  split
  · rw [pair_sc, zero_sc, sc_div hm]
  · split
    · have : Num.fin (k*z) / Num.sqrt ((.fin (k*z))^2 + (.fin (k*R))^2) = Num.fin z / Num.sqrt ((.fin z)^2 + (.fin R)^2) := by
        rw [← sc_fin, ← sc_fin, sc_pow_two hk, sc_pow_two hk, ← sc_add (mul_pos hk hk), sqrt_sc hk, sc_div_sc hk]
      rw [pair_sc, zero_sc, this, sc_mul hm, sc_div hm]
    · rfl

theorem vcPt_scale (P : Num → Num → Num) (g : Num) (R r z : ℝ) : vcPt P (sc m g) (k*R) 0 (k*r) (k*z) = Prod.map (sc m) (sc m) (vcPt P g R 0 r z) := by
  unfold vcPt
  simp only [vcAxis_scale hk, vcEdge_scale hk, vcK2_scale hk, vcK02_scale hk]
  split
  · exact vcRegular_scale hk hm _ _ _ _ _
  · exact vcSpecial_scale hk hm _ _ _ _

omit hm in
theorem vcBatch_scale (pts : List (V3 ℝ)) (R : ℝ) : vcBatch (pts.map (scP k)) (k*R) 0 = vcBatch pts R 0 := by
  unfold vcBatch
  rw [List.map_map]
  have : ((fun p : V3 ℝ => (polarR p.x p.y, p.z)) ∘ scP k) = (fun q : ℝ × ℝ => (k * q.1, k * q.2)) ∘ fun p => (polarR p.x p.y, p.z) := by
    funext p
    simp only [Function.comp, scP_polarR hk]
    rfl
  rw [this, ← List.map_map, List.filter_map, List.map_map]
  congr 1
  · funext q
    simp only [Function.comp, vcK2_scale hk, vcK02_scale hk]
  · congr 1
    funext q
    simp only [Function.comp, vcAxis_scale hk, vcEdge_scale hk]

theorem polarToCart_scale (p : V3 ℝ) (u : Num × Num) : polarToCart (scP k p) (Prod.map (sc m) (sc m) u) = scV m (polarToCart p u) := by
  unfold polarToCart
  simp only [scP, arctan2_scale hk, scV, Prod.map, sc_mul hm]

theorem vcTang_scale (pts : List (V3 ℝ)) (g : Num) (R : ℝ) : vcTang (pts.map (scP k)) (sc m g) (k*R) 0 = (vcTang pts g R 0).map (scV m) := by
  rw [vcTang_map, vcTang_map, vcBatch_scale hk, List.map_map, List.map_map]
  apply List.map_congr_left
  intro p _
  simp only [Function.comp, scP_polarR hk]
  change polarToCart (scP k p) (vcPt _ (sc m g) (k*R) 0 _ (k * p.z)) = _
  rw [vcPt_scale hk hm, polarToCart_scale hk hm]

/-! ### Longitudinal vorticity -/

omit hm in
theorem longiArg_scale (q : PolarPt) (R : ℝ) :
    4 * Num.fin (k*q.r) * .fin (k*R) / ((.fin (k*q.r) + .fin (k*R))^2 + (.fin (k*q.z))^2) = 4 * .fin q.r * .fin R / ((.fin q.r + .fin R)^2 + (.fin q.z)^2) ∧
    4 * Num.fin (k*q.r) * .fin (k*R) / ((.fin (k*q.r) + .fin (k*R))^2) = 4 * .fin q.r * .fin R / ((.fin q.r + .fin R)^2) := by
  have hkk := mul_pos hk hk
  constructor
  · rw [← sc_fin, ← sc_fin, ← sc_fin, ← sc_add hk, sc_pow_two hk, sc_pow_two hk, ← sc_add hkk,
      show 4 * sc k (Num.fin q.r) * sc k (Num.fin R) = sc (k*k) (4 * .fin q.r * .fin R) by
        simp only [Num.ofNat_def, sc_fin, Num.fin_mul]; congr 1; ring, sc_div_sc hkk]
  · rw [← sc_fin, ← sc_fin, ← sc_add hk, sc_pow_two hk,
      show 4 * sc k (Num.fin q.r) * sc k (Num.fin R) = sc (k*k) (4 * .fin q.r * .fin R) by
        simp only [Num.ofNat_def, sc_fin, Num.fin_mul]; congr 1; ring, sc_div_sc hkk]

/-- scaled polar coordinates -/
noncomputable def scQ (k : ℝ) (q : PolarPt) : PolarPt := ⟨k * q.r, q.psi, k * q.z⟩

omit hm in
theorem toPolarPt_scale (p : V3 ℝ) : toPolarPt (scP k p) = scQ k (toPolarPt p) := by
  unfold toPolarPt scQ
  rw [scP_polarR hk]
  simp only [scP, arctan2_scale hk]

theorem vcLongiUpsi_scale (pts : List PolarPt) (g : Num) (R : ℝ) : vcLongiUpsi (pts.map (scQ k)) (sc m g) (k*R) = (vcLongiUpsi pts g R).map (sc m) := by
  have hkk := mul_pos hk hk
  unfold vcLongiUpsi
  simp only [List.map_map, Function.comp_def, scQ, longiArg_scale hk]
  rw [List.zipWith_map_left, List.map_zipWith]
  congr 1
  funext q PI
  simp only [scQ, longiArg_scale hk]
  have e1 : (Num.fin (k*q.r) - Num.fin (k*R) + Num.abs (Num.fin (k*R) - Num.fin (k*q.r))) / (2 * Num.abs (Num.fin (k*R) - Num.fin (k*q.r))) =
      (Num.fin q.r - Num.fin R + Num.abs (Num.fin R - Num.fin q.r)) / (2 * Num.abs (Num.fin R - Num.fin q.r)) := by
    rw [← sc_fin, ← sc_fin, ← sc_sub hk, ← sc_sub hk, abs_sc hk, ← sc_add hk, ← sc_mul_right hk, sc_div_sc hk]
  have e2 : (Num.fin (k*R) - Num.fin (k*q.r)) / (Num.fin (k*R) + Num.fin (k*q.r)) = (Num.fin R - Num.fin q.r) / (Num.fin R + Num.fin q.r) := by
    rw [← sc_fin, ← sc_fin, ← sc_sub hk, ← sc_add hk, sc_div_sc hk]
  have e3 : ∀ x : Num, Num.fin (k*q.z) * x / (2 * .fin Real.pi * Num.sqrt (.fin (k*q.r) * .fin (k*R))) = Num.fin q.z * x / (2 * .fin Real.pi * Num.sqrt (.fin q.r * .fin R)) := by
    intro x
    have : Num.fin (k*q.r) * Num.fin (k*R) = sc (k*k) (.fin q.r * .fin R) := by
      simp only [Num.fin_mul, sc_fin]; congr 1; ring
    rw [this, sqrt_sc hk, ← sc_mul_right hk, ← sc_fin, ← sc_mul hk, sc_div_sc hk]
  have e4 : sc m g / 2 * Num.fin (k*R) / Num.fin (k*q.r) = sc m (g / 2 * Num.fin R / Num.fin q.r) := by
    rw [← sc_fin k R, ← sc_fin k q.r, ← sc_mul_right hk, sc_div_sc hk, ← sc_div hm, ← sc_mul hm, ← sc_div hm]
  rw [e1, e2, e3, e4, ← sc_mul hm]

theorem vcLongi_scale (pts : List (V3 ℝ)) (g : Num) (R : ℝ) : vcLongi (pts.map (scP k)) (sc m g) (k*R) false = (vcLongi pts g R false).map (scV m) := by
  have e : (pts.map (scP k)).map (fun p : V3 ℝ => (⟨polarR p.x p.y, arctan2 p.y p.x, p.z⟩ : PolarPt)) =
      (pts.map (fun p : V3 ℝ => (⟨polarR p.x p.y, arctan2 p.y p.x, p.z⟩ : PolarPt))).map (scQ k) := by
    rw [List.map_map, List.map_map]
    apply List.map_congr_left
    intro p _
    exact toPolarPt_scale hk p
  unfold vcLongi vcLongiPolar
  rw [e, vcLongiUpsi_scale hk hm, List.zipWith_map, List.map_zipWith]
  congr 1
  funext q u
  simp only [Bool.false_eq_true, if_false, scQ, scV, zero_sc, sc_mul hm, sc_neg]

/-! ### Skewed kernels -/

omit hk in
theorem trapz_scale : ∀ (y : List Num) (x : List ℝ), trapz (y.map (sc m)) x = sc m (trapz y x)
  | y0 :: y1 :: ys, x0 :: x1 :: xs => by
    have ih := trapz_scale (y1 :: ys) (x1 :: xs)
    simp only [List.map_cons] at ih
    simp only [List.map_cons, trapz, ih]
    rw [sc_add hm, sc_div hm, sc_mul_right hm, sc_add hm]
  | [], _ => by simp only [List.map_nil, trapz, zero_sc]
  | [_], _ => by simp only [List.map_nil, List.map_cons, trapz, zero_sc]
  | _ :: _ :: _, [] => by simp only [List.map_cons, trapz, zero_sc]
  | _ :: _ :: _, [_] => by simp only [List.map_cons, trapz, zero_sc]

omit hk in
theorem trapzOf_scale (F G : ℝ → Num) (h : ∀ t, G t = sc m (F t)) (v : List ℝ) : trapzOf G v = sc m (trapzOf F v) := by
  unfold trapzOf
  rw [← trapz_scale hm, List.map_map]
  congr 1
  apply List.map_congr_left
  intro t _
  exact h t

omit hm in
theorem svcA_scale (q : PolarPt) (R t : ℝ) : svcA (scQ k q) (k*R) t = sc (k*k) (svcA q R t) := by
  unfold svcA scQ
  simp only [Num.ofNat_def, Num.fin_mul, Num.fin_pow, Num.fin_add, Num.fin_sub, sc_fin]
  congr 1; ring

omit hm in
theorem svcB_scale (q : PolarPt) (R : ℝ) (mm : Num) (t : ℝ) : svcB (scQ k q) (k*R) mm t = sc k (svcB q R mm t) := by
  unfold svcB scQ
  simp only
  rw [← sc_fin, ← sc_fin, ← sc_fin, ← sc_mul_right hk, ← sc_mul hk, ← sc_mul_right hk, ← sc_mul hk, ← sc_mul_right hk, ← sc_sub hk, ← sc_sub hk]

theorem svcD_scale (q : PolarPt) (g : Num) (R : ℝ) (mm : Num) (t : ℝ) : sc (k*k) (svcD (scQ k q) (sc m g) (k*R) mm t) = sc m (svcD q g R mm t) := by
  have hkk := mul_pos hk hk
  unfold svcD
  rw [svcA_scale hk, svcB_scale hk, sqrt_sc hk, ← sc_mul hkk, sqrt_sc hk, ← sc_mul_right hk, ← sc_add hk, ← sc_mul hk, ← sc_mul_right hk, sc_sc hk hk,
    sc_div hkk, sc_div_sc hkk, sc_div hm, sc_div hm, sc_mul_right hm]

theorem svcTerm_scale (q : PolarPt) (g : Num) (R : ℝ) (mm ax bx ax' bx' : Num) (t : ℝ) (h1 : ax' = sc (k*k) ax) (h2 : bx' = sc k bx) :
    svcTangTerm (scQ k q) (sc m g) (k*R) mm ax' bx' t = sc m (svcTangTerm q g R mm ax bx t) := by
  have hkk := mul_pos hk hk
  unfold svcTangTerm
  rw [h1, h2, svcA_scale hk, sqrt_sc hk, ← sc_mul hk, ← sc_mul_right hk, sc_sc hk hk, ← sc_mul hkk, ← sc_add hkk, ← sc_mul hkk, sc_mul_right hkk,
    svcD_scale hk hm, ← sc_mul_right hm]

theorem svcTangPolar_scale (q : PolarPt) (g : Num) (R : ℝ) (mm : Num) (n : ℕ) :
    svcTangPolar (scQ k q) (sc m g) (k*R) mm n false = scV m (svcTangPolar q g R mm n false) := by
  have hkk := mul_pos hk hk
  unfold svcTangPolar
  simp only [Bool.false_eq_true, if_false, scV]
  have b : ∀ x : Num, -Num.fin (k*R) * x = sc k (-Num.fin R * x) := by
    intro x; rw [← sc_fin, ← sc_neg, ← sc_mul hk]
  have a : ∀ x : Num, Num.fin (k*R) * Num.fin (scQ k q).z * x = sc (k*k) (Num.fin R * Num.fin q.z * x) := by
    intro x
    change Num.fin (k*R) * Num.fin (k*q.z) * x = _
    rw [sc_mul hkk]; congr 1
    simp only [Num.fin_mul, sc_fin]; congr 1; ring
  refine V3.ext ?_ ?_ ?_
  · exact trapzOf_scale hm _ _ (fun t => svcTerm_scale hk hm q g R mm _ _ _ _ t (a _) (b _)) _
  · exact trapzOf_scale hm _ _ (fun t => svcTerm_scale hk hm q g R mm _ _ _ _ t (a _) (b _)) _
  · refine trapzOf_scale hm _ _ (fun t => svcTerm_scale hk hm q g R mm _ _ _ _ t ?_ ?_) _
    · change Num.fin (k*R) * (Num.fin (k*R) - Num.fin (k*q.r) * _) = _
      simp only [Num.fin_mul, Num.fin_sub, sc_fin, scQ]
      congr 1; ring
    · rw [← sc_fin, ← sc_mul hk, ← sc_mul hk]

theorem svcTang_scale (pts : List (V3 ℝ)) (g : Num) (R : ℝ) (mm : Num) (n : ℕ) :
    svcTang (pts.map (scP k)) (sc m g) (k*R) mm n false = (svcTang pts g R mm n false).map (scV m) := by
  unfold svcTang
  rw [List.map_map, List.map_map]
  apply List.map_congr_left
  intro p _
  simp only [Function.comp, toPolarPt_scale hk, svcTangPolar_scale hk hm]

theorem svcLongiPolar_scale (q : PolarPt) (g : Num) (R : ℝ) (mm : Num) (n : ℕ) :
    svcLongiPolar (scQ k q) (sc m g) (k*R) mm n false = scV m (svcLongiPolar q g R mm n false) := by
  have e : ∀ a : ℝ, Num.fin (k*a) / Num.fin (k*R) = Num.fin a / Num.fin R := fun a => sc_div_sc hk (.fin a) (.fin R)
  have d : ∀ r z psi t, svcDenInv r z psi (sc m g) mm t = sc m (svcDenInv r z psi g mm t) := by
    intro r z psi t; unfold svcDenInv; rw [sc_div hm, sc_div hm]
  unfold svcLongiPolar
  simp only [Bool.false_eq_true, if_false, scV, scQ, e, d]
  refine V3.ext ?_ ?_ ?_ <;> exact trapzOf_scale hm _ _ (fun t => (sc_mul_right hm _ _).symm) _

theorem svcLongi_scale (pts : List (V3 ℝ)) (g : Num) (R : ℝ) (mm : Num) (n : ℕ) :
    svcLongi (pts.map (scP k)) (sc m g) (k*R) mm n false = (svcLongi pts g R mm n false).map (scV m) := by
  unfold svcLongi
  rw [List.map_map, List.map_map]
  apply List.map_congr_left
  intro p _
  simp only [Function.comp, toPolarPt_scale hk, svcLongiPolar_scale hk hm]

/-! ### Self-similar model -/

theorem ss_scale (p : V3 ℝ) (g : Num) (R : ℝ) : ssUDefault (scP k p) (sc m g) (k*R) = sc m (ssUDefault p g R) := by
  have hkk := mul_pos hk hk
  unfold ssUDefault ssU
  simp only [scP]
  have e0 : 0 < k * p.z ↔ 0 < p.z := mul_pos_iff_of_pos_left hk
  have e1 : Num.fin (k*p.z) / Num.fin (k*R) = Num.fin p.z / Num.fin R := sc_div_sc hk (.fin p.z) (.fin R)
  have e2 : Num.sqrt (Num.fin ((k*p.x)^2 + (k*p.y)^2)) = sc k (Num.sqrt (Num.fin (p.x^2 + p.y^2))) := by
    rw [show (k*p.x)^2 + (k*p.y)^2 = (k*k)*(p.x^2 + p.y^2) by ring, ← sc_fin, sqrt_sc hk]
  have e3 : Num.fin (k*p.z) / Num.sqrt ((Num.fin (k*p.z))^2 + (Num.fin (k*R))^2) = Num.fin p.z / Num.sqrt ((Num.fin p.z)^2 + (Num.fin R)^2) := by
    rw [← sc_fin, ← sc_fin, sc_pow_two hk, sc_pow_two hk, ← sc_add hkk, sqrt_sc hk, sc_div_sc hk]
  have e4 : ∀ x, Num.sqrt (Num.fin ((k*p.x)^2 + (k*p.y)^2)) / (x * Num.fin (k*R)) = Num.sqrt (Num.fin (p.x^2 + p.y^2)) / (x * Num.fin R) := by
    intro x; rw [e2, ← sc_fin, ← sc_mul_right hk, sc_div_sc hk]
  rw [e1, e3, e4]
  simp only [e0]
  split
  · exact zero_sc.symm
  · rw [sc_mul hm, sc_mul hm, sc_div hm]

end

end Wiz
