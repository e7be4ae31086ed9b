import Verif.Lemmas.TurbineRotation
import Verif.Lemmas.Skewed

/-! # Reflection `x ↦ -x` of the velocity kernels -/
namespace Wiz
open Classical

/-! ### Negation of numbers -/

theorem Num.neg_infSign (a : ℝ) : -Num.infSign a = Num.infSign (-a) := by
  unfold Num.infSign
  rcases lt_trichotomy a 0 with h | h | h
  · rw [if_neg (not_lt.2 h.le), if_pos h, if_pos (by linarith)]; rfl
  · subst h; simp
  · rw [if_pos h, if_neg (by linarith), if_pos (by linarith)]; rfl

theorem Num.neg_add_ (a b : Num) : -(a + b) = -a + -b := by
  cases a <;> cases b <;> first | rfl | (simp only [Num.fin_add, Num.fin_neg]; congr 1; ring)

theorem Num.neg_neg_ (a : Num) : - -a = a := by
  cases a <;> first | rfl | (simp only [Num.fin_neg, neg_neg])

theorem Num.neg_mul_ (a b : Num) : -a * b = -(a * b) := by
  cases a with
  | fin a =>
    cases b with
    | fin b => simp only [Num.fin_neg, Num.fin_mul, neg_mul]
    | pinf => exact (Num.neg_infSign a).symm
    | ninf => change Num.infSign (- -a) = -Num.infSign (-a); rw [Num.neg_infSign]
    | nan => rfl
  | pinf =>
    cases b with
    | fin b => exact (Num.neg_infSign b).symm
    | _ => rfl
  | ninf =>
    cases b with
    | fin b => change Num.infSign b = -Num.infSign (-b); rw [Num.neg_infSign, neg_neg]
    | _ => rfl
  | nan => cases b <;> rfl

theorem Num.mul_comm_ (a b : Num) : a * b = b * a := by
  cases a <;> cases b <;> first | rfl | (simp only [Num.fin_mul]; congr 1; ring)

theorem Num.mul_neg_ (a b : Num) : a * -b = -(a * b) := by
  rw [Num.mul_comm_, Num.neg_mul_, Num.mul_comm_]

theorem Num.neg_div_ (a b : Num) : -a / b = -(a / b) := by
  cases a with
  | fin a =>
    cases b with
    | fin b =>
      change (if b = 0 then Num.infSign (-a) else Num.fin (-a / b)) = -(if b = 0 then Num.infSign a else Num.fin (a / b))
      split
      · exact (Num.neg_infSign a).symm
      · rw [Num.fin_neg, neg_div]
    | pinf => change Num.fin 0 = Num.fin (-0); rw [neg_zero]
    | ninf => change Num.fin 0 = Num.fin (-0); rw [neg_zero]
    | nan => rfl
  | pinf =>
    cases b with
    | fin b =>
      change (if b < 0 then Num.pinf else Num.ninf) = -(if b < 0 then Num.ninf else Num.pinf)
      split <;> rfl
    | _ => rfl
  | ninf =>
    cases b with
    | fin b =>
      change (if b < 0 then Num.ninf else Num.pinf) = -(if b < 0 then Num.pinf else Num.ninf)
      split <;> rfl
    | _ => rfl
  | nan => cases b <;> rfl

theorem Num.neg_zero_ : -(0 : Num) = 0 := by change Num.fin (-0) = Num.fin 0; rw [neg_zero]

theorem Num.zero_mul_self (a : Num) : -(Num.fin 0 * a) = Num.fin 0 * a := by
  rw [← Num.neg_mul_, Num.fin_neg, neg_zero]

theorem Num.neg_pow_two (a : Num) : (-a)^2 = a^2 := by
  change ((1 : Num) * -a) * -a = (1 * a) * a
  rw [Num.mul_neg_, Num.mul_neg_, Num.neg_mul_, Num.neg_neg_]

theorem Num.sub_def (a b : Num) : a - b = a + -b := rfl

theorem Num.neg_sum_ (l : List Num) : -l.sum = (l.map fun a => -a).sum := by
  induction l with
  | nil => exact Num.neg_zero_
  | cons a l ih => rw [List.sum_cons, List.map_cons, List.sum_cons, Num.neg_add_, ih]

theorem Num.abs_neg_ (a : Num) : Num.abs (-a) = Num.abs a := by
  cases a <;> first | rfl | (change Num.fin |(-_)| = _; rw [abs_neg]; rfl)

theorem Num.tan_neg_ (a : Num) : Num.tan (-a) = -Num.tan a := by
  cases a with
  | fin a =>
    change (if Real.cos (-a) = 0 then Num.nan else Num.fin (Real.tan (-a))) = -(if Real.cos a = 0 then Num.nan else Num.fin (Real.tan a))
    rw [Real.cos_neg, Real.tan_neg]
    split <;> rfl
  | _ => rfl

/-! ### Reflections -/

/-- reflection of a point -/
def reflP (p : V3 ℝ) : V3 ℝ := ⟨-p.x, p.y, p.z⟩
/-- reflection of a velocity -/
def reflN (u : V3 Num) : V3 Num := ⟨-u.x, u.y, u.z⟩

theorem reflP_polarR (p : V3 ℝ) : polarR (reflP p).x (reflP p).y = polarR p.x p.y := by
  change √((-p.x)^2 + p.y^2) = √(p.x^2 + p.y^2); rw [neg_sq]

theorem reflN_add (a b : V3 Num) : reflN (a + b) = reflN a + reflN b := by
  have h : (reflN (a + b)).x = (reflN a + reflN b).x := Num.neg_add_ a.x b.x
  exact V3.ext h rfl rfl

theorem reflN_zero : reflN 0 = 0 := V3.ext Num.neg_zero_ rfl rfl

theorem reflN_addFields (u v : List (V3 Num)) : (addFields u v).map reflN = addFields (u.map reflN) (v.map reflN) := by
  unfold addFields
  rw [List.map_zipWith, List.zipWith_map]
  simp only [reflN_add]

/-! ### Straight kernels -/

theorem angle_refl (x y : ℝ) (h : polarR x y ≠ 0) : Real.cos (arctan2 y (-x)) = -Real.cos (arctan2 y x) ∧
    Real.sin (arctan2 y (-x)) = Real.sin (arctan2 y x) := by
  have h0 : x ≠ 0 ∨ y ≠ 0 := by
    by_contra hc
    push Not at hc
    apply h
    rw [hc.1, hc.2]
    change √(0^2 + 0^2) = 0
    norm_num
  have h1 : -x ≠ 0 ∨ y ≠ 0 := h0.imp neg_ne_zero.mpr id
  have e : polarR (-x) y = polarR x y := by change √((-x)^2 + y^2) = √(x^2 + y^2); rw [neg_sq]
  rw [cos_arctan2 h0, cos_arctan2 h1, sin_arctan2 h0, sin_arctan2 h1, e, neg_div]
  exact ⟨rfl, rfl⟩

theorem polarR_zero {x y : ℝ} (h : polarR x y = 0) : x = 0 ∧ y = 0 := by
  have h' : √(x^2 + y^2) = 0 := h
  rw [Real.sqrt_eq_zero (by positivity)] at h'
  constructor <;> nlinarith [sq_nonneg x, sq_nonneg y]

/-- a radial velocity that is its own opposite on the axis is reflected -/
theorem polarToCart_refl (p : V3 ℝ) (u : Num × Num) (h0 : polarR p.x p.y = 0 → -u.1 = u.1) :
    polarToCart (reflP p) u = reflN (polarToCart p u) := by
  by_cases h : polarR p.x p.y = 0
  · obtain ⟨hx, hy⟩ := polarR_zero h
    have e : reflP p = p := by ext <;> simp [reflP, hx]
    rw [e]
    have : (polarToCart p u).x = (reflN (polarToCart p u)).x := by
      change u.1 * _ = -(u.1 * _)
      rw [← Num.neg_mul_, h0 h]
    exact V3.ext this rfl rfl
  · obtain ⟨hc, hs⟩ := angle_refl p.x p.y h
    have h1 : (polarToCart (reflP p) u).x = (reflN (polarToCart p u)).x := by
      change u.1 * Num.fin (Real.cos (arctan2 p.y (-p.x))) = -(u.1 * Num.fin (Real.cos (arctan2 p.y p.x)))
      rw [hc, ← Num.fin_neg, Num.mul_neg_]
    have h2 : (polarToCart (reflP p) u).y = (reflN (polarToCart p u)).y := by
      change u.1 * Num.fin (Real.sin (arctan2 p.y (-p.x))) = u.1 * Num.fin (Real.sin (arctan2 p.y p.x))
      rw [hs]
    exact V3.ext h1 h2 rfl

theorem Num.nan_mul_ (a : Num) : Num.nan * a = Num.nan := by cases a <;> rfl
theorem Num.mul_nan_ (a : Num) : a * Num.nan = Num.nan := by cases a <;> rfl

theorem vcPt_axis (P : Num → Num → Num) (g : Num) (R eps z : ℝ) : -(vcPt P g R eps 0 z).1 = (vcPt P g R eps 0 z).1 := by
  unfold vcPt
  split
  · rename_i h
    push Not at h
    have hR : R ≤ 0 := by
      by_contra hc
      push Not at hc
      exact h.1 (by unfold vcAxis; linarith)
    have e : Num.sqrt (Num.fin R / Num.fin 0) = Num.nan := by
      rw [Num.fin_div_zero]
      unfold Num.infSign
      rw [if_neg (not_lt.2 hR)]
      split <;> rfl
    unfold vcRegular
    simp only
    rw [e, Num.mul_nan_, Num.nan_mul_]
    rfl
  · unfold vcSpecial
    split
    · exact Num.neg_zero_
    · split
      · exact Num.neg_zero_
      · rfl

theorem vcBatch_refl (pts : List (V3 ℝ)) (R eps : ℝ) : vcBatch (pts.map reflP) R eps = vcBatch pts R eps := by
  unfold vcBatch
  rw [List.map_map]
  have : ((fun p : V3 ℝ => (polarR p.x p.y, p.z)) ∘ reflP) = fun p => (polarR p.x p.y, p.z) := by
    funext p
    simp only [Function.comp, reflP_polarR]
    rfl
  rw [this]

theorem vcTang_refl (pts : List (V3 ℝ)) (g : Num) (R eps : ℝ) : vcTang (pts.map reflP) g R eps = (vcTang pts g R eps).map reflN := by
  rw [vcTang_map, vcTang_map, vcBatch_refl, List.map_map, List.map_map]
  apply List.map_congr_left
  intro p _
  simp only [Function.comp, reflP_polarR]
  apply polarToCart_refl
  intro h
  rw [h]
  exact vcPt_axis _ _ _ _ _

theorem vcCut_refl (R c : ℝ) (p : V3 ℝ) : vcCut R c (reflP p) ↔ vcCut R c p := by
  unfold vcCut; rw [reflP_polarR]; rfl

theorem doubletLinePolar_axis (z : ℝ) (k : Num) (u : Num × Num) (h : doubletLinePolarU 0 z k = .ok u) : -u.1 = u.1 := by
  unfold doubletLinePolarU at h
  rw [if_neg (lt_irrefl _)] at h
  have h0 : |(0:ℝ)| < 1e-8 := by rw [abs_zero]; norm_num
  have h1 : ¬ |(0:ℝ)| > 1e-8 := by rw [abs_zero]; norm_num
  simp only [h0, h1, not_true_eq_false, and_false, if_false, and_true, true_and] at h
  have h := Except.ok.inj h
  rw [← h]
  simp only [ite_self]
  exact Num.neg_zero_

theorem vcTangDoublet_map2 (pts : List (V3 ℝ)) (g : Num) (R rCut : ℝ) :
    vcTangDoublet pts g R rCut = pts.map fun p => polarToCart p (if ¬ vcCut R rCut p then
        vcPt (piOf (vcBatch (pts.filter fun p => decide (¬ vcCut R rCut p)) R 0)) g R 0 (polarR p.x p.y) p.z
      else match doubletLinePolarU (polarR p.x p.y) p.z (g * (.fin R)^2 * .fin Real.pi) with
        | .ok u => u
        | .error _ => (.nan, .nan)) := by
  unfold vcTangDoublet vcTangDoubletPolar
  simp only [vcTangPolar_map]
  rw [scatter_map, List.zipWith_map_right, List.zipWith_self]
  apply List.map_congr_left
  intro p _
  by_cases h : vcCut R rCut p
  · simp only [h, not_true_eq_false, if_false]
    generalize doubletLinePolarU _ _ _ = e
    cases e <;> rfl
  · simp [h]

theorem vcTangDoublet_refl (pts : List (V3 ℝ)) (g : Num) (R rCut : ℝ) :
    vcTangDoublet (pts.map reflP) g R rCut = (vcTangDoublet pts g R rCut).map reflN := by
  have e : ((pts.map reflP).filter fun p => decide (¬ vcCut R rCut p)) = (pts.filter fun p => decide (¬ vcCut R rCut p)).map reflP := by
    rw [List.filter_map]
    congr 2
    funext p
    simp only [Function.comp, vcCut_refl]
  rw [vcTangDoublet_map2, vcTangDoublet_map2, e, vcBatch_refl, List.map_map, List.map_map]
  apply List.map_congr_left
  intro p _
  simp only [Function.comp, reflP_polarR, vcCut_refl]
  apply polarToCart_refl
  intro h
  rw [h]
  split
  · exact vcPt_axis _ _ _ _ _
  · generalize hd : doubletLinePolarU 0 (reflP p).z (g * (.fin R)^2 * .fin Real.pi) = d
    cases d with
    | error e => rfl
    | ok u => exact doubletLinePolar_axis _ _ u hd

theorem fin_neg_sq (x : ℝ) : (Num.fin (-x))^2 = (Num.fin x)^2 := by
  rw [← Num.fin_neg, Num.neg_pow_two]

theorem doubletLine_refl (p : V3 ℝ) (k : Num) : doubletLineU (reflP p) k 0 none = reflN (doubletLineU p k 0 none) := by
  unfold doubletLineU
  simp only [reflP, fin_neg_sq, zero_mul, sub_zero, abs_neg]
  have e : Num.fin 0 * Num.fin (-p.x) = Num.fin 0 * Num.fin p.x := by
    rw [Num.fin_mul, Num.fin_mul, zero_mul, zero_mul]
  rw [e]
  split
  · exact reflN_zero.symm
  · generalize (doubletLineIntegrals _ _ _ _).1 = i0
    generalize (doubletLineIntegrals _ _ _ _).2.1 = t0
    generalize (doubletLineIntegrals _ _ _ _).2.2.1 = t1
    generalize (doubletLineIntegrals _ _ _ _).2.2.2 = t2
    simp only [reflN]
    refine V3.ext ?_ rfl rfl
    change k / _ * (Num.fin (-p.x) * Num.fin p.z * t0 + Num.fin 0 * t2 - (Num.fin 0 * Num.fin p.z + Num.fin (-p.x)) * t1) =
      -(k / _ * (Num.fin p.x * Num.fin p.z * t0 + Num.fin 0 * t2 - (Num.fin 0 * Num.fin p.z + Num.fin p.x) * t1))
    rw [← Num.mul_neg_]
    congr 1
    rw [Num.sub_def, Num.sub_def, Num.neg_add_, Num.neg_add_, Num.zero_mul_self]
    have hz : ∀ a : Num, Num.fin 0 + a = a := fun a => zero_add a
    simp only [Num.fin_mul, zero_mul, hz, ← Num.fin_neg, Num.neg_mul_]

theorem ss_refl (p : V3 ℝ) (g : Num) (R : ℝ) : ssUDefault (reflP p) g R = ssUDefault p g R := by
  unfold ssUDefault ssU
  simp only [reflP, neg_sq]

/-! ### The skewed kernel -/

theorem trapz_num (F : ℝ → Num) : ∀ (n : ℕ) (x : ℕ → ℝ),
    trapz (((List.range (n+1)).map x).map F) ((List.range (n+1)).map x)
      = ∑ i ∈ Finset.range n, Num.fin (x (i+1) - x i) * (F (x i) + F (x (i+1))) / 2 := by
  intro n
  induction n with
  | zero => intro x; simp [trapz]
  | succ n ih =>
    intro x
    have e : (List.range (n+1+1)).map x = x 0 :: (List.range (n+1)).map fun i => x (i+1) := by
      rw [List.range_succ_eq_map]; simp [Function.comp_def]
    have h := ih fun i => x (i+1)
    have e2 : ∀ y : ℕ → ℝ, (List.range (n+1)).map y = y 0 :: (List.range n).map fun i => y (i+1) := by
      intro y; rw [List.range_succ_eq_map]; simp [Function.comp_def]
    rw [e, e2, List.map_cons, List.map_cons, trapz, ← List.map_cons (f := F), ← e2 (fun i => x (i+1)), h,
      Finset.sum_range_succ', add_comm]

theorem svcTheta_range (n : ℕ) : svcTangTheta (n+1) = (List.range (n+1)).map fun i : ℕ => Real.pi/2 + i * (2*Real.pi/n) :=
  svcTheta_eq (Real.pi/2) n _ (fun t => by ring)

theorem neg_finsum (n : ℕ) (f : ℕ → Num) : -(∑ i ∈ Finset.range n, f i) = ∑ i ∈ Finset.range n, -f i := by
  induction n with
  | zero => exact Num.neg_zero_
  | succ n ih => rw [Finset.sum_range_succ, Finset.sum_range_succ, Num.neg_add_, ih]

/-- the nodes of the quadrature are symmetric about `3π/2` -/
theorem trapzOf_refl (ntheta : ℕ) (F G : ℝ → Num) (h : ∀ t s : ℝ, Real.cos s = -Real.cos t → Real.sin s = Real.sin t → G s = F t) :
    trapzOf G (svcTangTheta ntheta) = trapzOf F (svcTangTheta ntheta) := by
  cases ntheta with
  | zero => rfl
  | succ n =>
    unfold trapzOf
    rw [svcTheta_range, trapz_num, trapz_num, ← Finset.sum_range_reflect]
    apply Finset.sum_congr rfl
    intro i hi
    have hi := Finset.mem_range.1 hi
    have hn : (n:ℝ) ≠ 0 := by
      have : n ≠ 0 := by omega
      exact_mod_cast this
    have key : ∀ j : ℕ, j ≤ n → G (Real.pi/2 + ((n - j : ℕ):ℝ) * (2*Real.pi/n)) = F (Real.pi/2 + (j:ℝ) * (2*Real.pi/n)) := by
      intro j hj
      have e : Real.pi/2 + ((n - j : ℕ):ℝ) * (2*Real.pi/n) = Real.pi - (Real.pi/2 + (j:ℝ) * (2*Real.pi/n)) + 2*Real.pi := by
        rw [Nat.cast_sub hj]; field_simp; ring
      rw [e]
      apply h
      · rw [Real.cos_add_two_pi, Real.cos_pi_sub]
      · rw [Real.sin_add_two_pi, Real.sin_pi_sub]
    have e1 : n - 1 - i + 1 = n - i := by omega
    have e2 : n - 1 - i = n - (i+1) := by omega
    rw [e1, key i hi.le, e2, key (i+1) hi, add_comm (F _)]
    congr 3
    rw [Nat.cast_sub hi.le, Nat.cast_sub hi]
    push_cast
    ring

theorem trapzOf_neg (ntheta : ℕ) (F : ℝ → Num) : trapzOf (fun t => -F t) (svcTangTheta ntheta) = -trapzOf F (svcTangTheta ntheta) := by
  cases ntheta with
  | zero => exact Num.neg_zero_.symm
  | succ n =>
    unfold trapzOf
    rw [svcTheta_range, trapz_num, trapz_num, neg_finsum]
    apply Finset.sum_congr rfl
    intro i _
    rw [← Num.neg_add_, Num.mul_neg_, Num.neg_div_]

theorem polar_cos (p : V3 ℝ) (t : ℝ) : polarR p.x p.y * Real.cos (t - arctan2 p.y p.x) = p.x * Real.cos t + p.y * Real.sin t := by
  rw [Real.cos_sub]
  linear_combination Real.cos t * r_cos p.x p.y + Real.sin t * r_sin p.x p.y

section
variable (p : V3 ℝ) (g : Num) (R : ℝ) (m : Num) (t s : ℝ)

theorem svcA_eq : svcA (toPolarPt p) R t = .fin R^2 + .fin (polarR p.x p.y)^2 + .fin p.z^2 - .fin (2 * R * (p.x * Real.cos t + p.y * Real.sin t)) := by
  unfold svcA toPolarPt
  simp only [Num.ofNat_def, Num.fin_mul]
  rw [mul_assoc, polar_cos]

theorem svcA_refl (hc : Real.cos s = -Real.cos t) (hs : Real.sin s = Real.sin t) :
    svcA (toPolarPt (reflP p)) R s = svcA (toPolarPt p) R t := by
  rw [svcA_eq, svcA_eq, reflP_polarR, hc, hs]
  congr 2
  simp only [reflP]; ring

theorem svcB_refl (hc : Real.cos s = -Real.cos t) :
    svcB (toPolarPt (reflP p)) R (-m) s = svcB (toPolarPt p) R m t := by
  unfold svcB
  have e1 : (2:Num) * -m * .fin R * .fin (Real.cos s) = 2 * m * .fin R * .fin (Real.cos t) := by
    rw [hc, ← Num.fin_neg]; simp only [Num.mul_neg_, Num.neg_mul_, Num.neg_neg_]
  have e2 : (2:Num) * -m * .fin (toPolarPt (reflP p)).r * .fin (Real.cos (toPolarPt (reflP p)).psi) =
      2 * m * .fin (toPolarPt p).r * .fin (Real.cos (toPolarPt p).psi) := by
    have er : (toPolarPt (reflP p)).r = (toPolarPt p).r := reflP_polarR p
    rw [er]
    by_cases h : polarR p.x p.y = 0
    · have e : reflP p = p := by ext <;> simp [reflP, (polarR_zero h).1]
      have er : (toPolarPt p).r = 0 := h
      rw [e, er, Num.mul_neg_, Num.neg_mul_, Num.mul_comm_ _ (Num.fin 0), Num.zero_mul_self]
    · have := (angle_refl p.x p.y h).1
      change (2:Num) * -m * _ * Num.fin (Real.cos (arctan2 p.y (-p.x))) = 2 * m * _ * Num.fin (Real.cos (arctan2 p.y p.x))
      rw [this, ← Num.fin_neg, Num.mul_neg_, Num.mul_neg_, Num.neg_mul_, Num.neg_mul_, Num.neg_neg_]
  rw [e1, e2]
  rfl

theorem svcD_refl (hc : Real.cos s = -Real.cos t) (hs : Real.sin s = Real.sin t) :
    svcD (toPolarPt (reflP p)) g R (-m) s = svcD (toPolarPt p) g R m t := by
  unfold svcD
  rw [svcA_refl p R t s hc hs, svcB_refl p R m t s hc, Num.neg_pow_two]

theorem svcTerm_refl (ax bx : Num) (hc : Real.cos s = -Real.cos t) (hs : Real.sin s = Real.sin t) :
    svcTangTerm (toPolarPt (reflP p)) g R (-m) ax bx s = svcTangTerm (toPolarPt p) g R m ax bx t := by
  unfold svcTangTerm
  rw [svcA_refl p R t s hc hs, svcD_refl p g R m t s hc hs, Num.neg_pow_two]

theorem svcTerm_neg (q : PolarPt) (ax bx : Num) : svcTangTerm q g R m (-ax) (-bx) t = -svcTangTerm q g R m ax bx t := by
  unfold svcTangTerm
  rw [Num.neg_mul_, Num.neg_mul_, ← Num.neg_add_, Num.neg_mul_]
end

theorem svcTangPolar_refl (p : V3 ℝ) (g : Num) (R : ℝ) (m : Num) (n : ℕ) :
    svcTangPolar (toPolarPt (reflP p)) g R (-m) n false = reflN (svcTangPolar (toPolarPt p) g R m n false) := by
  unfold svcTangPolar
  simp only [Bool.false_eq_true, if_false, reflN]
  refine V3.ext ?_ ?_ ?_
  · simp only
    rw [← trapzOf_neg]
    apply trapzOf_refl
    intro t s hc hs
    rw [svcTerm_refl p g R m t s _ _ hc hs, hc, ← Num.fin_neg, Num.mul_neg_, Num.mul_neg_, svcTerm_neg]
    rfl
  · apply trapzOf_refl
    intro t s hc hs
    rw [svcTerm_refl p g R m t s _ _ hc hs, hs]
    rfl
  · apply trapzOf_refl
    intro t s hc hs
    rw [svcTerm_refl p g R m t s _ _ hc hs]
    have e1 : (Num.fin (toPolarPt (reflP p)).r * Num.fin (Real.cos (s - (toPolarPt (reflP p)).psi))) =
        Num.fin (toPolarPt p).r * Num.fin (Real.cos (t - (toPolarPt p).psi)) := by
      rw [Num.fin_mul, Num.fin_mul]
      congr 1
      refine (polar_cos (reflP p) s).trans (Eq.trans ?_ (polar_cos p t).symm)
      rw [hc, hs]; simp only [reflP]; ring
    have e2 : Num.fin R * -m * Num.fin (Real.cos s) = Num.fin R * m * Num.fin (Real.cos t) := by
      rw [hc, ← Num.fin_neg, Num.mul_neg_, Num.mul_neg_, Num.neg_mul_, Num.neg_neg_]
    rw [e1, e2]

theorem svcTang_refl (pts : List (V3 ℝ)) (g : Num) (R : ℝ) (m : Num) (n : ℕ) :
    svcTang (pts.map reflP) g R (-m) n false = (svcTang pts g R m n false).map reflN := by
  unfold svcTang
  rw [List.map_map, List.map_map]
  apply List.map_congr_left
  intro p _
  exact svcTangPolar_refl p g R m n

/-! ### Groups of cylinders, and the tangential part of a turbine -/

theorem relPts_refl (pts : List (V3 ℝ)) (c : V3 ℝ) : relPts (pts.map reflP) (reflP c) = (relPts pts c).map reflP := by
  unfold relPts
  rw [List.map_map, List.map_map]
  apply List.map_congr_left
  intro p _
  ext <;> simp [reflP]; ring

theorem mirrorPts_refl (pts : List (V3 ℝ)) (c : V3 ℝ) : mirrorPts (pts.map reflP) (reflP c) = (mirrorPts pts c).map reflP := by
  unfold mirrorPts
  rw [List.map_map, List.map_map]
  apply List.map_congr_left
  intro p _
  ext <;> simp [reflP]; ring

theorem zeros_refl (pts : List (V3 ℝ)) : ((pts.map reflP).map fun _ => (0 : V3 Num)) = (pts.map fun _ => (0 : V3 Num)).map reflN := by
  rw [List.map_map, List.map_map]
  apply List.map_congr_left
  intro p _
  exact reflN_zero.symm

theorem addCyls_refl (rel : List (V3 ℝ)) (eps : ℝ) (cy : List (Num × ℝ)) : ∀ u : List (V3 Num),
    addCyls (fun q ga R => vcTang q ga R eps) (rel.map reflP) cy (u.map reflN) =
      (addCyls (fun q ga R => vcTang q ga R eps) rel cy u).map reflN := by
  unfold addCyls
  induction cy with
  | nil => intro u; rfl
  | cons c cy ih =>
    intro u
    simp only [List.foldl_cons]
    split
    · rw [← ih, reflN_addFields, vcTang_refl]
    · exact ih u

theorem vcsTang_refl (pts : List (V3 ℝ)) (c : V3 ℝ) (cy : List (Num × ℝ)) (eps : ℝ) (G : Bool) :
    vcsTang (pts.map reflP) [⟨reflP c, cy⟩] eps G = (vcsTang pts [⟨c, cy⟩] eps G).map reflN := by
  unfold vcsTang
  simp only [List.foldl_cons, List.foldl_nil]
  rw [zeros_refl, relPts_refl, mirrorPts_refl, addCyls_refl]
  cases G
  · rfl
  · simp only [if_true]; rw [addCyls_refl]

theorem addSkewCyls_refl (rel : List (V3 ℝ)) (n : ℕ) (m : Num) (cy : List (Num × ℝ)) : ∀ u : List (V3 Num),
    addSkewCyls (fun q ga R m => svcTang q ga R m n false) (rel.map reflP) (cy.map fun c => (c.1, c.2, -m)) (u.map reflN) =
      (addSkewCyls (fun q ga R m => svcTang q ga R m n false) rel (cy.map fun c => (c.1, c.2, m)) u).map reflN := by
  unfold addSkewCyls
  induction cy with
  | nil => intro u; rfl
  | cons c cy ih =>
    intro u
    simp only [List.map_cons, List.foldl_cons]
    split
    · rw [← ih, reflN_addFields, svcTang_refl]
    · exact ih u

theorem zip_cyl (gt : List Num) (r : List ℝ) (m : Num) : List.zipWith (fun g R => (g, R, m)) gt r = (List.zip gt r).map fun c => (c.1, c.2, m) := by
  rw [List.zip, List.map_zipWith]

theorem svcsTang_refl (pts : List (V3 ℝ)) (c : V3 ℝ) (gt : List Num) (r : List ℝ) (m : Num) (n : ℕ) (G : Bool) :
    svcsTang (pts.map reflP) [⟨reflP c, List.zipWith (fun g R => (g, R, -m)) gt r⟩] n G =
      (svcsTang pts [⟨c, List.zipWith (fun g R => (g, R, m)) gt r⟩] n G).map reflN := by
  unfold svcsTang
  simp only [List.foldl_cons, List.foldl_nil]
  rw [zip_cyl, zip_cyl, zeros_refl, relPts_refl, mirrorPts_refl, addSkewCyls_refl]
  cases G
  · rfl
  · simp only [if_true]; rw [addSkewCyls_refl]

theorem yawed_neg (chi : Num) : yawed (-chi) ↔ yawed chi := by
  unfold yawed; rw [Num.abs_neg_]

/-- map over a result -/
def mapOk {α β : Type} (f : α → β) : Except String α → Except String β
  | .ok a => .ok (f a)
  | .error e => .error e

theorem tangPart_refl (chi m : Num) (M : String) (g : Num) (R Rff : ℝ) (Y : List (V3 ℝ)) :
    tangPart (-chi) (-m) M g R Rff (Y.map reflP) = mapOk (List.map reflN) (tangPart chi m M g R Rff Y) := by
  unfold tangPart
  simp only [yawed_neg]
  by_cases hy : yawed chi
  · simp only [if_pos hy]
    split
    · rw [svcTang_refl]; rfl
    · rfl
  · simp only [if_neg hy]
    split
    · rw [vcTang_refl]; rfl
    · split
      · rw [vcTangDoublet_refl]; rfl
      · split
        · simp only [mapOk, List.map_map]
          congr 1
          apply List.map_congr_left
          intro p _
          exact doubletLine_refl p _
        · split
          · simp only [mapOk, List.map_map]
            congr 1
            apply List.map_congr_left
            intro p _
            simp only [Function.comp, ss_refl, reflN]
            refine V3.ext ?_ rfl rfl
            change _ * (Num.fin 0) = -(_ * (Num.fin 0))
            rw [Num.mul_comm_ _ (Num.fin 0), Num.zero_mul_self]
          · rfl

end Wiz
