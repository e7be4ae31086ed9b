import Verif.Lemmas.MirrorKernels
import Verif.Spec.Mirror

namespace Wiz
open Classical

/-- the opposite matrix of a reflection is a rotation -/
def negM (S : M3 ℝ) : M3 ℝ := ⟨-S.xx, -S.xy, -S.xz, -S.yx, -S.yy, -S.yz, -S.zx, -S.zy, -S.zz⟩

theorem negM_rot (S : M3 ℝ) (h : Reflection S) : Rotation (negM S) := by
  refine ⟨?_, ?_⟩
  · rw [← h.orth]
    simp only [M3.mul, M3.transpose, negM, neg_mul_neg]
  · have := h.det
    simp only [M3.det, negM] at this ⊢
    linarith

theorem negM_mulVec (S : M3 ℝ) (a : V3 ℝ) : M3.mulVec S a = -M3.mulVec (negM S) a := by
  have hx : (M3.mulVec S a).x = -(M3.mulVec (negM S) a).x := by simp only [M3.mulVec, negM]; ring
  have hy : (M3.mulVec S a).y = -(M3.mulVec (negM S) a).y := by simp only [M3.mulVec, negM]; ring
  have hz : (M3.mulVec S a).z = -(M3.mulVec (negM S) a).z := by simp only [M3.mulVec, negM]; ring
  exact V3.ext hx hy hz

theorem dot_neg_neg (a b : V3 ℝ) : V3.dot (-a) (-b) = V3.dot a b := by
  change -a.x * -b.x + -a.y * -b.y + -a.z * -b.z = a.x*b.x + a.y*b.y + a.z*b.z; ring
theorem cross_neg_neg (a b : V3 ℝ) : V3.cross (-a) (-b) = V3.cross a b := by
  apply V3.ext
  · change -a.y * -b.z - -a.z * -b.y = a.y*b.z - a.z*b.y; ring
  · change -a.z * -b.x - -a.x * -b.z = a.z*b.x - a.x*b.z; ring
  · change -a.x * -b.y - -a.y * -b.x = a.x*b.y - a.y*b.x; ring
theorem neg_neg3 (a : V3 ℝ) : - -a = a := V3.ext (neg_neg a.x) (neg_neg a.y) (neg_neg a.z)

theorem refl_dot (S : M3 ℝ) (h : Reflection S) (a b : V3 ℝ) : V3.dot (M3.mulVec S a) (M3.mulVec S b) = V3.dot a b := by
  rw [negM_mulVec S a, negM_mulVec S b, dot_neg_neg, rotation_dot _ (negM_rot S h)]

theorem refl_cross (S : M3 ℝ) (h : Reflection S) (a b : V3 ℝ) :
    V3.cross (M3.mulVec S a) (M3.mulVec S b) = -M3.mulVec S (V3.cross a b) := by
  rw [negM_mulVec S a, negM_mulVec S b, cross_neg_neg, rotation_cross _ (negM_rot S h), negM_mulVec S (V3.cross a b), neg_neg3]

theorem refl_norm (S : M3 ℝ) (h : Reflection S) (a : V3 ℝ) : V3.norm (M3.mulVec S a) = V3.norm a := by
  rw [norm_eq_sqrt_dot, norm_eq_sqrt_dot, refl_dot S h]

theorem refl_ortho (S : M3 ℝ) (h : Reflection S) (s v : V3 ℝ) (ho : Orthonormal s v) : Orthonormal (M3.mulVec S s) (M3.mulVec S v) :=
  ⟨by rw [refl_dot S h, ho.shaft], by rw [refl_dot S h, ho.vert], by rw [refl_dot S h, ho.orth]⟩

theorem mulVec_neg (S : M3 ℝ) (a : V3 ℝ) : M3.mulVec S (-a) = -M3.mulVec S a := by
  apply V3.ext
  · change S.xx * -a.x + S.xy * -a.y + S.xz * -a.z = -(S.xx*a.x + S.xy*a.y + S.xz*a.z); ring
  · change S.yx * -a.x + S.yy * -a.y + S.yz * -a.z = -(S.yx*a.x + S.yy*a.y + S.yz*a.z); ring
  · change S.zx * -a.x + S.zy * -a.y + S.zz * -a.z = -(S.zx*a.x + S.zy*a.y + S.zz*a.z); ring

theorem smul_neg_neg (k : ℝ) (a : V3 ℝ) : V3.smul (-k) (-a) = V3.smul k a := by
  apply V3.ext
  · exact neg_mul_neg k a.x
  · exact neg_mul_neg k a.y
  · exact neg_mul_neg k a.z

theorem refl_turn (S : M3 ℝ) (h : Reflection S) (u v : V3 ℝ) (t : ℝ) :
    turn (M3.mulVec S u) (-t) (M3.mulVec S v) = M3.mulVec S (turn u t v) := by
  unfold turn
  rw [refl_dot S h, refl_cross S h, Real.cos_neg, Real.sin_neg, smul_neg_neg, rotation_add, rotation_add, rotation_smul, rotation_smul, rotation_smul]

theorem turn_neg (u v : V3 ℝ) (t : ℝ) : turn u t (-v) = -turn u t v := by
  unfold turn
  apply V3.ext
  · simp only [V3.add_x, V3.smul_x]
    change Real.cos t * -v.x + Real.sin t * (u.y * -v.z - u.z * -v.y) + (1 - Real.cos t) * (u.x * -v.x + u.y * -v.y + u.z * -v.z) * u.x =
      -(Real.cos t * v.x + Real.sin t * (u.y * v.z - u.z * v.y) + (1 - Real.cos t) * (u.x * v.x + u.y * v.y + u.z * v.z) * u.x)
    ring
  · simp only [V3.add_y, V3.smul_y]
    change Real.cos t * -v.y + Real.sin t * (u.z * -v.x - u.x * -v.z) + (1 - Real.cos t) * (u.x * -v.x + u.y * -v.y + u.z * -v.z) * u.y =
      -(Real.cos t * v.y + Real.sin t * (u.z * v.x - u.x * v.z) + (1 - Real.cos t) * (u.x * v.x + u.y * v.y + u.z * v.z) * u.y)
    ring
  · simp only [V3.add_z, V3.smul_z]
    change Real.cos t * -v.z + Real.sin t * (u.x * -v.y - u.y * -v.x) + (1 - Real.cos t) * (u.x * -v.x + u.y * -v.y + u.z * -v.z) * u.z =
      -(Real.cos t * v.z + Real.sin t * (u.x * v.y - u.y * v.x) + (1 - Real.cos t) * (u.x * v.x + u.y * v.y + u.z * v.z) * u.z)
    ring

/-- the second turbine is the mirror image of the first -/
structure MirRel (S : M3 ℝ) (shaft vert : V3 ℝ) (R : ℝ) (w w' : WT) : Prop where
  f : FrameInv shaft vert R w
  f' : FrameInv (M3.mulVec S shaft) (M3.mulVec S vert) R w'
  yaw : w'.yaw_pos = -w.yaw_pos
  hub : w'.r_hub = M3.mulVec S w.r_hub
  wind : w'.U0_g = M3.mulVec S w.U0_g
  faced : ¬ Opposed shaft vert w.U0_g
  r : w'.r = w.r
  gt : w'.gamma_t = w.gamma_t
  gl : w'.gamma_l = w.gamma_l
  Gr : w'.Gamma_r = w.Gamma_r
  Lambda : w'.Lambda = w.Lambda
  Ct : w'.Ct = w.Ct
  Ground : w'.Ground = w.Ground
  chi : w'.chi = w.chi.map fun x => -x
  Model : w'.Model = w.Model

section
variable (S : M3 ℝ) (hS : Reflection S) (s v : V3 ℝ) (R : ℝ) (w w' : WT) (h : MirRel S s v R w w')

theorem mir_T (hS : Reflection S) (h : MirRel S s v R w w') : ∃ a b c : V3 ℝ, w.T_c2g = M3.ofCols a b c ∧
    w'.T_c2g = M3.ofCols (-M3.mulVec S a) (M3.mulVec S b) (M3.mulVec S c) := by
  refine ⟨_, _, _, T_c2g_eq _ _ _ w h.f, ?_⟩
  rw [T_c2g_eq _ _ _ w' h.f', h.yaw, refl_cross S hS, turn_neg, refl_turn S hS, refl_turn S hS, refl_turn S hS]

theorem mir_transformT (hS : Reflection S) (h : MirRel S s v R w w') (p : V3 ℝ) :
    transformT w'.T_c2g (M3.mulVec S p) = reflP (transformT w.T_c2g p) := by
  obtain ⟨a, b, c, e, e'⟩ := mir_T S s v R w w' hS h
  rw [e, e']
  have ha := refl_dot S hS a p
  have hb := refl_dot S hS b p
  have hc := refl_dot S hS c p
  apply V3.ext
  · change -(M3.mulVec S a).x * (M3.mulVec S p).x + -(M3.mulVec S a).y * (M3.mulVec S p).y + -(M3.mulVec S a).z * (M3.mulVec S p).z =
      -(a.x*p.x + a.y*p.y + a.z*p.z)
    simp only [V3.dot] at ha
    linarith
  · exact hb
  · exact hc

theorem mir_vec (hS : Reflection S) (h : MirRel S s v R w w') (x : V3 ℝ) :
    M3.mulVec w'.T_c2g (reflP x) = M3.mulVec S (M3.mulVec w.T_c2g x) := by
  obtain ⟨a, b, c, e, e'⟩ := mir_T S s v R w w' hS h
  rw [e, e']
  apply V3.ext
  · change -(M3.mulVec S a).x * -x.x + (M3.mulVec S b).x * x.y + (M3.mulVec S c).x * x.z = _
    simp only [M3.mulVec, M3.ofCols]; ring
  · change -(M3.mulVec S a).y * -x.x + (M3.mulVec S b).y * x.y + (M3.mulVec S c).y * x.z = _
    simp only [M3.mulVec, M3.ofCols]; ring
  · change -(M3.mulVec S a).z * -x.x + (M3.mulVec S b).z * x.y + (M3.mulVec S c).z * x.z = _
    simp only [M3.mulVec, M3.ofCols]; ring

theorem sign_fin_neg (a : ℝ) : Num.sign (.fin (-a)) = -Num.sign (.fin a) := by
  change (if 0 < -a then Num.fin 1 else if -a < 0 then Num.fin (-1) else Num.fin 0) =
    -(if 0 < a then Num.fin 1 else if a < 0 then Num.fin (-1) else Num.fin 0)
  rcases lt_trichotomy a 0 with h | h | h
  · rw [if_pos (by linarith), if_neg (by linarith), if_pos h]; simp
  · subst h; simp
  · rw [if_neg (by linarith), if_pos (by linarith), if_pos h]; simp

theorem gram (a b c : V3 ℝ) : (V3.dot (V3.cross a b) c)^2 = V3.dot a a * V3.dot b b * V3.dot c c + 2 * V3.dot a b * V3.dot b c * V3.dot c a
    - V3.dot a a * V3.dot b c^2 - V3.dot b b * V3.dot c a^2 - V3.dot c c * V3.dot a b^2 := by
  simp only [V3.dot, V3.cross]; ring

/-- when the wind has no lateral component and is not opposed to the shaft, the wind angle is zero (or undefined) -/
theorem aligned_arccos (ho : Orthonormal s v) (U : V3 ℝ) (hf : ¬ Opposed s v U) (h0 : V3.dot (V3.cross s U) v = 0) :
    Num.arccos (V3.dot (V3.sdiv (V3.fin (horizontal v U)) (.fin (V3.norm (horizontal v U)))) (V3.fin s)) = .fin 0 ∨
    Num.arccos (V3.dot (V3.sdiv (V3.fin (horizontal v U)) (.fin (V3.norm (horizontal v U)))) (V3.fin s)) = .nan := by
  by_cases hn : V3.norm (horizontal v U) = 0
  · right
    have hz : horizontal v U = 0 := by
      by_contra hne
      exact (norm_pos hne).ne' hn
    have h2 : V3.norm (0 : V3 ℝ) = 0 := by rw [hz] at hn; exact hn
    rw [hz, h2]
    simp [V3.dot, V3.sdiv, Num.fin_div_zero, Num.infSign, Num.arccos]
  · left
    obtain ⟨k, hk⟩ : ∃ k, k = V3.dot (horizontal v U) s := ⟨_, rfl⟩
    have huv : V3.dot (horizontal v U) v = 0 := by
      have := ho.vert
      unfold horizontal
      simp only [V3.dot, V3.sub_x, V3.sub_y, V3.sub_z, V3.smul_x, V3.smul_y, V3.smul_z] at *
      linear_combination (-(U.x*v.x + U.y*v.y + U.z*v.z)) * this
    have h1 : V3.dot (V3.cross s (horizontal v U)) v = 0 := by
      rw [← h0]
      unfold horizontal
      simp only [V3.dot, V3.cross, V3.sub_x, V3.sub_y, V3.sub_z, V3.smul_x, V3.smul_y, V3.smul_z]
      ring
    have hf' : ∀ k < 0, horizontal v U ≠ V3.smul k s := fun k hk e => hf ⟨k, hk, e⟩
    clear hf h0
    generalize horizontal v U = u at *
    have hg := gram s u v
    have hvs : V3.dot v s = 0 := by rw [← ho.orth]; simp only [V3.dot]; ring
    have hsu : V3.dot s u = k := by rw [hk]; simp only [V3.dot]; ring
    rw [h1, ho.shaft, ho.vert, huv, hvs, hsu] at hg
    have huu : V3.dot u u = k^2 := by linarith
    have hd : u = V3.smul k s := by
      have : V3.dot (u - V3.smul k s) (u - V3.smul k s) = 0 := by
        have h1 : V3.dot (u - V3.smul k s) (u - V3.smul k s) = V3.dot u u - 2 * k * V3.dot u s + k^2 * V3.dot s s := by
          simp only [V3.dot, V3.sub_x, V3.sub_y, V3.sub_z, V3.smul_x, V3.smul_y, V3.smul_z]; ring
        rw [h1, huu, ← hk, ho.shaft]; ring
      have := dot_self_eq_zero.mp this
      have hx := congrArg V3.x this
      have hy := congrArg V3.y this
      have hz := congrArg V3.z this
      simp at hx hy hz
      ext <;> simp <;> linarith
    have hnn : V3.norm u = |k| := by rw [norm_eq_sqrt_dot, huu, Real.sqrt_sq_eq_abs]
    have hk0 : 0 ≤ k := by
      by_contra hc
      push Not at hc
      exact hf' k hc hd
    rw [abs_of_nonneg hk0] at hnn
    rw [hnn] at hn
    rw [hnn, sdiv_fin _ hn, fin_dot, dot_smul_left, ← hk, one_div_mul_cancel hn]
    simp [Num.arccos]

theorem mir_yawWind (hS : Reflection S) (ho : Orthonormal s v) (h : MirRel S s v R w w') : w'.yawWind = -w.yawWind := by
  have ho' := refl_ortho S hS s v ho
  have eu : M3.mulVec S w.U0_g - V3.smul (V3.dot (M3.mulVec S w.U0_g) (M3.mulVec S v)) (M3.mulVec S v) =
      M3.mulVec S (w.U0_g - V3.smul (V3.dot w.U0_g v) v) := by
    rw [rotation_sub, rotation_smul, refl_dot S hS]
  have al := aligned_arccos s v ho w.U0_g h.faced
  unfold horizontal at al
  unfold WT.yawWind
  simp only
  rw [h.f.e_horz_g, h.f'.e_horz_g, h.f.e_vert_g, h.f'.e_vert_g, horzOf_ortho s v ho, horzOf_ortho _ _ ho', h.wind, eu, refl_norm S hS]
  have e1 : V3.dot (-M3.mulVec S (V3.cross s w.U0_g)) (M3.mulVec S v) = -V3.dot (V3.cross s w.U0_g) v := by
    rw [← refl_dot S hS (V3.cross s w.U0_g) v]
    change -(M3.mulVec S (V3.cross s w.U0_g)).x * _ + -(M3.mulVec S (V3.cross s w.U0_g)).y * _ + -(M3.mulVec S (V3.cross s w.U0_g)).z * _ = -(_ * _ + _ * _ + _ * _)
    ring
  simp only [fin_cross, fin_dot, refl_cross S hS, e1, sign_fin_neg]
  generalize w.U0_g - V3.smul (V3.dot w.U0_g v) v = u at *
  have key : V3.dot (V3.sdiv (V3.fin (M3.mulVec S u)) (.fin (V3.norm u))) (V3.fin (M3.mulVec S s)) =
      V3.dot (V3.sdiv (V3.fin u) (.fin (V3.norm u))) (V3.fin s) := by
    by_cases hn : V3.norm u = 0
    · have h0 : u = 0 := by
        by_contra hne
        exact (norm_pos hne).ne' hn
      have h1 : M3.mulVec S u = 0 := by rw [h0]; ext <;> simp [M3.mulVec]
      have h2 : V3.norm (0 : V3 ℝ) = 0 := by rw [h0] at hn; exact hn
      rw [h1, h0, h2]
      simp [V3.dot, V3.sdiv, Num.fin_div_zero, Num.infSign]
    · rw [sdiv_fin _ hn, sdiv_fin _ hn, fin_dot, fin_dot, dot_smul_left, dot_smul_left, refl_dot S hS]
  rw [key]
  generalize Num.arccos (V3.dot (V3.sdiv (V3.fin u) (.fin (V3.norm u))) (V3.fin s)) = α at *
  by_cases h0 : V3.dot (V3.cross s w.U0_g) v = 0
  · have hs : Num.sign (.fin (V3.dot (V3.cross s w.U0_g) v)) = .fin 0 := by rw [h0]; simp [Num.sign]
    rw [hs]
    rcases al h0 with h1 | h1 <;> rw [h1] <;> simp
  · have hs : ¬ Num.Eqv (Num.sign (.fin (V3.dot (V3.cross s w.U0_g) v))) 0 := by
      rcases lt_or_gt_of_ne h0 with hl | hl
      · simp [Num.sign, hl, not_lt.2 hl.le, Num.Eqv]
      · simp [Num.sign, hl, Num.Eqv]
    have hs' : ¬ Num.Eqv (-Num.sign (.fin (V3.dot (V3.cross s w.U0_g) v))) 0 := by
      rcases lt_or_gt_of_ne h0 with hl | hl
      · simp [Num.sign, hl, not_lt.2 hl.le, Num.Eqv]
      · simp [Num.sign, hl, Num.Eqv]
    rw [if_neg hs, if_neg hs', Num.neg_mul_]

theorem mir_chi (hS : Reflection S) (ho : Orthonormal s v) (h : MirRel S s v R w w') : usedChi w' = -usedChi w := by
  unfold usedChi
  rw [h.chi]
  cases w.chi with
  | some c => rfl
  | none =>
    simp only [Option.map_none]
    unfold WT.chiAuto
    simp only
    rw [← transformT_eq, ← transformT_eq, h.f.e_vert_g, h.f'.e_vert_g, mir_transformT S s v R w w' hS h, h.yaw,
      mir_yawWind S s v R w w' hS ho h, ← Num.mul_neg_]
    congr 1
    rw [Num.sub_def, Num.sub_def, Num.neg_add_]
    simp only [Num.fin_neg]

theorem mir_new (hf : ¬ Opposed s v w.U0_g) (hub U0 : V3 ℝ) (L : Option Num) (G : Bool) (M : String) (hU : w = WT.new R hub s v U0 L G M) :
    MirRel S s v R w (WT.new R (M3.mulVec S hub) (M3.mulVec S s) (M3.mulVec S v) (M3.mulVec S U0) L G M) := by
  subst hU
  exact ⟨frame_new _ _ _ _ _ _ _ _, frame_new _ _ _ _ _ _ _ _, by change (0:ℝ) = -0; rw [neg_zero], rfl, rfl, hf, rfl, rfl, rfl, rfl, rfl, rfl, rfl, rfl, rfl⟩

theorem mir_step (mini : (ℝ → Num) → ℝ) (hS : Reflection S) (ho : Orthonormal s v) (h : MirRel S s v R w w') (op : Op)
    (hop : ∀ U, op = .wind U → ¬ Opposed s v U) : MirRel S s v R (w.step mini op) (w'.step mini (op.mirrored S)) := by
  have f := frame_step mini s v R w h.f op
  have f' := frame_step mini _ _ R w' h.f' (op.mirrored S)
  cases op with
  | yaw y => exact ⟨f, f', rfl, h.hub, h.wind, h.faced, h.r, h.gt, h.gl, h.Gr, h.Lambda, h.Ct, h.Ground, h.chi, h.Model⟩
  | position p => exact ⟨f, f', h.yaw, rfl, h.wind, h.faced, h.r, h.gt, h.gl, h.Gr, h.Lambda, h.Ct, h.Ground, h.chi, h.Model⟩
  | wind p => exact ⟨f, f', h.yaw, h.hub, rfl, hop p rfl, h.r, h.gt, h.gl, h.Gr, h.Lambda, h.Ct, h.Ground, h.chi, h.Model⟩
  | chi p => exact ⟨f, f', h.yaw, h.hub, h.wind, h.faced, h.r, h.gt, h.gl, h.Gr, h.Lambda, h.Ct, h.Ground, rfl, h.Model⟩
  | eval pts o =>
    have e : w.step mini (.eval pts o) = { w with chi := some (usedChi w) } := computeU_state w pts o
    have e' : w'.step mini (Op.mirrored S (.eval pts o)) = { w' with chi := some (usedChi w') } := computeU_state w' _ o
    refine ⟨f, f', ?_, ?_, ?_, ?_, ?_, ?_, ?_, ?_, ?_, ?_, ?_, ?_, ?_⟩ <;> rw [e] <;> try rw [e']
    · exact h.yaw
    · exact h.hub
    · exact h.wind
    · exact h.faced
    · exact h.r
    · exact h.gt
    · exact h.gl
    · exact h.Gr
    · exact h.Lambda
    · exact h.Ct
    · exact h.Ground
    · exact congrArg some (mir_chi S s v R w w' hS ho h)
    · exact h.Model
  | loading a =>
    have hR : w'.R = w.R := h.f'.R.trans h.f.R.symm
    have hn : V3.norm w'.U0_g = V3.norm w.U0_g := by rw [h.wind, refl_norm S hS]
    obtain ⟨-, a2, -, -, -, -, -, -, -, a10, a11, a12, a13, a14⟩ := loading_frame mini w a
    obtain ⟨-, b2, -, -, -, -, -, -, -, b10, b11, b12, b13, b14⟩ := loading_frame mini w' a
    have key : (w'.updateLoading mini a).2.r = (w.updateLoading mini a).2.r ∧ (w'.updateLoading mini a).2.gamma_t = (w.updateLoading mini a).2.gamma_t ∧
        (w'.updateLoading mini a).2.gamma_l = (w.updateLoading mini a).2.gamma_l ∧ (w'.updateLoading mini a).2.Gamma_r = (w.updateLoading mini a).2.Gamma_r ∧
        (w'.updateLoading mini a).2.Lambda = (w.updateLoading mini a).2.Lambda ∧ (w'.updateLoading mini a).2.Ct = (w.updateLoading mini a).2.Ct := by
      unfold WT.updateLoading
      simp only
      rw [hR, hn, h.Lambda]
      split
      · exact ⟨h.r, h.gt, h.gl, h.Gr, h.Lambda, h.Ct⟩
      · split
        · exact ⟨h.r, h.gt, h.gl, h.Gr, h.Lambda, h.Ct⟩
        · split
          · exact ⟨h.r, h.gt, h.gl, h.Gr, h.Lambda, h.Ct⟩
          · exact ⟨rfl, rfl, rfl, rfl, rfl, rfl⟩
    obtain ⟨k1, k2, k3, k4, k5, k6⟩ := key
    have c1 : (w.step mini (.loading a)).yaw_pos = w.yaw_pos := a10
    have c2 : (w.step mini (.loading a)).r_hub = w.r_hub := a2
    have c3 : (w.step mini (.loading a)).U0_g = w.U0_g := a11
    have c4 : (w.step mini (.loading a)).chi = w.chi := a13
    exact ⟨f, f', b10.trans (h.yaw.trans (by rw [c1])), b2.trans (h.hub.trans (by rw [c2])), b11.trans (h.wind.trans (by rw [c3])),
      by rw [c3]; exact h.faced,
      k1, k2, k3, k4, k5, k6, b12.trans (h.Ground.trans a12.symm), b13.trans (h.chi.trans (by rw [c4])), b14.trans (h.Model.trans a14.symm)⟩

end

theorem mir_run (mini : (ℝ → Num) → ℝ) (S : M3 ℝ) (hS : Reflection S) (s v : V3 ℝ) (R : ℝ) (ho : Orthonormal s v) (h : List Op) :
    ∀ (w w' : WT), (∀ U, Op.wind U ∈ h → ¬ Opposed s v U) → MirRel S s v R w w' →
      MirRel S s v R (w.run mini h) (w'.run mini (h.map (Op.mirrored S))) := by
  induction h with
  | nil => intro w w' _ hr; exact hr
  | cons o h ih =>
    intro w w' hw hr
    exact ih _ _ (fun U hU => hw U (List.mem_cons_of_mem _ hU)) (mir_step S s v R w w' mini hS ho hr o (fun U e => hw U (by rw [e]; exact List.mem_cons_self ..)))

section
variable (S : M3 ℝ) (s v : V3 ℝ) (R : ℝ) (w w' : WT)

theorem mir_map (hS : Reflection S) (h : MirRel S s v R w w') (pts : List (V3 ℝ)) :
    (pts.map (M3.mulVec S)).map (transformT w'.T_c2g) = (pts.map (transformT w.T_c2g)).map reflP := by
  rw [List.map_map, List.map_map]; apply List.map_congr_left; intro p _; exact mir_transformT S s v R w w' hS h p

theorem singleBody_refl (chi : Num) (M : String) (g : Num) (gl : Option (List Num)) (o : Opts) (hl : o.longi = false) (Y : List (V3 ℝ)) (u : List (V3 Num)) :
    singleBody (-chi) (-Num.tan chi) M g gl R o (Y.map reflP) (u.map reflN) =
      mapOk (List.map reflN) (singleBody chi (Num.tan chi) M g gl R o Y u) := by
  unfold singleBody
  rw [hl]
  by_cases ht : o.tang ∧ ¬ Num.Eqv g 0
  · simp only [if_pos ht, tangPart_refl]
    generalize tangPart chi (Num.tan chi) M g R o.R_far_field Y = t
    cases t with
    | error e => rfl
    | ok x => simp only [mapOk, accum, reflN_addFields]
  · simp only [if_neg ht]; rfl

theorem multiPart_refl (chi : Num) (M : String) (gt : List Num) (gl : Option (List Num)) (r : Option (List ℝ)) (cyl : V3 ℝ) (G : Bool)
    (o : Opts) (hl : o.longi = false) (pts : List (V3 ℝ)) (u : List (V3 Num)) :
    multiPart (-chi) (-Num.tan chi) M gt gl r (reflP cyl) G o (pts.map reflP) (u.map reflN) =
      mapOk (List.map reflN) (multiPart chi (Num.tan chi) M gt gl r cyl G o pts u) := by
  unfold multiPart
  rw [hl]
  split
  · cases r with
    | none => rfl
    | some r =>
      simp only
      split
      · rfl
      · split
        · rfl
        · cases o.tang
          · rfl
          · simp only [if_true, yawed_neg, mapOk, reflN_addFields]
            by_cases hy : yawed chi
            · simp only [if_pos hy, svcsTang_refl]
            · simp only [if_neg hy, vcsTang_refl]
  · rfl

theorem mir_inducedC (hS : Reflection S) (h : MirRel S s v R w w') (chi : Num) (gt : List Num) (pts : List (V3 ℝ)) (o : Opts)
    (hl : o.longi = false) (hr : o.root = false) :
    w'.inducedC (-chi) gt (pts.map (M3.mulVec S)) o = mapOk (List.map reflN) (w.inducedC chi gt pts o) := by
  have hz : ((pts.map (M3.mulVec S)).map fun _ => (0 : V3 Num)) = (pts.map fun _ => (0 : V3 Num)).map reflN := by
    rw [List.map_map, List.map_map]; apply List.map_congr_left; intro p _; exact reflN_zero.symm
  unfold WT.inducedC
  rw [hr]
  simp only [h.Ground, h.Model, mir_map S s v R w w' hS h, h.hub, mir_transformT S s v R w w' hS h, hz, h.gl, h.r,
    show w'.R = w.R from h.f'.R.trans h.f.R.symm, Num.tan_neg_, relPts_refl, mirrorPts_refl]
  split
  · split
    · simp only [overY, singleBody_refl w.R chi _ _ _ o hl]
      generalize singleBody chi (Num.tan chi) _ _ _ w.R o _ (pts.map fun _ => (0 : V3 Num)) = b1
      cases b1 with
      | error e => rfl
      | ok x =>
        simp only [mapOk, singleBody_refl w.R chi _ _ _ o hl]
        generalize singleBody chi (Num.tan chi) _ _ _ w.R o _ x = b2
        cases b2 <;> rfl
    · simp only [overY, singleBody_refl w.R chi _ _ _ o hl]
      generalize singleBody chi (Num.tan chi) _ _ _ w.R o _ (pts.map fun _ => (0 : V3 Num)) = b1
      cases b1 <;> rfl
  · exact multiPart_refl chi _ _ _ _ _ _ o hl _ _

theorem zeroWake_refl (rel : List (V3 ℝ)) (u : List (V3 Num)) : zeroWake R (rel.map reflP) (u.map reflN) = (zeroWake R rel u).map reflN := by
  unfold zeroWake
  rw [List.map_zipWith, List.zipWith_map]
  congr 1
  funext p x
  have : inRotorTube R (reflP p) ↔ inRotorTube R p := by
    unfold inRotorTube
    simp only [reflP, neg_sq]
  simp only [this]
  split
  · exact reflN_zero.symm
  · rfl

end
end Wiz
