import Verif.Lemmas.Geometry
import Verif.Spec.Turbine
import Mathlib.Analysis.SpecialFunctions.Trigonometric.Angle

namespace Wiz
open Classical

/-- what never changes, and what follows the yaw -/
structure FrameInv (shaft vert : V3 ℝ) (R : ℝ) (w : WT) : Prop where
  R : w.R = R
  e_shaft_g0 : w.e_shaft_g0 = shaft
  e_vert_g : w.e_vert_g = vert
  e_horz_g : w.e_horz_g = horzOf shaft vert
  T_c2wt : w.T_c2wt = M3.ofCols (V3.cross vert shaft) vert shaft
  T_wt2g : w.T_wt2g = rotMatAxisAngle vert w.yaw_pos
  e_shaft_g : w.e_shaft_g = M3.mulVec (rotMatAxisAngle vert w.yaw_pos) shaft

theorem frame_new (R : ℝ) (hub shaft vert U0 : V3 ℝ) (L : Option Num) (G : Bool) (M : String) :
    FrameInv shaft vert R (WT.new R hub shaft vert U0 L G M) := ⟨rfl, rfl, rfl, rfl, rfl, rfl, rfl⟩

theorem loading_frame (mini : (ℝ → Num) → ℝ) (w : WT) (a : LoadArgs) :
    let w' := (w.updateLoading mini a).2
    w'.R = w.R ∧ w'.r_hub = w.r_hub ∧ w'.e_shaft_g0 = w.e_shaft_g0 ∧ w'.e_vert_g = w.e_vert_g ∧ w'.e_shaft_g = w.e_shaft_g ∧
    w'.e_horz_g = w.e_horz_g ∧ w'.T_F2g = w.T_F2g ∧ w'.T_c2wt = w.T_c2wt ∧ w'.T_wt2g = w.T_wt2g ∧ w'.yaw_pos = w.yaw_pos ∧
    w'.U0_g = w.U0_g ∧ w'.Ground = w.Ground ∧ w'.chi = w.chi ∧ w'.Model = w.Model := by
  unfold WT.updateLoading
  simp only
  split
  · simp
  · split
    · simp
    · split <;> simp

theorem computeU_state (w : WT) (pts : List (V3 ℝ)) (o : Opts) :
    (w.computeU pts o).2 = { w with chi := some (match w.chi with | some c => c | none => w.chiAuto) } := by
  unfold WT.computeU
  simp only
  split
  · rfl
  · split <;> rfl

theorem frame_step (mini : (ℝ → Num) → ℝ) (shaft vert : V3 ℝ) (R : ℝ) (w : WT) (hi : FrameInv shaft vert R w) (op : Op) :
    FrameInv shaft vert R (w.step mini op) := by
  cases op with
  | yaw y =>
    simp only [WT.step, WT.updateYawPos]
    exact ⟨hi.R, hi.e_shaft_g0, hi.e_vert_g, hi.e_horz_g, hi.T_c2wt, by simp [hi.e_vert_g], by simp [hi.e_vert_g, hi.e_shaft_g0]⟩
  | position p => exact ⟨hi.R, hi.e_shaft_g0, hi.e_vert_g, hi.e_horz_g, hi.T_c2wt, hi.T_wt2g, hi.e_shaft_g⟩
  | wind p => exact ⟨hi.R, hi.e_shaft_g0, hi.e_vert_g, hi.e_horz_g, hi.T_c2wt, hi.T_wt2g, hi.e_shaft_g⟩
  | chi p => exact ⟨hi.R, hi.e_shaft_g0, hi.e_vert_g, hi.e_horz_g, hi.T_c2wt, hi.T_wt2g, hi.e_shaft_g⟩
  | loading a =>
    obtain ⟨a1, a2, a3, a4, a5, a6, a7, a8, a9, a10, a11, a12, a13, a14⟩ := loading_frame mini w a
    simp only [WT.step]
    exact ⟨a1.trans hi.R, a3.trans hi.e_shaft_g0, a4.trans hi.e_vert_g, a6.trans hi.e_horz_g, a8.trans hi.T_c2wt,
      by rw [a9, a10]; exact hi.T_wt2g, by rw [a5, a10]; exact hi.e_shaft_g⟩
  | eval pts o =>
    simp only [WT.step]
    rw [computeU_state]
    exact ⟨hi.R, hi.e_shaft_g0, hi.e_vert_g, hi.e_horz_g, hi.T_c2wt, hi.T_wt2g, hi.e_shaft_g⟩

theorem frame_run (mini : (ℝ → Num) → ℝ) (shaft vert : V3 ℝ) (R : ℝ) (h : List Op) : ∀ (w : WT), FrameInv shaft vert R w →
    FrameInv shaft vert R (w.run mini h) := by
  induction h with
  | nil => intro w hi; exact hi
  | cons o h ih => intro w hi; exact ih _ (frame_step mini shaft vert R w hi o)

theorem yaw_step (mini : (ℝ → Num) → ℝ) (w : WT) (op : Op) :
    (w.step mini op).yaw_pos = (match op with | .yaw y => y | _ => w.yaw_pos) := by
  cases op with
  | loading a => exact (loading_frame mini w a).2.2.2.2.2.2.2.2.2.1
  | eval pts o => simp only [WT.step]; rw [computeU_state]
  | _ => rfl

theorem yaw_run (mini : (ℝ → Num) → ℝ) (h : List Op) : ∀ (w : WT),
    (w.run mini h).yaw_pos = if h.any Op.isYaw then lastYaw h else w.yaw_pos := by
  induction h with
  | nil => intro w; rfl
  | cons o h ih =>
    intro w
    show ((w.step mini o).run mini h).yaw_pos = _
    rw [ih, yaw_step]
    cases hb : h.any Op.isYaw <;> cases o <;> simp [lastYaw, Op.isYaw, hb]

theorem lastYaw_of_none (h : List Op) (hn : ¬ h.any Op.isYaw = true) : lastYaw h = 0 := by
  induction h with
  | nil => rfl
  | cons o h ih =>
    cases o <;> simp_all [lastYaw, Op.isYaw]

theorem yaw_run_new (mini : (ℝ → Num) → ℝ) (h : List Op) (w : WT) (h0 : w.yaw_pos = 0) : (w.run mini h).yaw_pos = lastYaw h := by
  rw [yaw_run]
  split
  · rfl
  · rename_i hn
    rw [h0, lastYaw_of_none h hn]

theorem turn_eq (u : V3 ℝ) (t : ℝ) (v : V3 ℝ) : M3.mulVec (rotMatAxisAngle u t) v = turn u t v := rot_mulVec u v t

/-- the columns of `T_c2g` -/
theorem T_c2g_eq (shaft vert : V3 ℝ) (R : ℝ) (w : WT) (hi : FrameInv shaft vert R w) :
    w.T_c2g = M3.ofCols (turn vert w.yaw_pos (V3.cross vert shaft)) (turn vert w.yaw_pos vert) (turn vert w.yaw_pos shaft) := by
  unfold WT.T_c2g
  rw [hi.T_wt2g, hi.T_c2wt, ← turn_eq, ← turn_eq, ← turn_eq]
  rfl

theorem cross_unit (a b : V3 ℝ) (ha : V3.dot a a = 1) (hb : V3.dot b b = 1) (h : V3.dot b a = 0) :
    V3.dot (V3.cross a b) (V3.cross a b) = 1 ∧ V3.dot (V3.cross a b) a = 0 ∧ V3.dot (V3.cross a b) b = 0 := by
  simp only [V3.dot, V3.cross] at *
  refine ⟨?_, by ring, by ring⟩
  linear_combination ha * (b.x*b.x+b.y*b.y+b.z*b.z) + hb - h * (b.x * a.x + b.y * a.y + b.z * a.z)

/-- the frame of an orthonormal turbine is orthonormal after any history -/
theorem frame_cols (shaft vert : V3 ℝ) (R : ℝ) (ho : Orthonormal shaft vert) (w : WT) (hi : FrameInv shaft vert R w) :
    ∃ a s : V3 ℝ, w.T_c2g = M3.ofCols a vert s ∧ a = turn vert w.yaw_pos (V3.cross vert shaft) ∧ s = turn vert w.yaw_pos shaft ∧
      V3.dot a a = 1 ∧ V3.dot s s = 1 ∧ V3.dot a vert = 0 ∧ V3.dot a s = 0 ∧ V3.dot s vert = 0 ∧ a = V3.cross vert s := by
  obtain ⟨c1, c2, c3⟩ := cross_unit vert shaft ho.vert ho.shaft ho.orth
  have e := T_c2g_eq shaft vert R w hi
  have ev : turn vert w.yaw_pos vert = vert := by rw [← turn_eq]; exact rot_axis vert ho.vert _
  rw [ev] at e
  have d := fun x y => rot_dot vert x y ho.vert w.yaw_pos
  simp only [turn_eq] at d
  refine ⟨_, _, e, rfl, rfl, ?_, ?_, ?_, ?_, ?_, ?_⟩
  · rw [d, c1]
  · rw [d, ho.shaft]
  · have := d (V3.cross vert shaft) vert
    rw [ev] at this; rw [this, c2]
  · rw [d, c3]
  · have := d shaft vert
    rw [ev] at this; rw [this, ho.orth]
  · have h1 : vert.x*vert.x + vert.y*vert.y + vert.z*vert.z = 1 := ho.vert
    have h2 : shaft.x*vert.x + shaft.y*vert.y + shaft.z*vert.z = 0 := ho.orth
    have h3 : V3.dot vert (V3.cross vert shaft) = 0 := by simp only [V3.dot, V3.cross]; ring
    have h4 : V3.dot vert shaft = 0 := by simp only [V3.dot]; linarith
    unfold turn
    rw [h3, h4]
    generalize Real.cos w.yaw_pos = c
    generalize Real.sin w.yaw_pos = s
    ext
    · simp only [V3.cross, V3.add_x, V3.add_y, V3.add_z, V3.smul_x, V3.smul_y, V3.smul_z]; ring
    · simp only [V3.cross, V3.add_x, V3.add_y, V3.add_z, V3.smul_x, V3.smul_y, V3.smul_z]; ring
    · simp only [V3.cross, V3.add_x, V3.add_y, V3.add_z, V3.smul_x, V3.smul_y, V3.smul_z]; ring

theorem ortho_round (n s v : V3 ℝ) (hn : V3.dot n n = 1) (hs : V3.dot s s = 1) (h0 : V3.dot s n = 0) :
    transform (M3.ofCols (V3.cross n s) n s) (transformT (M3.ofCols (V3.cross n s) n s) v) = v ∧
    transformT (M3.ofCols (V3.cross n s) n s) (transform (M3.ofCols (V3.cross n s) n s) v) = v := by
  simp only [V3.dot] at hn hs h0
  constructor
  · ext
    · simp only [transform, transformT, M3.ofCols, V3.cross]
      linear_combination v.x * ((s.x*s.x+s.y*s.y+s.z*s.z) * hn + hs) - (v.x * (s.x*n.x+s.y*n.y+s.z*n.z) - n.x * (v.x*s.x+v.y*s.y+v.z*s.z) - s.x * (v.x*n.x+v.y*n.y+v.z*n.z)) * h0
        - n.x * (v.x*n.x+v.y*n.y+v.z*n.z) * hs - s.x * (v.x*s.x+v.y*s.y+v.z*s.z) * hn
    · simp only [transform, transformT, M3.ofCols, V3.cross]
      linear_combination v.y * ((s.x*s.x+s.y*s.y+s.z*s.z) * hn + hs) - (v.y * (s.x*n.x+s.y*n.y+s.z*n.z) - n.y * (v.x*s.x+v.y*s.y+v.z*s.z) - s.y * (v.x*n.x+v.y*n.y+v.z*n.z)) * h0
        - n.y * (v.x*n.x+v.y*n.y+v.z*n.z) * hs - s.y * (v.x*s.x+v.y*s.y+v.z*s.z) * hn
    · simp only [transform, transformT, M3.ofCols, V3.cross]
      linear_combination v.z * ((s.x*s.x+s.y*s.y+s.z*s.z) * hn + hs) - (v.z * (s.x*n.x+s.y*n.y+s.z*n.z) - n.z * (v.x*s.x+v.y*s.y+v.z*s.z) - s.z * (v.x*n.x+v.y*n.y+v.z*n.z)) * h0
        - n.z * (v.x*n.x+v.y*n.y+v.z*n.z) * hs - s.z * (v.x*s.x+v.y*s.y+v.z*s.z) * hn
  · ext
    · simp only [transform, transformT, M3.ofCols, V3.cross]
      linear_combination v.x * ((s.x*s.x+s.y*s.y+s.z*s.z) * hn + hs - (s.x*n.x+s.y*n.y+s.z*n.z) * h0)
    · simp only [transform, transformT, M3.ofCols, V3.cross]
      linear_combination v.y * hn + v.z * h0
    · simp only [transform, transformT, M3.ofCols, V3.cross]
      linear_combination v.z * hs + v.y * h0

theorem ortho_norm (n s v : V3 ℝ) (hn : V3.dot n n = 1) (hs : V3.dot s s = 1) (h0 : V3.dot s n = 0) :
    V3.norm (transform (M3.ofCols (V3.cross n s) n s) v) = V3.norm v := by
  unfold V3.norm
  congr 1
  simp only [V3.dot] at hn hs h0
  simp only [transform, M3.ofCols, V3.cross]
  linear_combination v.x^2 * ((s.x*s.x+s.y*s.y+s.z*s.z) * hn + hs - (s.x*n.x+s.y*n.y+s.z*n.z) * h0) + v.y^2 * hn + v.z^2 * hs + 2*v.y*v.z*h0

/-- sign times arccos is the signed angle -/
theorem signed_angle (c σ k : ℝ) (h : c^2 + σ^2 = 1) (hk : 0 < k) :
    ∃ θ : ℝ, (if Num.Eqv (Num.sign (.fin (k * σ))) 0 then Num.arccos (.fin c) else Num.sign (.fin (k * σ)) * Num.arccos (.fin c)) = .fin θ ∧
      Real.cos θ = c ∧ Real.sin θ = σ ∧ -Real.pi < θ ∧ θ ≤ Real.pi ∧
      (σ ≠ 0 ∨ c = 1 → Num.sign (.fin (k * σ)) * Num.arccos (.fin c) = .fin θ) := by
  have h1 : -1 ≤ c := by nlinarith [sq_nonneg σ]
  have h2 : c ≤ 1 := by nlinarith [sq_nonneg σ]
  have ea : Num.arccos (.fin c) = .fin (Real.arccos c) := by simp [Num.arccos, h1, h2]
  have es : Real.sin (Real.arccos c) = |σ| := by
    rw [Real.sin_arccos, show 1 - c^2 = σ^2 by linarith, Real.sqrt_sq_eq_abs]
  have hp := Real.arccos_nonneg c
  have hq := Real.arccos_le_pi c
  have hpi := Real.pi_pos
  rcases lt_trichotomy σ 0 with hσ | hσ | hσ
  · have hkσ : k * σ < 0 := by nlinarith
    have e : Num.sign (.fin (k * σ)) = .fin (-1) := by simp [Num.sign, hkσ, hkσ.le.not_gt]
    refine ⟨-Real.arccos c, ?_, ?_, ?_, ?_, ?_, fun _ => ?_⟩
    · rw [e, ea, if_neg (by simp), Num.fin_mul]; congr 1; ring
    · rw [Real.cos_neg, Real.cos_arccos h1 h2]
    · rw [Real.sin_neg, es, abs_of_neg hσ, neg_neg]
    · have : Real.arccos c ≠ Real.pi := by
        intro hh
        rw [Real.arccos_eq_pi] at hh
        nlinarith
      have := lt_of_le_of_ne hq this
      linarith
    · linarith
    · rw [e, ea, Num.fin_mul]; congr 1; ring
  · subst hσ
    have e : Num.sign (.fin (k * 0)) = .fin 0 := by simp [Num.sign]
    refine ⟨Real.arccos c, ?_, Real.cos_arccos h1 h2, by rw [es, abs_zero], by linarith, hq, ?_⟩
    · rw [e, ea, if_pos (by simp)]
    · rintro (hh | hh)
      · exact absurd rfl hh
      · rw [e, ea, hh, Real.arccos_one, Num.fin_mul, mul_zero]
  · have hkσ : 0 < k * σ := by positivity
    have e : Num.sign (.fin (k * σ)) = .fin 1 := by simp [Num.sign, hkσ]
    refine ⟨Real.arccos c, ?_, Real.cos_arccos h1 h2, by rw [es, abs_of_pos hσ], by linarith, hq, fun _ => ?_⟩
    · rw [e, ea, if_neg (by simp), Num.fin_mul, one_mul]
    · rw [e, ea, Num.fin_mul, one_mul]

theorem norm_unit (v : V3 ℝ) (h : V3.dot v v = 1) : V3.norm v = 1 := by
  have := norm_sq v
  rw [h] at this
  have h0 : 0 ≤ V3.norm v := Real.sqrt_nonneg _
  nlinarith

theorem horzOf_ortho (s v : V3 ℝ) (ho : Orthonormal s v) : horzOf s v = V3.fin s := by
  have e : V3.subScalar s (V3.dot s v) = s := by
    rw [ho.orth]; ext <;> simp [V3.subScalar]
  unfold horzOf
  simp only [e, norm_unit s ho.shaft]
  ext <;> simp [V3.sdiv, V3.fin, Num.fin_div]

/-- plane decomposition of a unit horizontal vector -/
theorem plane_decomp (s v u : V3 ℝ) (ho : Orthonormal s v) (hu : V3.dot u v = 0) :
    u = V3.smul (V3.dot u s) s + V3.smul (V3.dot (V3.cross s u) v) (V3.cross v s) ∧
    V3.dot u s ^ 2 + V3.dot (V3.cross s u) v ^ 2 = V3.dot u u := by
  have h := (ortho_round v s u ho.vert ho.shaft ho.orth).1
  have h1 := ho.shaft
  have h2 := ho.vert
  have h3 := ho.orth
  have e : V3.dot (V3.cross s u) v = V3.dot u (V3.cross v s) := by simp only [V3.dot, V3.cross]; ring
  have key : u = V3.smul (V3.dot u s) s + V3.smul (V3.dot u (V3.cross v s)) (V3.cross v s) := by
    have hx := congrArg V3.x h
    have hy := congrArg V3.y h
    have hz := congrArg V3.z h
    simp only [transform, transformT, M3.ofCols] at hx hy hz
    simp only [V3.dot] at hu
    ext
    · simp only [V3.add_x, V3.smul_x, V3.dot]
      linear_combination -hx + v.x * hu
    · simp only [V3.add_y, V3.smul_y, V3.dot]
      linear_combination -hy + v.y * hu
    · simp only [V3.add_z, V3.smul_z, V3.dot]
      linear_combination -hz + v.z * hu
  rw [e]
  refine ⟨key, ?_⟩
  have : V3.dot u u = V3.dot u (V3.smul (V3.dot u s) s + V3.smul (V3.dot u (V3.cross v s)) (V3.cross v s)) := by rw [← key]
  rw [this]
  simp only [V3.dot, V3.add_x, V3.add_y, V3.add_z, V3.smul_x, V3.smul_y, V3.smul_z]
  ring

theorem turn_horizontal (s v : V3 ℝ) (t : ℝ) (ho : Orthonormal s v) :
    turn v t s = V3.smul (Real.cos t) s + V3.smul (Real.sin t) (V3.cross v s) := by
  have : V3.dot v s = 0 := by have := ho.orth; simp only [V3.dot] at *; linarith
  unfold turn
  rw [this, mul_zero]
  ext <;> simp

theorem horizontal_orth (v U : V3 ℝ) (hv : V3.dot v v = 1) : V3.dot (horizontal v U) v = 0 := by
  unfold horizontal
  rw [dot_sub_left, dot_smul_left, hv]; ring

theorem cross_horizontal (s v U : V3 ℝ) : V3.dot (V3.cross s (horizontal v U)) v = V3.dot (V3.cross s U) v := by
  simp only [horizontal, V3.dot, V3.cross, V3.sub_x, V3.sub_y, V3.sub_z, V3.smul_x, V3.smul_y, V3.smul_z]; ring

theorem cross_smul_dot (s v U : V3 ℝ) (k : ℝ) : V3.dot (V3.cross s (V3.smul k U)) v = k * V3.dot (V3.cross s U) v := by
  simp only [V3.dot, V3.cross, V3.smul_x, V3.smul_y, V3.smul_z]; ring

theorem fin_dot (a b : V3 ℝ) : V3.dot (V3.fin a) (V3.fin b) = .fin (V3.dot a b) := by simp [V3.dot]
theorem fin_cross (a b : V3 ℝ) : V3.cross (V3.fin a) (V3.fin b) = V3.fin (V3.cross a b) := by
  ext <;> simp [V3.cross]

/-- `yaw_wind` on an orthonormal frame -/
theorem yawWind_eq (s v : V3 ℝ) (R : ℝ) (ho : Orthonormal s v) (w : WT) (hi : FrameInv s v R w) (hU : horizontal v w.U0_g ≠ 0) :
    ∃ θ : ℝ, w.yawWind = .fin θ ∧ -Real.pi < θ ∧ θ ≤ Real.pi ∧
      turn v θ s = V3.smul (1 / V3.norm (horizontal v w.U0_g)) (horizontal v w.U0_g) := by
  set u := horizontal v w.U0_g with hu
  have hn := norm_pos hU
  set e := V3.smul (1 / V3.norm u) u with he
  have hev : V3.dot e v = 0 := by rw [he, dot_smul_left, hu, horizontal_orth v _ ho.vert, mul_zero]
  have hee : V3.dot e e = 1 := dot_normalised u hU
  obtain ⟨d1, d2⟩ := plane_decomp s v e ho hev
  rw [hee] at d2
  obtain ⟨θ, h1, h2, h3, h4, h5, -⟩ := signed_angle _ _ (V3.norm u) d2 hn
  refine ⟨θ, ?_, h4, h5, ?_⟩
  · rw [← h1]
    have e1 : V3.norm u * V3.dot (V3.cross s e) v = V3.dot (V3.cross s w.U0_g) v := by
      rw [he, cross_smul_dot, hu, cross_horizontal]
      have : V3.norm u ≠ 0 := hn.ne'
      rw [← hu]; field_simp
    have e2 : V3.sdiv (V3.fin u) (.fin (V3.norm u)) = V3.fin e := by
      rw [sdiv_fin _ hn.ne']
    unfold WT.yawWind
    rw [hi.e_horz_g, hi.e_vert_g, horzOf_ortho s v ho, e1]
    have e3 : w.U0_g - V3.smul (V3.dot w.U0_g v) v = u := rfl
    simp only [e3, e2, fin_cross, fin_dot]
  · rw [turn_horizontal s v θ ho, h2, h3, ← d1]

theorem turn_ortho (s v : V3 ℝ) (t : ℝ) (ho : Orthonormal s v) : Orthonormal (turn v t s) v := by
  have ev : turn v t v = v := by rw [← turn_eq]; exact rot_axis v ho.vert _
  have d := fun x y => rot_dot v x y ho.vert t
  simp only [turn_eq] at d
  refine ⟨by rw [d, ho.shaft], ho.vert, ?_⟩
  have := d s v
  rw [ev] at this; rw [this, ho.orth]

theorem turn_turn (s v : V3 ℝ) (a b : ℝ) (ho : Orthonormal s v) : turn v a (turn v b s) = turn v (a + b) s := by
  rw [← turn_eq, ← turn_eq, ← turn_eq, rot_comp v s ho.vert]

theorem turn_inj (s v : V3 ℝ) (a b : ℝ) (ho : Orthonormal s v) (h : turn v a s = turn v b s) :
    ∃ k : ℤ, a = b + 2 * Real.pi * k := by
  obtain ⟨c1, c2, c3⟩ := cross_unit v s ho.vert ho.shaft ho.orth
  rw [turn_horizontal s v a ho, turn_horizontal s v b ho] at h
  have hs := congrArg (fun x => V3.dot x s) h
  have hc := congrArg (fun x => V3.dot x (V3.cross v s)) h
  have c4 : V3.dot s (V3.cross v s) = 0 := by rw [dot_comm]; exact c3
  simp only [dot_add_left, dot_smul_left, ho.shaft, c1, c3, c4] at hs hc
  have := Real.Angle.cos_sin_inj (θ := a) (ψ := b) (by linarith) (by linarith)
  obtain ⟨k, hk⟩ := Real.Angle.angle_eq_iff_two_pi_dvd_sub.mp this
  exact ⟨k, by linarith⟩

theorem dot_turn (s v : V3 ℝ) (a b : ℝ) (ho : Orthonormal s v) :
    V3.dot (turn v a s) (turn v b s) = Real.cos (a - b) ∧ V3.dot (turn v a s) (V3.cross v (turn v b s)) = Real.sin (a - b) := by
  obtain ⟨c1, c2, c3⟩ := cross_unit v s ho.vert ho.shaft ho.orth
  have c4 : V3.dot s (V3.cross v s) = 0 := by rw [dot_comm]; exact c3
  have hs : V3.dot v s = 0 := by rw [dot_comm]; exact ho.orth
  rw [turn_horizontal s v a ho, turn_horizontal s v b ho]
  have cc : V3.cross v (V3.smul (Real.cos b) s + V3.smul (Real.sin b) (V3.cross v s)) =
      V3.smul (Real.cos b) (V3.cross v s) + V3.smul (-Real.sin b) s := by
    have h1 : v.x*v.x + v.y*v.y + v.z*v.z = 1 := ho.vert
    have h2 : v.x*s.x + v.y*s.y + v.z*s.z = 0 := hs
    ext
    · simp only [V3.cross, V3.add_x, V3.add_y, V3.add_z, V3.smul_x, V3.smul_y, V3.smul_z]
      linear_combination Real.sin b * v.x * h2 - Real.sin b * s.x * h1
    · simp only [V3.cross, V3.add_x, V3.add_y, V3.add_z, V3.smul_x, V3.smul_y, V3.smul_z]
      linear_combination Real.sin b * v.y * h2 - Real.sin b * s.y * h1
    · simp only [V3.cross, V3.add_x, V3.add_y, V3.add_z, V3.smul_x, V3.smul_y, V3.smul_z]
      linear_combination Real.sin b * v.z * h2 - Real.sin b * s.z * h1
  rw [cc]
  simp only [dot_add_left, dot_add_right, dot_smul_left, dot_smul_right, ho.shaft, c1, c3, c4, Real.cos_sub, Real.sin_sub]
  constructor <;> ring

theorem transformT_cols (a b c v : V3 ℝ) : transformT (M3.ofCols a b c) v = ⟨V3.dot v a, V3.dot v b, V3.dot v c⟩ := by
  ext <;> simp [transformT, M3.ofCols, V3.dot] <;> ring

/-- the automatically computed skew angle -/
theorem chiAuto_eq (s v : V3 ℝ) (R : ℝ) (ho : Orthonormal s v) (w : WT) (hi : FrameInv s v R w) (hU : horizontal v w.U0_g ≠ 0) :
    ∃ χ θ : ℝ, w.chiAuto = .fin χ ∧ w.yawWind = .fin θ ∧ χ = θ - w.yaw_pos ∧ transformT w.T_c2g w.U0_g =
      ⟨V3.norm (horizontal v w.U0_g) * Real.sin χ, V3.dot w.U0_g v, V3.norm (horizontal v w.U0_g) * Real.cos χ⟩ := by
  obtain ⟨θ, h1, h2, h3, h4⟩ := yawWind_eq s v R ho w hi hU
  obtain ⟨a, c, e1, e2, e3, e4, e5, e6, e7, e8, e9⟩ := frame_cols s v R ho w hi
  have hn := (norm_pos hU).ne'
  refine ⟨θ - w.yaw_pos, θ, ?_, h1, rfl, ?_⟩
  · unfold WT.chiAuto
    have hy : (M3.mulVec (M3.transpose w.T_c2g) w.e_vert_g).y = 1 := by
      rw [← transformT_eq, e1, transformT_cols, hi.e_vert_g]; exact ho.vert
    simp only [hy, h1]
    simp [Num.sign]
  · rw [e1, transformT_cols]
    have hU' : w.U0_g = V3.smul (V3.norm (horizontal v w.U0_g)) (turn v θ s) + V3.smul (V3.dot w.U0_g v) v := by
      rw [h4]
      ext
      · simp only [V3.add_x, V3.smul_x]; field_simp; simp [horizontal]
      · simp only [V3.add_y, V3.smul_y]; field_simp; simp [horizontal]
      · simp only [V3.add_z, V3.smul_z]; field_simp; simp [horizontal]
    obtain ⟨d1, d2⟩ := dot_turn s v θ w.yaw_pos ho
    have va : V3.dot v a = 0 := by rw [dot_comm]; exact e6
    have vc : V3.dot v c = 0 := by rw [dot_comm]; exact e8
    have x1 : V3.dot w.U0_g a = V3.norm (horizontal v w.U0_g) * Real.sin (θ - w.yaw_pos) := by
      rw [show V3.dot w.U0_g a = V3.dot (V3.smul (V3.norm (horizontal v w.U0_g)) (turn v θ s) + V3.smul (V3.dot w.U0_g v) v) a by rw [← hU'],
        dot_add_left, dot_smul_left, dot_smul_left, va, mul_zero, add_zero, e9, e3, d2]
    have x3 : V3.dot w.U0_g c = V3.norm (horizontal v w.U0_g) * Real.cos (θ - w.yaw_pos) := by
      rw [show V3.dot w.U0_g c = V3.dot (V3.smul (V3.norm (horizontal v w.U0_g)) (turn v θ s) + V3.smul (V3.dot w.U0_g v) v) c by rw [← hU'],
        dot_add_left, dot_smul_left, dot_smul_left, vc, mul_zero, add_zero, e3, d1]
    rw [x1, x3]

end Wiz
