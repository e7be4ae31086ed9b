import Verif.Lemmas.TurbineEval

namespace Wiz
open Classical

theorem rotation_entries (Q : M3 ℝ) (hQ : Rotation Q) :
    (Q.xx*Q.xx + Q.yx*Q.yx + Q.zx*Q.zx = 1 ∧ Q.xx*Q.xy + Q.yx*Q.yy + Q.zx*Q.zy = 0 ∧ Q.xx*Q.xz + Q.yx*Q.yz + Q.zx*Q.zz = 0 ∧
     Q.xy*Q.xy + Q.yy*Q.yy + Q.zy*Q.zy = 1 ∧ Q.xy*Q.xz + Q.yy*Q.yz + Q.zy*Q.zz = 0 ∧ Q.xz*Q.xz + Q.yz*Q.yz + Q.zz*Q.zz = 1) := by
  have h := hQ.orth
  rw [M3.ext_iff] at h
  simp only [M3.mul, M3.transpose, M3.id] at h
  obtain ⟨h1, h2, h3, -, h5, h6, -, -, h9⟩ := h
  exact ⟨h1, h2, h3, h5, h6, h9⟩

theorem rotation_cof (Q : M3 ℝ) (hQ : Rotation Q) :
    (Q.xx = Q.yy*Q.zz - Q.yz*Q.zy ∧ Q.xy = Q.yz*Q.zx - Q.yx*Q.zz ∧ Q.xz = Q.yx*Q.zy - Q.yy*Q.zx ∧
     Q.yx = Q.xz*Q.zy - Q.xy*Q.zz ∧ Q.yy = Q.xx*Q.zz - Q.xz*Q.zx ∧ Q.yz = Q.xy*Q.zx - Q.xx*Q.zy ∧
     Q.zx = Q.xy*Q.yz - Q.xz*Q.yy ∧ Q.zy = Q.xz*Q.yx - Q.xx*Q.yz ∧ Q.zz = Q.xx*Q.yy - Q.xy*Q.yx) := by
  obtain ⟨h1, h2, h3, h5, h6, h9⟩ := rotation_entries Q hQ
  have hd := hQ.det
  simp only [M3.det] at hd
  refine ⟨?_, ?_, ?_, ?_, ?_, ?_, ?_, ?_, ?_⟩
  · linear_combination (-Q.xx) * hd + h1 * (Q.yy*Q.zz - Q.yz*Q.zy) + h2 * (Q.yz*Q.zx - Q.yx*Q.zz) + h3 * (Q.yx*Q.zy - Q.yy*Q.zx)
  · linear_combination (-Q.xy) * hd + h2 * (Q.yy*Q.zz - Q.yz*Q.zy) + h5 * (Q.yz*Q.zx - Q.yx*Q.zz) + h6 * (Q.yx*Q.zy - Q.yy*Q.zx)
  · linear_combination (-Q.xz) * hd + h3 * (Q.yy*Q.zz - Q.yz*Q.zy) + h6 * (Q.yz*Q.zx - Q.yx*Q.zz) + h9 * (Q.yx*Q.zy - Q.yy*Q.zx)
  · linear_combination (-Q.yx) * hd + h1 * (Q.xz*Q.zy - Q.xy*Q.zz) + h2 * (Q.xx*Q.zz - Q.xz*Q.zx) + h3 * (Q.xy*Q.zx - Q.xx*Q.zy)
  · linear_combination (-Q.yy) * hd + h2 * (Q.xz*Q.zy - Q.xy*Q.zz) + h5 * (Q.xx*Q.zz - Q.xz*Q.zx) + h6 * (Q.xy*Q.zx - Q.xx*Q.zy)
  · linear_combination (-Q.yz) * hd + h3 * (Q.xz*Q.zy - Q.xy*Q.zz) + h6 * (Q.xx*Q.zz - Q.xz*Q.zx) + h9 * (Q.xy*Q.zx - Q.xx*Q.zy)
  · linear_combination (-Q.zx) * hd + h1 * (Q.xy*Q.yz - Q.xz*Q.yy) + h2 * (Q.xz*Q.yx - Q.xx*Q.yz) + h3 * (Q.xx*Q.yy - Q.xy*Q.yx)
  · linear_combination (-Q.zy) * hd + h2 * (Q.xy*Q.yz - Q.xz*Q.yy) + h5 * (Q.xz*Q.yx - Q.xx*Q.yz) + h6 * (Q.xx*Q.yy - Q.xy*Q.yx)
  · linear_combination (-Q.zz) * hd + h3 * (Q.xy*Q.yz - Q.xz*Q.yy) + h6 * (Q.xz*Q.yx - Q.xx*Q.yz) + h9 * (Q.xx*Q.yy - Q.xy*Q.yx)

theorem rotation_dot (Q : M3 ℝ) (hQ : Rotation Q) (a b : V3 ℝ) : V3.dot (M3.mulVec Q a) (M3.mulVec Q b) = V3.dot a b := by
  obtain ⟨h1, h2, h3, h5, h6, h9⟩ := rotation_entries Q hQ
  simp only [V3.dot, M3.mulVec]
  linear_combination a.x*b.x*h1 + (a.x*b.y+a.y*b.x)*h2 + (a.x*b.z+a.z*b.x)*h3 + a.y*b.y*h5 + (a.y*b.z+a.z*b.y)*h6 + a.z*b.z*h9

theorem rotation_cross (Q : M3 ℝ) (hQ : Rotation Q) (a b : V3 ℝ) :
    V3.cross (M3.mulVec Q a) (M3.mulVec Q b) = M3.mulVec Q (V3.cross a b) := by
  obtain ⟨c1, c2, c3, c4, c5, c6, c7, c8, c9⟩ := rotation_cof Q hQ
  ext
  · simp only [V3.cross, M3.mulVec]
    linear_combination (-(a.y*b.z-a.z*b.y))*c1 - (a.z*b.x-a.x*b.z)*c2 - (a.x*b.y-a.y*b.x)*c3
  · simp only [V3.cross, M3.mulVec]
    linear_combination (-(a.y*b.z-a.z*b.y))*c4 - (a.z*b.x-a.x*b.z)*c5 - (a.x*b.y-a.y*b.x)*c6
  · simp only [V3.cross, M3.mulVec]
    linear_combination (-(a.y*b.z-a.z*b.y))*c7 - (a.z*b.x-a.x*b.z)*c8 - (a.x*b.y-a.y*b.x)*c9

theorem rotation_add (Q : M3 ℝ) (a b : V3 ℝ) : M3.mulVec Q (a + b) = M3.mulVec Q a + M3.mulVec Q b := by
  ext <;> simp [M3.mulVec] <;> ring
theorem rotation_sub (Q : M3 ℝ) (a b : V3 ℝ) : M3.mulVec Q (a - b) = M3.mulVec Q a - M3.mulVec Q b := by
  ext <;> simp [M3.mulVec] <;> ring
theorem rotation_smul (Q : M3 ℝ) (k : ℝ) (a : V3 ℝ) : M3.mulVec Q (V3.smul k a) = V3.smul k (M3.mulVec Q a) := by
  ext <;> simp [M3.mulVec] <;> ring

theorem rotation_norm (Q : M3 ℝ) (hQ : Rotation Q) (a : V3 ℝ) : V3.norm (M3.mulVec Q a) = V3.norm a := by
  rw [norm_eq_sqrt_dot, norm_eq_sqrt_dot, rotation_dot Q hQ]

theorem rotation_turn (Q : M3 ℝ) (hQ : Rotation Q) (u v : V3 ℝ) (t : ℝ) :
    turn (M3.mulVec Q u) t (M3.mulVec Q v) = M3.mulVec Q (turn u t v) := by
  unfold turn
  rw [rotation_dot Q hQ, rotation_cross Q hQ, rotation_add, rotation_add, rotation_smul, rotation_smul, rotation_smul]

theorem rotation_inj (Q : M3 ℝ) (hQ : Rotation Q) (a b : V3 ℝ) (h : M3.mulVec Q a = M3.mulVec Q b) : a = b := by
  have : V3.dot (a - b) (a - b) = 0 := by
    rw [← rotation_dot Q hQ, rotation_sub, h]; simp [V3.dot]
  have := dot_self_eq_zero.mp this
  have hx := congrArg V3.x this
  have hy := congrArg V3.y this
  have hz := congrArg V3.z this
  simp at hx hy hz
  ext <;> linarith

/-- the two turbines describe the same situation in the two systems of axes -/
structure RotRel (Q : M3 ℝ) (shaft vert : V3 ℝ) (R : ℝ) (w w' : WT) : Prop where
  f : FrameInv shaft vert R w
  f' : FrameInv (M3.mulVec Q shaft) (M3.mulVec Q vert) R w'
  yaw : w'.yaw_pos = w.yaw_pos
  hub : w'.r_hub = M3.mulVec Q w.r_hub
  wind : w'.U0_g = M3.mulVec Q w.U0_g
  r : w'.r = w.r
  gt : w'.gamma_t = w.gamma_t
  gl : w'.gamma_l = w.gamma_l
  Gr : w'.Gamma_r = w.Gamma_r
  Lambda : w'.Lambda = w.Lambda
  Ct : w'.Ct = w.Ct
  Ground : w'.Ground = w.Ground
  chi : w'.chi = w.chi
  Model : w'.Model = w.Model

theorem rot_ortho (Q : M3 ℝ) (hQ : Rotation Q) (s v : V3 ℝ) (ho : Orthonormal s v) : Orthonormal (M3.mulVec Q s) (M3.mulVec Q v) :=
  ⟨by rw [rotation_dot Q hQ, ho.shaft], by rw [rotation_dot Q hQ, ho.vert], by rw [rotation_dot Q hQ, ho.orth]⟩

theorem rot_T (Q : M3 ℝ) (hQ : Rotation Q) (s v : V3 ℝ) (R : ℝ) (w w' : WT) (h : RotRel Q s v R w w') :
    w'.T_c2g = M3.mul Q w.T_c2g := by
  rw [T_c2g_eq _ _ _ w h.f, T_c2g_eq _ _ _ w' h.f', h.yaw, rotation_cross Q hQ, rotation_turn Q hQ, rotation_turn Q hQ, rotation_turn Q hQ]
  rfl

theorem rot_transformT (Q T : M3 ℝ) (hQ : Rotation Q) (p : V3 ℝ) : transformT (M3.mul Q T) (M3.mulVec Q p) = transformT T p := by
  obtain ⟨h1, h2, h3, h5, h6, h9⟩ := rotation_entries Q hQ
  ext
  · simp only [transformT, M3.mul, M3.mulVec]
    linear_combination T.xx*p.x*h1 + (T.xx*p.y+T.yx*p.x)*h2 + (T.xx*p.z+T.zx*p.x)*h3 + T.yx*p.y*h5 + (T.yx*p.z+T.zx*p.y)*h6 + T.zx*p.z*h9
  · simp only [transformT, M3.mul, M3.mulVec]
    linear_combination T.xy*p.x*h1 + (T.xy*p.y+T.yy*p.x)*h2 + (T.xy*p.z+T.zy*p.x)*h3 + T.yy*p.y*h5 + (T.yy*p.z+T.zy*p.y)*h6 + T.zy*p.z*h9
  · simp only [transformT, M3.mul, M3.mulVec]
    linear_combination T.xz*p.x*h1 + (T.xz*p.y+T.yz*p.x)*h2 + (T.xz*p.z+T.zz*p.x)*h3 + T.yz*p.y*h5 + (T.yz*p.z+T.zz*p.y)*h6 + T.zz*p.z*h9

theorem rot_yawWind (Q : M3 ℝ) (hQ : Rotation Q) (s v : V3 ℝ) (R : ℝ) (ho : Orthonormal s v) (w w' : WT) (h : RotRel Q s v R w w') :
    w'.yawWind = w.yawWind := by
  have ho' := rot_ortho Q hQ s v ho
  have eu : M3.mulVec Q w.U0_g - V3.smul (V3.dot (M3.mulVec Q w.U0_g) (M3.mulVec Q v)) (M3.mulVec Q v) =
      M3.mulVec Q (w.U0_g - V3.smul (V3.dot w.U0_g v) v) := by
    rw [rotation_sub, rotation_smul, rotation_dot Q hQ]
  unfold WT.yawWind
  simp only
  rw [h.f.e_horz_g, h.f'.e_horz_g, h.f.e_vert_g, h.f'.e_vert_g, horzOf_ortho s v ho, horzOf_ortho _ _ ho', h.wind, eu, rotation_norm Q hQ]
  simp only [fin_cross, fin_dot, rotation_cross Q hQ, rotation_dot Q hQ]
  generalize w.U0_g - V3.smul (V3.dot w.U0_g v) v = u
  have key : V3.dot (V3.sdiv (V3.fin (M3.mulVec Q u)) (.fin (V3.norm u))) (V3.fin (M3.mulVec Q s)) =
      V3.dot (V3.sdiv (V3.fin u) (.fin (V3.norm u))) (V3.fin s) := by
    by_cases hn : V3.norm u = 0
    · have h0 : u = 0 := by
        by_contra hne
        exact (norm_pos hne).ne' hn
      have h1 : M3.mulVec Q u = 0 := by rw [h0]; ext <;> simp [M3.mulVec]
      have h2 : V3.norm (0 : V3 ℝ) = 0 := by rw [h0] at hn; exact hn
      rw [h1, h0, h2]
      simp [V3.dot, V3.sdiv, Num.fin_div_zero, Num.infSign]
    · rw [sdiv_fin _ hn, sdiv_fin _ hn, fin_dot, fin_dot, dot_smul_left, dot_smul_left, rotation_dot Q hQ]
  rw [key]

theorem rot_chi (Q : M3 ℝ) (hQ : Rotation Q) (s v : V3 ℝ) (R : ℝ) (ho : Orthonormal s v) (w w' : WT) (h : RotRel Q s v R w w') :
    usedChi w' = usedChi w := by
  unfold usedChi
  rw [h.chi]
  cases w.chi with
  | some c => rfl
  | none =>
    simp only
    unfold WT.chiAuto
    simp only
    rw [← transformT_eq, ← transformT_eq, rot_T Q hQ s v R w w' h, h.f.e_vert_g, h.f'.e_vert_g, rot_transformT Q _ hQ, h.yaw,
      rot_yawWind Q hQ s v R ho w w' h]

theorem rot_new (Q : M3 ℝ) (R : ℝ) (hub s v U0 : V3 ℝ) (L : Option Num) (G : Bool) (M : String) :
    RotRel Q s v R (WT.new R hub s v U0 L G M) (WT.new R (M3.mulVec Q hub) (M3.mulVec Q s) (M3.mulVec Q v) (M3.mulVec Q U0) L G M) :=
  ⟨frame_new _ _ _ _ _ _ _ _, frame_new _ _ _ _ _ _ _ _, rfl, rfl, rfl, rfl, rfl, rfl, rfl, rfl, rfl, rfl, rfl, rfl⟩

theorem rot_step (mini : (ℝ → Num) → ℝ) (Q : M3 ℝ) (hQ : Rotation Q) (s v : V3 ℝ) (R : ℝ) (ho : Orthonormal s v) (w w' : WT)
    (h : RotRel Q s v R w w') (op : Op) : RotRel Q s v R (w.step mini op) (w'.step mini (op.rotated Q)) := by
  have f := frame_step mini s v R w h.f op
  have f' := frame_step mini _ _ R w' h.f' (op.rotated Q)
  cases op with
  | yaw y => exact ⟨f, f', rfl, h.hub, h.wind, h.r, h.gt, h.gl, h.Gr, h.Lambda, h.Ct, h.Ground, h.chi, h.Model⟩
  | position p => exact ⟨f, f', h.yaw, rfl, h.wind, h.r, h.gt, h.gl, h.Gr, h.Lambda, h.Ct, h.Ground, h.chi, h.Model⟩
  | wind p => exact ⟨f, f', h.yaw, h.hub, rfl, h.r, h.gt, h.gl, h.Gr, h.Lambda, h.Ct, h.Ground, h.chi, h.Model⟩
  | chi p => exact ⟨f, f', h.yaw, h.hub, h.wind, h.r, h.gt, h.gl, h.Gr, h.Lambda, h.Ct, h.Ground, rfl, h.Model⟩
  | eval pts o =>
    have e : w.step mini (.eval pts o) = { w with chi := some (usedChi w) } := computeU_state w pts o
    have e' : w'.step mini (Op.rotated Q (.eval pts o)) = { w' with chi := some (usedChi w') } := computeU_state w' _ o
    refine ⟨f, f', ?_, ?_, ?_, ?_, ?_, ?_, ?_, ?_, ?_, ?_, ?_, ?_⟩ <;> rw [e, e']
    · exact h.yaw
    · exact h.hub
    · exact h.wind
    · exact h.r
    · exact h.gt
    · exact h.gl
    · exact h.Gr
    · exact h.Lambda
    · exact h.Ct
    · exact h.Ground
    · exact congrArg some (rot_chi Q hQ s v R ho w w' h)
    · exact h.Model
  | loading a =>
    have hR : w'.R = w.R := h.f'.R.trans h.f.R.symm
    have hn : V3.norm w'.U0_g = V3.norm w.U0_g := by rw [h.wind, rotation_norm Q hQ]
    obtain ⟨-, a2, -, -, -, -, -, -, -, a10, a11, a12, a13, a14⟩ := loading_frame mini w a
    obtain ⟨-, b2, -, -, -, -, -, -, -, b10, b11, b12, b13, b14⟩ := loading_frame mini w' a
    have key : (w'.updateLoading mini a).2.r = (w.updateLoading mini a).2.r ∧ (w'.updateLoading mini a).2.gamma_t = (w.updateLoading mini a).2.gamma_t ∧
        (w'.updateLoading mini a).2.gamma_l = (w.updateLoading mini a).2.gamma_l ∧ (w'.updateLoading mini a).2.Gamma_r = (w.updateLoading mini a).2.Gamma_r ∧
        (w'.updateLoading mini a).2.Lambda = (w.updateLoading mini a).2.Lambda ∧ (w'.updateLoading mini a).2.Ct = (w.updateLoading mini a).2.Ct := by
      unfold WT.updateLoading
      simp only
      rw [hR, hn, h.Lambda]
      split
      · exact ⟨h.r, h.gt, h.gl, h.Gr, h.Lambda, h.Ct⟩
      · split
        · exact ⟨h.r, h.gt, h.gl, h.Gr, h.Lambda, h.Ct⟩
        · split
          · exact ⟨h.r, h.gt, h.gl, h.Gr, h.Lambda, h.Ct⟩
          · exact ⟨rfl, rfl, rfl, rfl, rfl, rfl⟩
    obtain ⟨k1, k2, k3, k4, k5, k6⟩ := key
    exact ⟨f, f', b10.trans (h.yaw.trans a10.symm), b2.trans (h.hub.trans (by rw [← a2]; rfl)), b11.trans (h.wind.trans (by rw [← a11]; rfl)),
      k1, k2, k3, k4, k5, k6, b12.trans (h.Ground.trans a12.symm), b13.trans (h.chi.trans a13.symm), b14.trans (h.Model.trans a14.symm)⟩

theorem rot_run (mini : (ℝ → Num) → ℝ) (Q : M3 ℝ) (hQ : Rotation Q) (s v : V3 ℝ) (R : ℝ) (ho : Orthonormal s v) (h : List Op) :
    ∀ (w w' : WT), RotRel Q s v R w w' → RotRel Q s v R (w.run mini h) (w'.run mini (h.map (Op.rotated Q))) := by
  induction h with
  | nil => intro w w' hr; exact hr
  | cons o h ih => intro w w' hr; exact ih _ _ (rot_step mini Q hQ s v R ho w w' hr o)

theorem rot_map (Q : M3 ℝ) (hQ : Rotation Q) (T : M3 ℝ) (pts : List (V3 ℝ)) :
    (pts.map (M3.mulVec Q)).map (transformT (M3.mul Q T)) = pts.map (transformT T) := by
  rw [List.map_map]; apply List.map_congr_left; intro p _; exact rot_transformT Q T hQ p

theorem rot_inducedC (Q : M3 ℝ) (hQ : Rotation Q) (s v : V3 ℝ) (R : ℝ) (w w' : WT) (h : RotRel Q s v R w w')
    (chi : Num) (gt : List Num) (pts : List (V3 ℝ)) (o : Opts) :
    w'.inducedC chi gt (pts.map (M3.mulVec Q)) o = w.inducedC chi gt pts o := by
  have hz : ((pts.map (M3.mulVec Q)).map fun _ => (0 : V3 Num)) = pts.map fun _ => 0 := by rw [List.map_map]; rfl
  unfold WT.inducedC
  simp only [h.Ground, h.Model, rot_T Q hQ s v R w w' h, rot_map Q hQ, h.hub, rot_transformT Q _ hQ, hz, h.Gr, h.gl, h.r,
    show w'.R = w.R from h.f'.R.trans h.f.R.symm]

/-! finite results come from finite velocities -/

theorem mul_isFin {a : ℝ} {n : Num} (h : (Num.fin a * n).IsFin) : n.IsFin := by
  obtain ⟨x, hx⟩ := h
  cases n with
  | fin b => exact ⟨b, rfl⟩
  | pinf =>
    exfalso
    change Num.infSign a = _ at hx
    unfold Num.infSign at hx
    split at hx
    · exact nomatch hx
    · split at hx <;> exact nomatch hx
  | ninf =>
    exfalso
    change Num.infSign (-a) = _ at hx
    unfold Num.infSign at hx
    split at hx
    · exact nomatch hx
    · split at hx <;> exact nomatch hx
  | nan => simp at hx

theorem add_isFin {a b : Num} (h : (a + b).IsFin) : a.IsFin ∧ b.IsFin := by
  obtain ⟨x, hx⟩ := h
  cases a <;> cases b <;> first | exact ⟨⟨_, rfl⟩, ⟨_, rfl⟩⟩ | exact nomatch hx

theorem transform_isFin (T : M3 ℝ) (v : V3 Num) (x : V3 ℝ) (h : transform (M3.fin T) v = V3.fin x) : ∃ y : V3 ℝ, v = V3.fin y := by
  have hx := congrArg V3.x h
  simp only [transform, M3.fin, V3.fin] at hx
  obtain ⟨h12, h3⟩ := add_isFin ⟨_, hx⟩
  obtain ⟨h1, h2⟩ := add_isFin h12
  obtain ⟨a, ha⟩ := mul_isFin h1
  obtain ⟨b, hb⟩ := mul_isFin h2
  obtain ⟨c, hc⟩ := mul_isFin h3
  exact ⟨⟨a, b, c⟩, by ext <;> simp [ha, hb, hc]⟩

theorem transform_fin (T : M3 ℝ) (v : V3 ℝ) : transform (M3.fin T) (V3.fin v) = V3.fin (M3.mulVec T v) := fin_mulVec T v

theorem mul_mulVec (Q T : M3 ℝ) (v : V3 ℝ) : M3.mulVec (M3.mul Q T) v = M3.mulVec Q (M3.mulVec T v) := by
  ext <;> simp [M3.mulVec, M3.mul] <;> ring

theorem add_fin_isFin (a : V3 Num) (b x : V3 ℝ) (h : a + V3.fin b = V3.fin x) : ∃ y : V3 ℝ, a = V3.fin y := by
  obtain ⟨p, -⟩ := add_isFin ⟨_, congrArg V3.x h⟩
  obtain ⟨q, -⟩ := add_isFin ⟨_, congrArg V3.y h⟩
  obtain ⟨r, -⟩ := add_isFin ⟨_, congrArg V3.z h⟩
  obtain ⟨p, hp⟩ := p
  obtain ⟨q, hq⟩ := q
  obtain ⟨r, hr⟩ := r
  exact ⟨⟨p, q, r⟩, by ext <;> simp [hp, hq, hr]⟩

theorem fin_inj3 (a b : V3 ℝ) (h : V3.fin a = V3.fin b) : a = b := by
  have hx := congrArg V3.x h
  have hy := congrArg V3.y h
  have hz := congrArg V3.z h
  simp at hx hy hz
  ext <;> assumption

end Wiz
