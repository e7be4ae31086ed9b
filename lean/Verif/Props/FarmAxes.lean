import Verif.Props.TurbineMirror
import Verif.Lemmas.FarmMaps

/-! # Whole farm sessions in rotated or mirrored axes (C126) -/
namespace Wiz
open Classical

theorem mulVec_zero3 (Q : M3 ℝ) : M3.mulVec Q 0 = 0 := by ext <;> simp [M3.mulVec]

/-! ### The two changes of axes -/

theorem rotation_surj (Q : M3 ℝ) (hQ : Rotation Q) (b : V3 ℝ) : ∃ a, M3.mulVec Q a = b := by
  obtain ⟨c1, c2, c3, c4, c5, c6, c7, c8, c9⟩ := rotation_cof Q hQ
  have hd := hQ.det
  simp only [M3.det] at hd
  refine ⟨⟨(Q.yy*Q.zz - Q.yz*Q.zy)*b.x + (Q.xz*Q.zy - Q.xy*Q.zz)*b.y + (Q.xy*Q.yz - Q.xz*Q.yy)*b.z,
    (Q.yz*Q.zx - Q.yx*Q.zz)*b.x + (Q.xx*Q.zz - Q.xz*Q.zx)*b.y + (Q.xz*Q.yx - Q.xx*Q.yz)*b.z,
    (Q.yx*Q.zy - Q.yy*Q.zx)*b.x + (Q.xy*Q.zx - Q.xx*Q.zy)*b.y + (Q.xx*Q.yy - Q.xy*Q.yx)*b.z⟩, ?_⟩
  clear c1 c2 c3 c4 c5 c6 c7 c8 c9
  ext <;> simp only [M3.mulVec]
  · linear_combination b.x * hd
  · linear_combination b.y * hd
  · linear_combination b.z * hd

theorem refl_inj (S : M3 ℝ) (hS : Reflection S) (a b : V3 ℝ) (h : M3.mulVec S a = M3.mulVec S b) : a = b := by
  rw [negM_mulVec S a, negM_mulVec S b] at h
  have h' := congrArg (fun v : V3 ℝ => -v) h
  simp only [neg_neg3] at h'
  exact rotation_inj _ (negM_rot S hS) a b h'

theorem refl_surj (S : M3 ℝ) (hS : Reflection S) (b : V3 ℝ) : ∃ a, M3.mulVec S a = b := by
  obtain ⟨a, ha⟩ := rotation_surj _ (negM_rot S hS) (-b)
  exact ⟨a, by rw [negM_mulVec S a, ha, neg_neg3]⟩

theorem rotated_axes (mini : (ℝ → Num) → ℝ) (Q : M3 ℝ) (hQ : Rotation Q) (args : ℕ → TurbineArgs)
    (ho : ∀ t, Orthonormal (args t).shaft (args t).vert) :
    Axes mini (M3.mulVec Q) (M3.mulVec Q) (Op.rotated Q) (fun _ => True) (fun _ _ => True) (fun t => RotRel Q (args t).shaft (args t).vert (args t).R) where
  zero := mulVec_zero3 Q
  vzero := mulVec_zero3 Q
  vadd := rotation_add Q
  inj := rotation_inj Q hQ
  surj := rotation_surj Q hQ
  pos := fun p => rfl
  notpos := fun op hop p => by cases op <;> first | exact absurd rfl (hop _) | (intro h; exact nomatch h)
  hub := fun t w w' h => h.hub
  move := fun t w w' p h => by
    have f := frame_step mini _ _ _ w h.f (.position p)
    have f' := frame_step mini _ _ _ w' h.f' (.position (M3.mulVec Q p))
    exact ⟨f, f', h.yaw, rfl, h.wind, h.r, h.gt, h.gl, h.Gr, h.Lambda, h.Ct, h.Ground, h.chi, h.Model⟩
  step := fun t w w' op h _ => rot_step mini Q hQ _ _ _ (ho t) w w' h op
  eval := fun t w w' h => by
    have := rot_step mini Q hQ _ _ _ (ho t) w w' h (.eval [] {})
    have e : w.step mini (.eval [] {}) = { w with chi := some (usedChi w) } := computeU_state w [] {}
    have e' : w'.step mini (Op.rotated Q (.eval [] {})) = { w' with chi := some (usedChi w') } := computeU_state w' _ {}
    rw [e, e'] at this
    exact this
  comp := fun t w w' pts o h _ _ => rot_computeU Q hQ _ _ _ (ho t) w w' h pts o
  only := fun _ _ => trivial

theorem mirrored_axes (mini : (ℝ → Num) → ℝ) (S : M3 ℝ) (hS : Reflection S) (args : ℕ → TurbineArgs)
    (ho : ∀ t, Orthonormal (args t).shaft (args t).vert) :
    Axes mini (M3.mulVec S) (M3.mulVec S) (Op.mirrored S) (fun o => o.longi = false ∧ o.root = false)
      (fun t op => ∀ U, op = .wind U → ¬ Opposed (args t).shaft (args t).vert U)
      (fun t => MirRel S (args t).shaft (args t).vert (args t).R) where
  zero := mulVec_zero3 S
  vzero := mulVec_zero3 S
  vadd := rotation_add S
  inj := refl_inj S hS
  surj := refl_surj S hS
  pos := fun p => rfl
  notpos := fun op hop p => by cases op <;> first | exact absurd rfl (hop _) | (intro h; exact nomatch h)
  hub := fun t w w' h => h.hub
  move := fun t w w' p h => by
    have f := frame_step mini _ _ _ w h.f (.position p)
    have f' := frame_step mini _ _ _ w' h.f' (.position (M3.mulVec S p))
    exact ⟨f, f', h.yaw, rfl, h.wind, h.faced, h.r, h.gt, h.gl, h.Gr, h.Lambda, h.Ct, h.Ground, h.chi, h.Model⟩
  step := fun t w w' op h hop => mir_step S _ _ _ w w' mini hS (ho t) h op hop
  eval := fun t w w' h => by
    have := mir_step S _ _ _ w w' mini hS (ho t) h (.eval [] {}) (fun U hU => nomatch hU)
    have e : w.step mini (.eval [] {}) = { w with chi := some (usedChi w) } := computeU_state w [] {}
    have e' : w'.step mini (Op.mirrored S (.eval [] {})) = { w' with chi := some (usedChi w') } := computeU_state w' _ {}
    rw [e, e'] at this
    exact this
  comp := fun t w w' pts o h ho' _ => mir_computeU S hS _ _ _ (ho t) w w' h pts o ho'.1 ho'.2
  only := fun o h => h

/-- C126: a whole farm session in rotated axes.  Build the turbines, and carry out the whole session (appends, list methods,
method calls on turbines, arrays written, layouts read and assigned, velocity fields) with every vector rotated: the farm holds
the same items, every hub is at the rotated place, `velocity_field` raises the same exceptions, and the velocity at a point is
a number `v` exactly when the rotated session gives `Q v` at the rotated point. -/
theorem C126_rotated (mini : (ℝ → Num) → ℝ) (Q : M3 ℝ) (hQ : Rotation Q) (args : ℕ → TurbineArgs)
    (ho : ∀ t, Orthonormal (args t).shaft (args t).vert) (items : List PyObj) (h : List FOp) (pts : List (V3 ℝ)) (o : Opts) (U0 : Option (V3 ℝ)) :
    let q := frun mini items (fun t => (args t).build) h
    let q' := frun mini items (fun t => ((args t).moved Q).build) (h.map (FOp.moved Q (Op.rotated Q)))
    let r := (farmVelocity q.1 q.2 pts o U0).1
    let r' := (farmVelocity q'.1 q'.2 (pts.map (M3.mulVec Q)) o (U0.map (M3.mulVec Q))).1
    q'.1 = q.1 ∧ (∀ t, q'.2.hub t = M3.mulVec Q (q.2.hub t)) ∧ (∀ e, r = .error e ↔ r' = .error e) ∧
    ∀ u u', r = .ok u → r' = .ok u' → ∀ (i : ℕ) (v : V3 ℝ), u[i]? = some (V3.fin v) ↔ u'[i]? = some (V3.fin (M3.mulVec Q v)) :=
  axes_farm (rotated_axes mini Q hQ args ho) items _ _ (fun t => rot_new Q _ _ _ _ _ _ _ _) h
    (fun op _ => by cases op <;> trivial) pts o trivial U0

/-- C126: a whole farm session seen in a mirror: yaw angles and hand-set skew angles change sign, and velocities of the
tangential vorticity are mirrored.  No wind may blow exactly against the shaft direction at rest of its turbine. -/
theorem C126_mirrored (mini : (ℝ → Num) → ℝ) (S : M3 ℝ) (hS : Reflection S) (args : ℕ → TurbineArgs)
    (ho : ∀ t, Orthonormal (args t).shaft (args t).vert) (h0 : ∀ t, ¬ Opposed (args t).shaft (args t).vert (args t).U0)
    (items : List PyObj) (h : List FOp) (hw : ∀ t U, FOp.call t (.wind U) ∈ h → ¬ Opposed (args t).shaft (args t).vert U)
    (hv : ∀ pts o U0, FOp.velocity pts o U0 ∈ h → o.longi = false ∧ o.root = false)
    (pts : List (V3 ℝ)) (o : Opts) (hl : o.longi = false) (hr : o.root = false) (U0 : Option (V3 ℝ)) :
    let q := frun mini items (fun t => (args t).build) h
    let q' := frun mini items (fun t => ((args t).moved S).build) (h.map (FOp.moved S (Op.mirrored S)))
    let r := (farmVelocity q.1 q.2 pts o U0).1
    let r' := (farmVelocity q'.1 q'.2 (pts.map (M3.mulVec S)) o (U0.map (M3.mulVec S))).1
    q'.1 = q.1 ∧ (∀ t, q'.2.hub t = M3.mulVec S (q.2.hub t)) ∧ (∀ e, r = .error e ↔ r' = .error e) ∧
    ∀ u u', r = .ok u → r' = .ok u' → ∀ (i : ℕ) (v : V3 ℝ), u[i]? = some (V3.fin v) ↔ u'[i]? = some (V3.fin (M3.mulVec S v)) := by
  refine axes_farm (mirrored_axes mini S hS args ho) items _ _ (fun t => mir_new S _ _ _ _ (h0 t) _ _ _ _ _ rfl) h ?_ pts o ⟨hl, hr⟩ U0
  intro op hop
  cases op with
  | call t op => intro U hU; subst hU; exact hw t U hop
  | velocity pts o U0 => exact hv pts o U0 hop
  | _ => trivial

/-- the hypotheses of `C126_mirrored` are met by two turbines that are loaded, yawed, re-winded, moved through a shared array
and evaluated; the mirrored session is a different one -/
example : let S := mirrorIn ⟨1, 0, 0⟩
    let args : ℕ → TurbineArgs := fun t => ⟨1, ⟨5*t, 0, 0⟩, ⟨0, 0, 1⟩, ⟨0, 1, 0⟩, ⟨0, 0, 10⟩, some .pinf, false, "VC"⟩
    let h : List FOp := [.append (.turbine 0), .append (.turbine 1), .call 0 (.yaw 0.3), .call 1 (.wind ⟨1, 0, 8⟩),
      .newArray [⟨1, 2, 3⟩, ⟨4, 5, 6⟩], .setLayout (.array 0), .write 0 1 ⟨7, 0, 0⟩, .velocity [⟨1, 1, 1⟩] {} none]
    Reflection S ∧ (∀ t, Orthonormal (args t).shaft (args t).vert) ∧ (∀ t, ¬ Opposed (args t).shaft (args t).vert (args t).U0) ∧
    (∀ t U, FOp.call t (.wind U) ∈ h → ¬ Opposed (args t).shaft (args t).vert U) ∧
    (∀ pts o U0, FOp.velocity pts o U0 ∈ h → o.longi = false ∧ o.root = false) ∧
    h.map (FOp.moved S (Op.mirrored S)) = [.append (.turbine 0), .append (.turbine 1), .call 0 (.yaw (-0.3)), .call 1 (.wind ⟨-1, 0, 8⟩),
      .newArray [⟨-1, 2, 3⟩, ⟨-4, 5, 6⟩], .setLayout (.array 0), .write 0 1 ⟨-7, 0, 0⟩, .velocity [⟨-1, 1, 1⟩] {} none] := by
  have opp : ∀ a b c : ℝ, 0 < c → ¬ Opposed ⟨0, 0, 1⟩ ⟨0, 1, 0⟩ ⟨a, b, c⟩ := by
    rintro a b c hc ⟨k, hk, e⟩
    have := congrArg V3.z e
    simp [horizontal, V3.dot] at this
    linarith
  have img : ∀ a b c : ℝ, M3.mulVec (mirrorIn ⟨1, 0, 0⟩) ⟨a, b, c⟩ = ⟨-a, b, c⟩ := by
    intro a b c
    ext <;> simp [M3.mulVec, mirrorIn]; ring
  intro S args h
  refine ⟨mirrorIn_refl _ (by simp [V3.dot]), fun t => ⟨by simp [V3.dot, args], by simp [V3.dot, args], by simp [V3.dot, args]⟩,
    fun t => opp _ _ _ (by norm_num), ?_, ?_, ?_⟩
  · intro t U hU
    simp [h] at hU
    rw [hU.2]; exact opp _ _ _ (by norm_num)
  · intro pts o U0 hv
    simp [h] at hv
    rw [hv.2.1]; exact ⟨rfl, rfl⟩
  · simp only [h, List.map_cons, List.map_nil, FOp.moved, FOp.mapped, Op.mirrored, S, img, Option.map_none]

/-- and those of `C126_rotated`, with a quarter turn about the vertical -/
example : let Q : M3 ℝ := ⟨0, 0, 1, 0, 1, 0, -1, 0, 0⟩
    Rotation Q ∧ M3.mulVec Q ⟨1, 2, 3⟩ = ⟨3, 2, -1⟩ ∧
    (FOp.call 0 (.wind ⟨1, 2, 3⟩)).moved Q (Op.rotated Q) = .call 0 (.wind ⟨3, 2, -1⟩) := by
  have e : M3.mulVec (⟨0, 0, 1, 0, 1, 0, -1, 0, 0⟩ : M3 ℝ) ⟨1, 2, 3⟩ = ⟨3, 2, -1⟩ := by ext <;> simp [M3.mulVec]
  refine ⟨⟨?_, by simp [M3.det]⟩, e, ?_⟩
  · ext <;> simp [M3.mul, M3.transpose, M3.id]
  · simp only [FOp.moved, FOp.mapped, Op.rotated, e]

end Wiz
