import Verif.Lemmas.TurbineMirror
import Verif.Props.TurbineField
import Mathlib.Analysis.Real.Pi.Bounds

namespace Wiz
open Classical

/-- evaluations of a turbine and of its mirror image -/
theorem mir_computeU (S : M3 ℝ) (hS : Reflection S) (shaft vert : V3 ℝ) (R : ℝ) (ho : Orthonormal shaft vert) (w w' : WT)
    (hm : MirRel S shaft vert R w w') (pts : List (V3 ℝ)) (o : Opts) (hl : o.longi = false) (hr : o.root = false) :
    (∀ e, (w.computeU pts o).1 = .error e ↔ (w'.computeU (pts.map (M3.mulVec S)) o).1 = .error e) ∧
    ∀ u u', (w.computeU pts o).1 = .ok u → (w'.computeU (pts.map (M3.mulVec S)) o).1 = .ok u' →
      ∀ (i : ℕ) (v : V3 ℝ), u[i]? = some (V3.fin v) ↔ u'[i]? = some (V3.fin (M3.mulVec S v)) := by
  have hc := mir_chi S shaft vert R w w' hS ho hm
  have hR : w'.R = w.R := hm.f'.R.trans hm.f.R.symm
  have hi := fun gt => mir_inducedC S shaft vert R w w' hS hm (usedChi w) gt pts o hl hr
  have hrel : relC w' (pts.map (M3.mulVec S)) = (relC w pts).map reflP := by
    unfold relC; rw [mir_map S shaft vert R w w' hS hm, hm.hub, mir_transformT S shaft vert R w w' hS hm, relPts_refl]
  have inj : ∀ a b : V3 ℝ, M3.mulVec S a = M3.mulVec S b → a = b := by
    intro a b hab
    rw [negM_mulVec S a, negM_mulVec S b] at hab
    apply rotation_inj _ (negM_rot S hS)
    rw [← neg_neg3 (M3.mulVec (negM S) a), hab, neg_neg3]
  constructor
  · intro e
    rw [computeU_val, computeU_val, hm.gt, hc]
    cases w.gamma_t with
    | none => rfl
    | some gt =>
      simp only [hi]
      cases w.inducedC (usedChi w) gt pts o with
      | error e => rfl
      | ok u => simp [mapOk]
  · intro u u' hu hu' i v
    obtain ⟨gt, c, e1, e2, e3, e4⟩ := ok_cases hu
    obtain ⟨gt', c', e1', e2', e3', e4'⟩ := ok_cases hu'
    rw [hm.gt, e1] at e1'
    have hgg := Option.some.inj e1'
    rw [hc, ← hgg, hi, e2] at e2'
    have hcc := Except.ok.inj e2'
    rw [← hcc, hrel, hR] at e4'
    have hd : (if o.no_wake then zeroWake w.R ((relC w pts).map reflP) (c.map reflN) else c.map reflN) =
        (if o.no_wake then zeroWake w.R (relC w pts) c else c).map reflN := by
      split
      · exact zeroWake_refl _ _ _
      · rfl
    rw [hd] at e4'
    rw [e4, e4']
    generalize (if o.no_wake then zeroWake w.R (relC w pts) c else c) = d
    simp only [WT.toGlobal, List.getElem?_map, hm.wind]
    cases hd : d[i]? with
    | none => simp
    | some x =>
      have vec : ∀ z : V3 ℝ, transform (M3.fin w'.T_c2g) (reflN (V3.fin z)) = V3.fin (M3.mulVec S (M3.mulVec w.T_c2g z)) := by
        intro z
        rw [← mir_vec S shaft vert R w w' hS hm, ← transform_fin]
        rfl
      have unref : ∀ z : V3 ℝ, reflN x = V3.fin z → ∃ y : V3 ℝ, x = V3.fin y := by
        intro z hz
        refine ⟨reflP z, ?_⟩
        have e : x = reflN (V3.fin z) := by
          rw [← hz]
          exact V3.ext (Num.neg_neg_ x.x).symm rfl rfl
        rw [e]; rfl
      simp only [Option.map_some, Option.some.injEq]
      cases o.only_ind
      · simp only [Bool.false_eq_true, if_false]
        constructor
        · intro hx
          obtain ⟨y, hy⟩ := add_fin_isFin _ _ _ hx
          obtain ⟨z, rfl⟩ := transform_isFin _ _ _ hy
          rw [transform_fin, fin_addV] at hx
          rw [vec, fin_addV, ← rotation_add, fin_inj3 _ _ hx]
        · intro hx
          obtain ⟨y, hy⟩ := add_fin_isFin _ _ _ hx
          obtain ⟨z, hz⟩ := transform_isFin _ _ _ hy
          obtain ⟨z, rfl⟩ := unref z hz
          rw [vec, fin_addV, ← rotation_add] at hx
          rw [transform_fin, fin_addV, inj _ _ (fin_inj3 _ _ hx)]
      · simp only [if_true]
        constructor
        · intro hx
          obtain ⟨z, rfl⟩ := transform_isFin _ _ _ hx
          rw [transform_fin] at hx
          rw [vec, fin_inj3 _ _ hx]
        · intro hx
          obtain ⟨z, hz⟩ := transform_isFin _ _ _ hx
          obtain ⟨z, rfl⟩ := unref z hz
          rw [vec] at hx
          rw [transform_fin, inj _ _ (fin_inj3 _ _ hx)]

/-- C125: mirror images.  Reflecting the construction, the whole history (positions, winds, evaluation points; yaw and skew
angles change sign) and the control points reflects the velocities of the tangential vorticity: the same exceptions are
raised, and the velocity at a point is a number `v` exactly when the mirrored problem gives `S v`.  Any model, any number of
cylinders, with or without ground effect and `no_wake`; no wind may blow exactly against the shaft direction at rest. -/
theorem C125_mirror (mini : (ℝ → Num) → ℝ) (S : M3 ℝ) (hS : Reflection S) (R : ℝ) (hub shaft vert U0 : V3 ℝ) (L : Option Num) (G : Bool)
    (M : String) (ho : Orthonormal shaft vert) (h : List Op) (h0 : ¬ Opposed shaft vert U0) (hw : ∀ U, Op.wind U ∈ h → ¬ Opposed shaft vert U)
    (pts : List (V3 ℝ)) (o : Opts) (hl : o.longi = false) (hr : o.root = false) :
    let w := (WT.new R hub shaft vert U0 L G M).run mini h
    let w' := (WT.new R (M3.mulVec S hub) (M3.mulVec S shaft) (M3.mulVec S vert) (M3.mulVec S U0) L G M).run mini (h.map (Op.mirrored S))
    (∀ e, (w.computeU pts o).1 = .error e ↔ (w'.computeU (pts.map (M3.mulVec S)) o).1 = .error e) ∧
    ∀ u u', (w.computeU pts o).1 = .ok u → (w'.computeU (pts.map (M3.mulVec S)) o).1 = .ok u' →
      ∀ (i : ℕ) (v : V3 ℝ), u[i]? = some (V3.fin v) ↔ u'[i]? = some (V3.fin (M3.mulVec S v)) := by
  intro w w'
  exact mir_computeU S hS shaft vert R ho w w' (mir_run mini S hS shaft vert R ho h _ _ hw (mir_new S shaft vert R _ h0 hub U0 L G M rfl)) pts o hl hr

theorem mirrorIn_vec (n a : V3 ℝ) : M3.mulVec (mirrorIn n) a = a - V3.smul (2 * V3.dot a n) n := by
  ext <;> simp [M3.mulVec, mirrorIn, V3.dot] <;> ring

theorem mirrorIn_refl (n : V3 ℝ) (hn : V3.dot n n = 1) : Reflection (mirrorIn n) := by
  have h : n.x*n.x + n.y*n.y + n.z*n.z = 1 := hn
  refine ⟨?_, ?_⟩
  · rw [M3.ext_iff]
    simp only [M3.mul, M3.transpose, M3.id, mirrorIn]
    refine ⟨?_, ?_, ?_, ?_, ?_, ?_, ?_, ?_, ?_⟩
    · linear_combination 4*n.x*n.x*h
    · linear_combination 4*n.x*n.y*h
    · linear_combination 4*n.x*n.z*h
    · linear_combination 4*n.y*n.x*h
    · linear_combination 4*n.y*n.y*h
    · linear_combination 4*n.y*n.z*h
    · linear_combination 4*n.z*n.x*h
    · linear_combination 4*n.z*n.y*h
    · linear_combination 4*n.z*n.z*h
  · simp only [M3.det, mirrorIn]
    linear_combination (-2)*h

theorem mirrorIn_fix (n a : V3 ℝ) (h : V3.dot a n = 0) : M3.mulVec (mirrorIn n) a = a := by
  rw [mirrorIn_vec, h]
  ext <;> simp

/-- a history whose positions and winds lie in the mirror plane: mirroring it only reverses its angles -/
theorem mirrored_run (mini : (ℝ → Num) → ℝ) (n : V3 ℝ) (h : List Op) : ∀ w : WT,
    (∀ p, Op.position p ∈ h → V3.dot p n = 0) → (∀ U, Op.wind U ∈ h → V3.dot U n = 0) →
    w.run mini (h.map (Op.mirrored (mirrorIn n))) = w.run mini (h.map Op.reversed) := by
  induction h with
  | nil => intro w _ _; rfl
  | cons op h ih =>
    intro w hp hw
    have e : w.step mini (op.mirrored (mirrorIn n)) = w.step mini op.reversed := by
      cases op with
      | yaw y => rfl
      | chi c => rfl
      | loading a => rfl
      | position p => simp only [Op.mirrored, Op.reversed, mirrorIn_fix n p (hp p (List.mem_cons_self ..))]
      | wind U => simp only [Op.mirrored, Op.reversed, mirrorIn_fix n U (hw U (List.mem_cons_self ..))]
      | eval pts o => exact (computeU_state w _ o).trans (computeU_state w _ o).symm
    change (w.step mini (op.mirrored (mirrorIn n))).run mini _ = (w.step mini op.reversed).run mini _
    rw [e]
    exact ih _ (fun p hpp => hp p (List.mem_cons_of_mem _ hpp)) (fun U hU => hw U (List.mem_cons_of_mem _ hU))

/-- C125: yawing left or right.  When the turbine and the winds stay in the vertical plane of the shaft at rest (`n` is its
unit normal), reversing every yaw (and every skew angle given by hand) reflects the velocity field in that plane. -/
theorem C125_yaw_reversal (mini : (ℝ → Num) → ℝ) (R : ℝ) (hub shaft vert U0 : V3 ℝ) (L : Option Num) (G : Bool)
    (M : String) (ho : Orthonormal shaft vert) (h : List Op) (h0 : ¬ Opposed shaft vert U0) (hw : ∀ U, Op.wind U ∈ h → ¬ Opposed shaft vert U)
    (n : V3 ℝ) (hn : n = V3.cross vert shaft) (hub0 : V3.dot hub n = 0) (hU0 : V3.dot U0 n = 0)
    (hp : ∀ p, Op.position p ∈ h → V3.dot p n = 0) (hwn : ∀ U, Op.wind U ∈ h → V3.dot U n = 0)
    (pts pts' : List (V3 ℝ)) (hpts : pts' = pts.map fun p => p - V3.smul (2 * V3.dot p n) n)
    (o : Opts) (hl : o.longi = false) (hr : o.root = false) :
    let w := (WT.new R hub shaft vert U0 L G M).run mini h
    let w' := (WT.new R hub shaft vert U0 L G M).run mini (h.map Op.reversed)
    (∀ e, (w.computeU pts o).1 = .error e ↔ (w'.computeU pts' o).1 = .error e) ∧
    ∀ u u', (w.computeU pts o).1 = .ok u → (w'.computeU pts' o).1 = .ok u' →
      ∀ (i : ℕ) (v : V3 ℝ), u[i]? = some (V3.fin v) ↔ u'[i]? = some (V3.fin (v - V3.smul (2 * V3.dot v n) n)) := by
  have hs : V3.dot shaft n = 0 := by rw [hn]; simp only [V3.dot, V3.cross]; ring
  have hv : V3.dot vert n = 0 := by rw [hn]; simp only [V3.dot, V3.cross]; ring
  have hnn : V3.dot n n = 1 := by rw [hn]; exact (cross_unit vert shaft ho.vert ho.shaft ho.orth).1
  have key := C125_mirror mini (mirrorIn n) (mirrorIn_refl n hnn) R hub shaft vert U0 L G M ho h h0 hw pts o hl hr
  have e : (fun p : V3 ℝ => p - V3.smul (2 * V3.dot p n) n) = M3.mulVec (mirrorIn n) := by funext p; exact (mirrorIn_vec n p).symm
  rw [e] at hpts
  rw [mirrorIn_fix n hub hub0, mirrorIn_fix n shaft hs, mirrorIn_fix n vert hv, mirrorIn_fix n U0 hU0, mirrored_run mini n h _ hp hwn, ← hpts] at key
  simp only [mirrorIn_vec] at key
  exact key

theorem reversed_fix (h : List Op) (hy : ∀ y, Op.yaw y ∈ h → y = 0) (hc : ∀ c, Op.chi c ∈ h → c = none ∨ c = some (.fin 0)) :
    h.map Op.reversed = h := by
  conv_rhs => rw [← List.map_id h]
  apply List.map_congr_left
  intro op hop
  cases op with
  | yaw y => rw [hy y hop]; simp [Op.reversed]
  | chi c =>
    rcases hc c hop with e | e
    · rw [e]; rfl
    · rw [e]; simp [Op.reversed]
  | _ => rfl

/-- C125: an aligned turbine has a laterally symmetric field, without lateral velocity in its plane of symmetry. -/
theorem C125_symmetric (mini : (ℝ → Num) → ℝ) (R : ℝ) (hub shaft vert U0 : V3 ℝ) (L : Option Num) (G : Bool)
    (M : String) (ho : Orthonormal shaft vert) (h : List Op) (h0 : ¬ Opposed shaft vert U0) (hw : ∀ U, Op.wind U ∈ h → ¬ Opposed shaft vert U)
    (n : V3 ℝ) (hn : n = V3.cross vert shaft) (hub0 : V3.dot hub n = 0) (hU0 : V3.dot U0 n = 0)
    (hp : ∀ p, Op.position p ∈ h → V3.dot p n = 0) (hwn : ∀ U, Op.wind U ∈ h → V3.dot U n = 0)
    (hy : ∀ y, Op.yaw y ∈ h → y = 0) (hc : ∀ c, Op.chi c ∈ h → c = none ∨ c = some (.fin 0))
    (pts : List (V3 ℝ)) (o : Opts) (hl : o.longi = false) (hr : o.root = false) (u : List (V3 Num)) :
    let w := (WT.new R hub shaft vert U0 L G M).run mini h
    (w.computeU pts o).1 = .ok u →
    (∃ u', (w.computeU (pts.map fun p => p - V3.smul (2 * V3.dot p n) n) o).1 = .ok u' ∧
      ∀ (i : ℕ) (v : V3 ℝ), u[i]? = some (V3.fin v) ↔ u'[i]? = some (V3.fin (v - V3.smul (2 * V3.dot v n) n))) ∧
    ((∀ p ∈ pts, V3.dot p n = 0) → ∀ (i : ℕ) (v : V3 ℝ), u[i]? = some (V3.fin v) → V3.dot v n = 0) := by
  intro w hu
  have key := C125_yaw_reversal mini R hub shaft vert U0 L G M ho h h0 hw n hn hub0 hU0 hp hwn pts _ rfl o hl hr
  rw [reversed_fix h hy hc] at key
  obtain ⟨k1, k2⟩ := key
  have hnn : V3.dot n n = 1 := by rw [hn]; exact (cross_unit vert shaft ho.vert ho.shaft ho.orth).1
  constructor
  · cases hu' : (w.computeU (pts.map fun p => p - V3.smul (2 * V3.dot p n) n) o).1 with
    | error e =>
      have := (k1 e).mpr hu'
      rw [show (((WT.new R hub shaft vert U0 L G M).run mini h).computeU pts o).1 = .ok u from hu] at this
      exact nomatch this
    | ok u' => exact ⟨u', rfl, k2 u u' hu hu'⟩
  · intro hpl i v hv
    have e : (pts.map fun p => p - V3.smul (2 * V3.dot p n) n) = pts := by
      conv_rhs => rw [← List.map_id pts]
      apply List.map_congr_left
      intro p hpp
      rw [hpl p hpp]
      ext <;> simp
    rw [e] at k2
    have h2 := (k2 u u hu hu i v).mp hv
    rw [hv] at h2
    have h3 := fin_inj3 _ _ (Option.some.inj h2)
    have h4 : V3.dot v n = V3.dot (v - V3.smul (2 * V3.dot v n) n) n := by rw [← h3]
    have h5 : V3.dot (v - V3.smul (2 * V3.dot v n) n) n = V3.dot v n - 2 * V3.dot v n * V3.dot n n := by
      simp only [V3.dot, V3.sub_x, V3.sub_y, V3.sub_z, V3.smul_x, V3.smul_y, V3.smul_z]; ring
    rw [h5, hnn] at h4
    linarith

/-- C125 (the excluded case): when the wind blows against the shaft direction at rest, a turbine turned by `+π` faces it
without skew, but the same turbine turned by `-π` has the skew angle `2π`: with the far-field model the first evaluation
succeeds and the second raises. -/
theorem C125_opposed (mini : (ℝ → Num) → ℝ) (p : V3 ℝ) (γ : ℝ) :
    let t := WT.new 1 0 ⟨0, 0, 1⟩ ⟨0, 1, 0⟩ ⟨0, 0, -1⟩ (some .pinf) false "VCFF"
    let a : LoadArgs := { Ct := some [.fin 1], gamma_t_Ct := some fun _ => [.fin γ] }
    γ ≠ 0 →
    (∃ u, ((t.run mini [.loading a, .yaw Real.pi]).computeU [p] {}).1 = .ok u) ∧
    ∃ e, ((t.run mini [.loading a, .yaw (-Real.pi)]).computeU [p] {}).1 = .error e := by
  intro t a hγ
  have ho : Orthonormal ⟨0, 0, 1⟩ ⟨0, 1, 0⟩ := ⟨by simp [V3.dot], by simp [V3.dot], by simp [V3.dot]⟩
  have chi : ∀ y : ℝ, (t.run mini [.loading a, .yaw y]).chiAuto = .fin (Real.pi - y) := by
    intro y
    have fr : FrameInv ⟨0, 0, 1⟩ ⟨0, 1, 0⟩ 1 (t.run mini [.loading a, .yaw y]) := frame_run mini _ _ _ _ _ (frame_new _ _ _ _ _ _ _ _)
    have hU : (t.run mini [.loading a, .yaw y]).U0_g = ⟨0, 0, -1⟩ := rfl
    have hyw : (t.run mini [.loading a, .yaw y]).yawWind = .fin Real.pi := by
      have n1 : V3.norm (⟨0, 0, -1⟩ : V3 ℝ) = 1 := by show √((0:ℝ)^2 + 0^2 + (-1)^2) = 1; simp
      have e : (⟨0, 0, -1⟩ : V3 ℝ) - V3.smul (V3.dot (⟨0, 0, -1⟩ : V3 ℝ) ⟨0, 1, 0⟩) ⟨0, 1, 0⟩ = ⟨0, 0, -1⟩ := by
        ext <;> simp [V3.dot]
      unfold WT.yawWind
      simp only
      rw [fr.e_horz_g, fr.e_vert_g, horzOf_ortho _ _ ho, hU, e, n1]
      rw [sdiv_fin _ one_ne_zero, fin_cross, fin_dot, fin_dot]
      have e1 : V3.dot (V3.smul (1/1) (⟨0, 0, -1⟩ : V3 ℝ)) ⟨0, 0, 1⟩ = -1 := by simp [V3.dot]
      have e2 : V3.dot (V3.cross (⟨0, 0, 1⟩ : V3 ℝ) ⟨0, 0, -1⟩) ⟨0, 1, 0⟩ = 0 := by simp [V3.dot, V3.cross]
      rw [e1, e2]
      simp [Num.sign, Num.arccos, Num.Eqv]
    have hh : horizontal ⟨0, 1, 0⟩ (t.run mini [.loading a, .yaw y]).U0_g ≠ 0 := by
      rw [hU]; intro h; have := congrArg V3.z h; simp [horizontal, V3.dot] at this
    obtain ⟨χ, θ, c1, c2, c3, -⟩ := chiAuto_eq _ _ _ ho _ fr hh
    rw [c1, c3]
    rw [hyw] at c2
    have : Real.pi = θ := by simpa using c2
    rw [← this]; rfl
  have val : ∀ y : ℝ, ((t.run mini [.loading a, .yaw y]).computeU [p] {}).1 =
      match (t.run mini [.loading a, .yaw y]).inducedC (.fin (Real.pi - y)) [.fin γ] [p] {} with
        | .error e => .error e
        | .ok u => .ok ((t.run mini [.loading a, .yaw y]).toGlobal false u) := by
    intro y
    rw [computeU_val]
    have h1 : (t.run mini [.loading a, .yaw y]).gamma_t = some [.fin γ] := rfl
    have h2 : usedChi (t.run mini [.loading a, .yaw y]) = .fin (Real.pi - y) := chi y
    rw [h1, h2]
    rfl
  have ind : ∀ y : ℝ, (t.run mini [.loading a, .yaw y]).inducedC (.fin (Real.pi - y)) [.fin γ] [p] {} =
      overY (singleBody (.fin (Real.pi - y)) (Num.tan (.fin (Real.pi - y))) "VCFF" (.fin γ) none 1 {}) [0]
        [relPts ([p].map (transformT (t.run mini [.loading a, .yaw y]).T_c2g)) (transformT (t.run mini [.loading a, .yaw y]).T_c2g 0)] := by
    intro y; rfl
  have ht : True ∧ ¬ Num.Eqv (.fin γ) 0 := ⟨trivial, by simpa [Num.Eqv] using hγ⟩
  constructor
  · rw [val, ind]
    have hy : ¬ yawed (.fin (Real.pi - Real.pi)) := by
      unfold yawed; rw [sub_self]; simp [Num.abs]; norm_num
    have n1 : ¬ "VCFF" = "VC" := by decide
    simp only [overY, singleBody, if_pos ht, tangPart, if_neg hy, accum, if_neg n1, if_true]
    exact ⟨_, rfl⟩
  · rw [val, ind]
    have hy : yawed (.fin (Real.pi - -Real.pi)) := by
      unfold yawed
      have h3 := Real.pi_gt_three
      rw [Num.abs_fin, Num.lt_fin, abs_of_pos (by linarith)]
      linarith
    have n1 : ¬ "VCFF" = "VC" := by decide
    simp only [overY, singleBody, if_pos ht, tangPart, if_pos hy, accum, if_neg n1]
    exact ⟨_, rfl⟩

/-- the hypotheses of `C125_yaw_reversal` are met by a turbine moved along its axis, re-winded, yawed and re-yawed -/
example : let shaft : V3 ℝ := ⟨0, 0, 1⟩; let vert : V3 ℝ := ⟨0, 1, 0⟩; let n : V3 ℝ := V3.cross vert shaft
    let h : List Op := [.yaw 0.3, .position ⟨0, 90, 500⟩, .wind ⟨0, 0.1, 8⟩, .loading { Ct := some [.fin (1/2)] }, .yaw (-0.2), .chi none]
    Orthonormal shaft vert ∧ n = ⟨1, 0, 0⟩ ∧ ¬ Opposed shaft vert ⟨0, 0, 10⟩ ∧ (∀ U, Op.wind U ∈ h → ¬ Opposed shaft vert U) ∧
    (∀ p, Op.position p ∈ h → V3.dot p n = 0) ∧ (∀ U, Op.wind U ∈ h → V3.dot U n = 0) ∧ h.map Op.reversed ≠ h ∧
    Reflection (mirrorIn n) ∧ M3.mulVec (mirrorIn n) ⟨3, 4, 5⟩ = ⟨-3, 4, 5⟩ := by
  have hn : V3.cross (⟨0, 1, 0⟩ : V3 ℝ) ⟨0, 0, 1⟩ = ⟨1, 0, 0⟩ := by ext <;> simp [V3.cross]
  have opp : ∀ b c : ℝ, 0 < c → ¬ Opposed ⟨0, 0, 1⟩ ⟨0, 1, 0⟩ ⟨0, b, c⟩ := by
    rintro b c hc ⟨k, hk, e⟩
    have := congrArg V3.z e
    simp [horizontal, V3.dot] at this
    linarith
  intro shaft vert n h
  refine ⟨⟨by simp [V3.dot, shaft], by simp [V3.dot, vert], by simp [V3.dot, shaft, vert]⟩, hn, opp 0 10 (by norm_num), ?_, ?_, ?_, ?_, ?_, ?_⟩
  · intro U hU
    simp [h] at hU
    rw [hU]; exact opp _ _ (by norm_num)
  · intro p hp
    simp [h] at hp
    rw [hp]; change V3.dot _ (V3.cross _ _) = 0; rw [hn]; simp [V3.dot]
  · intro U hU
    simp [h] at hU
    rw [hU]; change V3.dot _ (V3.cross _ _) = 0; rw [hn]; simp [V3.dot]
  · intro e
    have := congrArg List.head? e
    simp [h, Op.reversed] at this
    norm_num at this
  · exact mirrorIn_refl _ (by change V3.dot (V3.cross _ _) (V3.cross _ _) = 1; rw [hn]; simp [V3.dot])
  · change M3.mulVec (mirrorIn (V3.cross _ _)) _ = _
    rw [hn]
    ext <;> simp [M3.mulVec, mirrorIn]; norm_num

end Wiz
