import Verif.Lemmas.TurbineGround
import Verif.Props.TurbineState

/-! # The velocity field of a turbine (C13, C15–C17) -/
namespace Wiz
open Classical

/-! ### C13 -/

theorem ok_cases {w : WT} {pts : List (V3 ℝ)} {o : Opts} {u : List (V3 Num)} (h : (w.computeU pts o).1 = .ok u) :
    ∃ gt c, w.gamma_t = some gt ∧ w.inducedC (usedChi w) gt pts o = .ok c ∧ c.length = pts.length ∧
      u = w.toGlobal o.only_ind (if o.no_wake then zeroWake w.R (relC w pts) c else c) := by
  rw [computeU_val] at h
  cases hg : w.gamma_t with
  | none => rw [hg] at h; exact nomatch h
  | some gt =>
    rw [hg] at h
    simp only at h
    cases hi : w.inducedC (usedChi w) gt pts o with
    | error e => rw [hi] at h; exact nomatch h
    | ok c =>
      rw [hi] at h
      exact ⟨gt, c, rfl, hi, inducedC_length _ _ _ _ _ _ hi, (Except.ok.inj h).symm⟩

/-- evaluations of a turbine and of the same turbine in rotated axes -/
theorem rot_computeU (Q : M3 ℝ) (hQ : Rotation Q) (shaft vert : V3 ℝ) (R : ℝ) (ho : Orthonormal shaft vert) (w w' : WT)
    (hr : RotRel Q shaft vert R w w') (pts : List (V3 ℝ)) (o : Opts) :
    (∀ e, (w.computeU pts o).1 = .error e ↔ (w'.computeU (pts.map (M3.mulVec Q)) o).1 = .error e) ∧
    ∀ u u', (w.computeU pts o).1 = .ok u → (w'.computeU (pts.map (M3.mulVec Q)) o).1 = .ok u' →
      ∀ (i : ℕ) (v : V3 ℝ), u[i]? = some (V3.fin v) ↔ u'[i]? = some (V3.fin (M3.mulVec Q v)) := by
  have hT := rot_T Q hQ shaft vert R w w' hr
  have hc := rot_chi Q hQ shaft vert R ho w w' hr
  have hR : w'.R = w.R := hr.f'.R.trans hr.f.R.symm
  have hrel : relC w' (pts.map (M3.mulVec Q)) = relC w pts := by
    unfold relC; rw [hT, rot_map Q hQ, hr.hub, rot_transformT Q _ hQ]
  constructor
  · intro e
    rw [computeU_val, computeU_val, hr.gt, hc]
    cases w.gamma_t with
    | none => rfl
    | some gt =>
      simp only [rot_inducedC Q hQ shaft vert R w w' hr]
      cases w.inducedC (usedChi w) gt pts o with
      | error e => rfl
      | ok u => simp
  · intro u u' hu hu' i v
    obtain ⟨gt, c, e1, e2, e3, e4⟩ := ok_cases hu
    obtain ⟨gt', c', e1', e2', e3', e4'⟩ := ok_cases hu'
    rw [hr.gt, e1] at e1'
    have hgg := Option.some.inj e1'
    rw [hc, rot_inducedC Q hQ shaft vert R w w' hr, ← hgg, e2] at e2'
    have hcc := Except.ok.inj e2'
    rw [← hcc, hrel, hR] at e4'
    rw [e4, e4']
    generalize (if o.no_wake then zeroWake w.R (relC w pts) c else c) = d
    simp only [WT.toGlobal, List.getElem?_map, hT, hr.wind]
    cases hd : d[i]? with
    | none => simp
    | some x =>
      simp only [Option.map_some, Option.some.injEq]
      cases o.only_ind
      · simp only [Bool.false_eq_true, if_false]
        constructor
        · intro hx
          obtain ⟨y, hy⟩ := add_fin_isFin _ _ _ hx
          obtain ⟨z, rfl⟩ := transform_isFin _ _ _ hy
          rw [transform_fin, fin_addV] at hx
          rw [transform_fin, mul_mulVec, fin_addV, ← rotation_add, fin_inj3 _ _ hx]
        · intro hx
          obtain ⟨y, hy⟩ := add_fin_isFin _ _ _ hx
          obtain ⟨z, rfl⟩ := transform_isFin _ _ _ hy
          rw [transform_fin, mul_mulVec, fin_addV, ← rotation_add] at hx
          rw [transform_fin, fin_addV, rotation_inj Q hQ _ _ (fin_inj3 _ _ hx)]
      · simp only [if_true]
        constructor
        · intro hx
          obtain ⟨z, rfl⟩ := transform_isFin _ _ _ hx
          rw [transform_fin] at hx
          rw [transform_fin, mul_mulVec, fin_inj3 _ _ hx]
        · intro hx
          obtain ⟨z, rfl⟩ := transform_isFin _ _ _ hx
          rw [transform_fin, mul_mulVec] at hx
          rw [transform_fin, rotation_inj Q hQ _ _ (fin_inj3 _ _ hx)]

/-- C13: expressing the construction, the whole history and the control points in rotated global axes
rotates the velocities: the same exceptions are raised, and at each point the velocity is a number `v`
exactly when the rotated problem gives `Q v`.  (Any options, any model, with or without ground.) -/
theorem C13_rotation (mini : (ℝ → Num) → ℝ) (Q : M3 ℝ) (hQ : Rotation Q) (R : ℝ) (hub shaft vert U0 : V3 ℝ) (L : Option Num) (G : Bool)
    (M : String) (ho : Orthonormal shaft vert) (h : List Op) (pts : List (V3 ℝ)) (o : Opts) :
    let w := (WT.new R hub shaft vert U0 L G M).run mini h
    let w' := (WT.new R (M3.mulVec Q hub) (M3.mulVec Q shaft) (M3.mulVec Q vert) (M3.mulVec Q U0) L G M).run mini (h.map (Op.rotated Q))
    (∀ e, (w.computeU pts o).1 = .error e ↔ (w'.computeU (pts.map (M3.mulVec Q)) o).1 = .error e) ∧
    ∀ u u', (w.computeU pts o).1 = .ok u → (w'.computeU (pts.map (M3.mulVec Q)) o).1 = .ok u' →
      ∀ (i : ℕ) (v : V3 ℝ), u[i]? = some (V3.fin v) ↔ u'[i]? = some (V3.fin (M3.mulVec Q v)) := by
  intro w w'
  exact rot_computeU Q hQ shaft vert R ho w w' (rot_run mini Q hQ shaft vert R ho h _ _ (rot_new Q R hub shaft vert U0 L G M)) pts o

/-- the change from the default axes (z downwind, y up) to the x-downwind, z-up convention -/
example : Rotation ⟨0,0,1, 1,0,0, 0,1,0⟩ ∧ M3.mulVec (⟨0,0,1, 1,0,0, 0,1,0⟩ : M3 ℝ) ⟨0,0,1⟩ = ⟨1,0,0⟩ ∧
    M3.mulVec (⟨0,0,1, 1,0,0, 0,1,0⟩ : M3 ℝ) ⟨0,1,0⟩ = ⟨0,0,1⟩ := by
  refine ⟨⟨?_, ?_⟩, ?_, ?_⟩
  · simp [M3.mul, M3.transpose, M3.id]
  · simp [M3.det]
  · simp [M3.mulVec]
  · simp [M3.mulVec]

/-! ### C15 -/

theorem getElem_getD {l : List (V3 Num)} {i : ℕ} {x : V3 Num} (h : l[i]? = some x) : l.getD i 0 = x := by
  simp [List.getD_eq_getElem?_getD, h]

/-- in the cylinder frame: no vertical velocity on the ground -/
theorem inducedC_ground (w : WT) (chi : Num) (gt : List Num) (pts : List (V3 ℝ)) (o : Opts) (c : List (V3 Num))
    (hg : o.ground.getD w.Ground = true) (hl : o.longi = false) (hr : o.root = false) (hy : ¬ yawed chi)
    (h : w.inducedC chi gt pts o = .ok c) (i : ℕ) (p : V3 ℝ) (hp : pts[i]? = some p) (hp0 : (transformT w.T_c2g p).y = 0)
    (t : ℝ) (ht : (c.getD i 0).y = .fin t) : t = 0 := by
  unfold WT.inducedC at h
  simp only [hg, hr, if_true] at h
  have hz : (pts.map fun _ => (0 : V3 Num)).length = pts.length := by simp
  have hA : (relPts (pts.map (transformT w.T_c2g)) (transformT w.T_c2g w.r_hub))[i]? =
      some ⟨(transformT w.T_c2g p).x - (transformT w.T_c2g w.r_hub).x, -(transformT w.T_c2g w.r_hub).y, (transformT w.T_c2g p).z - (transformT w.T_c2g w.r_hub).z⟩ := by
    simp only [relPts, List.getElem?_map, hp, Option.map_some]; congr 1; ext <;> simp [hp0]
  have hB : (mirrorPts (pts.map (transformT w.T_c2g)) (transformT w.T_c2g w.r_hub))[i]? =
      some ⟨(transformT w.T_c2g p).x - (transformT w.T_c2g w.r_hub).x, -(-(transformT w.T_c2g w.r_hub).y), (transformT w.T_c2g p).z - (transformT w.T_c2g w.r_hub).z⟩ := by
    simp only [mirrorPts, List.getElem?_map, hp, Option.map_some]; congr 1; ext <;> simp [hp0]; ring
  split at h
  · rename_i g
    unfold overY overY overY singleBody at h
    simp only [hl] at h
    by_cases ht0 : o.tang ∧ ¬ Num.Eqv g 0
    · simp only [if_pos ht0] at h
      rcases tangPart_odd chi (Num.tan chi) (o.Model.getD w.Model) g w.R o.R_far_field hy with ⟨e, he⟩ | ⟨K, hK, hlen, hKe⟩
      · simp only [he, accum] at h
        exact nomatch h
      · simp only [hKe, accum] at h
        have h := Except.ok.inj h
        rw [← h] at ht
        rw [getD_addFields _ _ (by rw [hlen, length_addFields _ _ (by rw [hlen]; simp [relPts])]; simp [mirrorPts]),
          getD_addFields _ _ (by rw [hlen]; simp [relPts]), getD_zeros, zero_add, V3.add_y] at ht
        obtain ⟨⟨a, ha⟩, ⟨b, hb⟩⟩ := add_isFin ⟨_, ht⟩
        have := hK _ _ i _ _ _ a b hA hB ha hb
        rw [ha, hb] at ht
        simp at ht
        rw [← ht, this]
    · simp only [if_neg ht0] at h
      have h := Except.ok.inj h
      rw [← h, getD_zeros] at ht
      simp at ht
      exact ht.symm
  · unfold multiPart at h
    split at h
    · split at h
      · exact nomatch h
      · split at h
        · exact nomatch h
        · split at h
          · exact nomatch h
          · rename_i r _ _
            simp only [hl, if_neg hy] at h
            have h := Except.ok.inj h
            rw [← h] at ht
            split at ht
            · rw [getD_addFields _ _ (by rw [vcsTang_one_length]; simp), getD_zeros, zero_add] at ht
              exact vcsTang_ground _ _ _ _ i (transformT w.T_c2g p) (by rw [List.getElem?_map, hp]; rfl) hp0 t ht
            · rw [getD_zeros] at ht
              simp at ht
              exact ht.symm
    · exact nomatch h

/-- C15: with ground effect and tangential vorticity only, an unyawed turbine (stored skew angle at most
1e-7) induces no vertical velocity at the points of the ground plane `vert·x = 0`: for every model, one
cylinder or several, any hub height, in any batch. -/
theorem C15_no_penetration (mini : (ℝ → Num) → ℝ) (R : ℝ) (hub shaft vert U0 : V3 ℝ) (L : Option Num) (G : Bool)
    (M : String) (ho : Orthonormal shaft vert) (h : List Op) (pts : List (V3 ℝ)) (o : Opts) :
    let w := (WT.new R hub shaft vert U0 L G M).run mini h
    o.ground.getD w.Ground = true → o.longi = false → o.root = false → o.only_ind = true →
    (∀ χ, (w.computeU pts o).2.chi = some χ → ¬ (Num.fin 1e-7 < Num.abs χ)) →
    ∀ u, (w.computeU pts o).1 = .ok u →
      ∀ (i : ℕ) (p v : V3 ℝ), pts[i]? = some p → V3.dot vert p = 0 → u[i]? = some (V3.fin v) → V3.dot vert v = 0 := by
  intro w hg hl hr hoi hchi u hu i p v hp hp0 hv
  have hi := frame_run mini shaft vert R h _ (frame_new R hub shaft vert U0 L G M)
  obtain ⟨a, s, e1, -, e3, e4, e5, e6, e7, e8, e9⟩ := frame_cols shaft vert R ho w hi
  have hy : ¬ yawed (usedChi w) := by
    apply hchi (usedChi w)
    rw [computeU_state]; rfl
  obtain ⟨gt, c, c1, c2, c3, c4⟩ := ok_cases hu
  rw [hoi] at c4
  have hpy : (transformT w.T_c2g p).y = 0 := by
    rw [e1, transformT_cols]; show V3.dot p vert = 0; rw [dot_comm]; exact hp0
  have key : ∀ x : V3 ℝ, c[i]? = some (V3.fin x) → x.y = 0 := by
    intro x hx
    refine inducedC_ground w (usedChi w) gt pts o c hg hl hr hy c2 i p hp hpy x.y ?_
    rw [getElem_getD hx]; rfl
  rw [c4] at hv
  simp only [WT.toGlobal, List.getElem?_map, if_true] at hv
  cases hd : (if o.no_wake then zeroWake w.R (relC w pts) c else c)[i]? with
  | none => rw [hd] at hv; exact nomatch hv
  | some d =>
    rw [hd] at hv
    simp only [Option.map_some, Option.some.injEq] at hv
    obtain ⟨z, rfl⟩ := transform_isFin _ _ _ hv
    have hz0 : z.y = 0 := by
      cases hnw : o.no_wake
      · rw [hnw] at hd; exact key z hd
      · rw [hnw] at hd
        simp only [if_true, zeroWake, List.getElem?_zipWith] at hd
        rw [relC_get w pts i p hp] at hd
        cases hc : c[i]? with
        | none => rw [hc] at hd; exact nomatch hd
        | some y =>
          rw [hc] at hd
          simp only [Option.some.injEq] at hd
          split at hd
          · have := congrArg V3.y hd
            simp at this
            exact this.symm
          · rw [hd] at hc; exact key z hc
    rw [transform_fin] at hv
    have hv := fin_inj3 _ _ hv
    rw [← hv, e1]
    have : M3.mulVec (M3.ofCols a vert s) z = V3.smul z.x a + V3.smul z.y vert + V3.smul z.z s := by
      ext <;> simp [M3.mulVec, M3.ofCols] <;> ring
    have va : V3.dot vert a = 0 := by rw [dot_comm]; exact e6
    have vs : V3.dot vert s = 0 := by rw [dot_comm]; exact e8
    rw [this, hz0, dot_add_right, dot_add_right, dot_smul_right, dot_smul_right, dot_smul_right, va, vs]
    ring

theorem addCyls_eq (kernel : List (V3 ℝ) → Num → ℝ → List (V3 Num)) (hk : ∀ Y g R, (kernel Y g R).length = Y.length) (rel : List (V3 ℝ))
    (cyls : List (Num × ℝ)) (u : List (V3 Num)) (hu : u.length = rel.length) (i : ℕ) :
    (addCyls kernel rel cyls u).getD i 0 = u.getD i 0 + (addCyls kernel rel cyls (rel.map fun _ => 0)).getD i 0 := by
  rw [(addCyls_spec kernel rel (fun g R => hk _ _ _) cyls u hu).2 i,
    (addCyls_spec kernel rel (fun g R => hk _ _ _) cyls (rel.map fun _ => 0) (by simp)).2 i, getD_zeros, zero_add]

theorem addSkewCyls_eq (kernel : List (V3 ℝ) → Num → ℝ → Num → List (V3 Num)) (hk : ∀ Y g R m, (kernel Y g R m).length = Y.length) (rel : List (V3 ℝ))
    (cyls : List (Num × ℝ × Num)) : ∀ (u : List (V3 Num)), u.length = rel.length → ∀ i : ℕ,
    (addSkewCyls kernel rel cyls u).getD i 0 = u.getD i 0 + (addSkewCyls kernel rel cyls (rel.map fun _ => 0)).getD i 0 := by
  induction cyls with
  | nil => intro u hu i; simp only [addSkewCyls, List.foldl_nil, getD_zeros, add_zero]
  | cons c cyls ih =>
    intro u hu i
    have e : ∀ v, addSkewCyls kernel rel (c :: cyls) v = addSkewCyls kernel rel cyls (if 0 < Num.abs c.1 then addFields v (kernel rel c.1 c.2.1 c.2.2) else v) := fun v => rfl
    rw [e, e]
    by_cases hc : 0 < Num.abs c.1
    · simp only [if_pos hc]
      have hl : ∀ v : List (V3 Num), v.length = rel.length → v.length = (kernel rel c.1 c.2.1 c.2.2).length := fun v hv => by rw [hv, hk]
      rw [ih _ (by rw [length_addFields _ _ (hl u hu), hu]) i, ih (addFields (rel.map fun _ => 0) _) (by rw [length_addFields _ _ (hl _ (by simp))]; simp) i,
        getD_addFields _ _ (hl u hu), getD_addFields _ _ (hl _ (by simp)), getD_zeros, zero_add, add_assoc]
    · simp only [if_neg hc]
      exact ih u hu i

theorem mirror_eq_rel (pts : List (V3 ℝ)) (c : V3 ℝ) (hc : c.y = 0) : mirrorPts pts c = relPts pts c := by
  unfold mirrorPts relPts
  apply List.map_congr_left; intro p _; ext <;> simp [hc]

theorem vcs_double (pts : List (V3 ℝ)) (c : V3 ℝ) (hc : c.y = 0) (cy : List (Num × ℝ)) (i : ℕ) :
    (vcsTang pts [⟨c, cy⟩] 0 true).getD i 0 = (vcsTang pts [⟨c, cy⟩] 0 false).getD i 0 + (vcsTang pts [⟨c, cy⟩] 0 false).getD i 0 := by
  simp only [vcsTang, List.foldl_cons, List.foldl_nil, if_true, Bool.false_eq_true, if_false, mirror_eq_rel pts c hc]
  have hz : (pts.map fun _ => (0 : V3 Num)) = (relPts pts c).map fun _ => 0 := map_zero_congr _ _ (by simp [relPts])
  rw [hz, addCyls_eq _ (fun Y g R => vcTang_length _ _ _ _)]
  exact addCyls_length _ (fun Y g R => vcTang_length _ _ _ _) _ _ _ (by simp)

theorem svcs_double (pts : List (V3 ℝ)) (c : V3 ℝ) (hc : c.y = 0) (cy : List (Num × ℝ × Num)) (n : ℕ) (i : ℕ) :
    (svcsTang pts [⟨c, cy⟩] n true).getD i 0 = (svcsTang pts [⟨c, cy⟩] n false).getD i 0 + (svcsTang pts [⟨c, cy⟩] n false).getD i 0 := by
  simp only [svcsTang, List.foldl_cons, List.foldl_nil, if_true, Bool.false_eq_true, if_false, mirror_eq_rel pts c hc]
  have hz : (pts.map fun _ => (0 : V3 Num)) = (relPts pts c).map fun _ => 0 := map_zero_congr _ _ (by simp [relPts])
  rw [hz, addSkewCyls_eq _ (fun Y g R m => by simp [svcTang])]
  exact addSkewCyls_length _ (fun Y g R m => by simp [svcTang]) _ _ _ (by simp)

theorem inducedC_single (w : WT) (chi g : Num) (pts : List (V3 ℝ)) (o : Opts) (hr : o.root = false) :
    w.inducedC chi [g] pts o = overY (singleBody chi (Num.tan chi) (o.Model.getD w.Model) g w.gamma_l w.R o) (pts.map fun _ => 0)
      (if o.ground.getD w.Ground then [relC w pts, mirrorPts (pts.map (transformT w.T_c2g)) (transformT w.T_c2g w.r_hub)] else [relC w pts]) := by
  unfold WT.inducedC; simp only [hr]; rfl

theorem inducedC_multi (w : WT) (chi : Num) (gt : List Num) (hg : gt.length ≠ 1) (pts : List (V3 ℝ)) (o : Opts) (hr : o.root = false) :
    w.inducedC chi gt pts o = multiPart chi (Num.tan chi) (o.Model.getD w.Model) gt w.gamma_l w.r (transformT w.T_c2g w.r_hub)
      (o.ground.getD w.Ground) o (pts.map (transformT w.T_c2g)) (pts.map fun _ => 0) := by
  unfold WT.inducedC; simp only [hr]
  match gt, hg with
  | [], _ => rfl
  | [a], h => exact absurd rfl h
  | a :: b :: l, _ => rfl

theorem singleBody_noLongi (chi m : Num) (M : String) (g : Num) (gl : Option (List Num)) (R : ℝ) (o : Opts) (hl : o.longi = false)
    (Y : List (V3 ℝ)) (u : List (V3 Num)) :
    singleBody chi m M g gl R o Y u = if o.tang ∧ ¬ Num.Eqv g 0 then accum u (tangPart chi m M g R o.R_far_field Y) else .ok u := by
  unfold singleBody
  simp only [hl]
  generalize (if o.tang = true ∧ ¬ Num.Eqv g 0 then accum u (tangPart chi m M g R o.R_far_field Y) else .ok u) = e
  cases e <;> rfl

/-- in the cylinder frame: a rotor at ground level with ground effect induces twice as much -/
theorem inducedC_double (w : WT) (chi : Num) (gt : List Num) (pts : List (V3 ℝ)) (o : Opts) (c : List (V3 Num))
    (hl : o.longi = false) (hr : o.root = false) (hh : (transformT w.T_c2g w.r_hub).y = 0)
    (h : w.inducedC chi gt pts { o with ground := some false } = .ok c) :
    ∃ c', w.inducedC chi gt pts { o with ground := some true } = .ok c' ∧ ∀ i, c'.getD i 0 = c.getD i 0 + c.getD i 0 := by
  by_cases hg : gt.length = 1
  · match gt, hg with
    | [g], _ =>
      rw [inducedC_single _ _ _ _ _ (by exact hr)] at h ⊢
      simp only [Option.getD_some, if_true, Bool.false_eq_true, if_false, mirror_eq_rel _ _ hh, overY,
        show relPts (pts.map (transformT w.T_c2g)) (transformT w.T_c2g w.r_hub) = relC w pts from rfl] at h ⊢
      change (match singleBody chi _ _ g w.gamma_l w.R _ (relC w pts) _ with | .ok u => _ | .error e => _) = _ at h
      rw [singleBody_noLongi _ _ _ _ _ _ _ (by exact hl)] at h ⊢
      simp only [singleBody_noLongi _ _ _ _ _ _ { o with ground := some true } hl]
      by_cases ht0 : o.tang = true ∧ ¬ Num.Eqv g 0
      · simp only [if_pos ht0] at h ⊢
        change (match accum _ (tangPart chi _ _ g w.R o.R_far_field (relC w pts)) with | .ok u => Except.ok u | .error e => _) = _ at h
        cases hk : tangPart chi (Num.tan chi) (Option.getD o.Model w.Model) g w.R o.R_far_field (relC w pts) with
        | error e => rw [hk] at h; exact nomatch h
        | ok K =>
          have hlen := tangPart_length _ _ _ _ _ _ _ _ hk
          rw [hk] at h
          simp only [hk, accum] at h ⊢
          have h := Except.ok.inj h
          refine ⟨_, rfl, fun i => ?_⟩
          rw [← h]
          have h1 : ((pts.map fun _ => (0 : V3 Num))).length = K.length := by rw [hlen]; simp [relC, relPts]
          rw [getD_addFields _ _ (by rw [length_addFields _ _ h1, h1]), getD_addFields _ _ h1, getD_zeros, zero_add]
      · simp only [if_neg ht0] at h ⊢
        have h := Except.ok.inj h
        exact ⟨_, rfl, fun i => by rw [← h, getD_zeros, add_zero]⟩
  · rw [inducedC_multi _ _ _ hg _ _ (by exact hr)] at h ⊢
    simp only [Option.getD_some] at h ⊢
    unfold multiPart at h ⊢
    by_cases hM : o.Model.getD w.Model = "VC"
    · simp only [if_pos hM] at h ⊢
      cases hr' : w.r with
      | none => rw [hr'] at h; exact nomatch h
      | some r =>
        rw [hr'] at h
        simp only at h ⊢
        by_cases h1 : gt.length ≠ r.length
        · rw [if_pos h1] at h; exact nomatch h
        · simp only [if_neg h1] at h ⊢
          by_cases h2 : (w.gamma_l.any fun l => decide (l.length ≠ r.length)) = true
          · rw [if_pos h2] at h; exact nomatch h
          · simp only [if_neg h2, hl] at h ⊢
            have h := Except.ok.inj h
            refine ⟨_, rfl, fun i => ?_⟩
            rw [← h]
            by_cases ht : o.tang = true
            swap
            · simp only [if_neg ht, getD_zeros, add_zero]
            · simp only [if_pos ht]
              by_cases hy : yawed chi
              · simp only [if_pos hy]
                rw [getD_addFields _ _ (by rw [svcsTang_one_length]; simp), getD_addFields _ _ (by rw [svcsTang_one_length]; simp),
                  getD_zeros, zero_add, zero_add, svcs_double _ _ hh]
              · simp only [if_neg hy]
                rw [getD_addFields _ _ (by rw [vcsTang_one_length]; simp), getD_addFields _ _ (by rw [vcsTang_one_length]; simp),
                  getD_zeros, zero_add, zero_add, vcs_double _ _ hh]
    · simp only [if_neg hM] at h; exact nomatch h

theorem infSign_double (a : ℝ) : Num.infSign a + Num.infSign a = Num.infSign a := by
  unfold Num.infSign
  split
  · rfl
  · split <;> rfl

theorem fin_mul_double (a : ℝ) (x : Num) : Num.fin a * (x + x) = Num.fin a * x + Num.fin a * x := by
  cases x with
  | fin b => simp; ring
  | nan => rfl
  | pinf => exact (infSign_double a).symm
  | ninf => exact (infSign_double (-a)).symm

theorem transform_double (T : M3 ℝ) (v : V3 Num) : transform (M3.fin T) (v + v) = transform (M3.fin T) v + transform (M3.fin T) v := by
  ext
  · simp only [transform, M3.fin, V3.add_x, V3.add_y, V3.add_z, fin_mul_double]; abel
  · simp only [transform, M3.fin, V3.add_x, V3.add_y, V3.add_z, fin_mul_double]; abel
  · simp only [transform, M3.fin, V3.add_x, V3.add_y, V3.add_z, fin_mul_double]; abel

/-- C15: with the hub on the ground plane, the ground option exactly doubles the velocity induced by the
tangential vorticity, at every point, whatever the model, the skew, the number of cylinders (and the mask
`no_wake`). -/
theorem C15_doubling (mini : (ℝ → Num) → ℝ) (R : ℝ) (hub shaft vert U0 : V3 ℝ) (L : Option Num) (G : Bool)
    (M : String) (ho : Orthonormal shaft vert) (h : List Op) (pts : List (V3 ℝ)) (o : Opts) :
    let w := (WT.new R hub shaft vert U0 L G M).run mini h
    V3.dot vert w.r_hub = 0 → o.longi = false → o.root = false → o.only_ind = true →
    ∀ u, (w.computeU pts { o with ground := some false }).1 = .ok u →
      (w.computeU pts { o with ground := some true }).1 = .ok (u.map fun v => v + v) := by
  intro w hh hl hr hoi u hu
  have hi := frame_run mini shaft vert R h _ (frame_new R hub shaft vert U0 L G M)
  obtain ⟨a, s, e1, -, e3, e4, e5, e6, e7, e8, e9⟩ := frame_cols shaft vert R ho w hi
  have hh' : (transformT w.T_c2g w.r_hub).y = 0 := by
    rw [e1, transformT_cols]; show V3.dot w.r_hub vert = 0; rw [dot_comm]; exact hh
  obtain ⟨gt, c, c1, c2, c3, c4⟩ := ok_cases hu
  obtain ⟨c', d1, d2⟩ := inducedC_double w (usedChi w) gt pts o c hl hr hh' c2
  have hlen' := inducedC_length _ _ _ _ _ _ d1
  have hcc : c' = c.map fun v => v + v := by
    refine ext_getD (by rw [hlen', List.length_map, c3]) fun i => ?_
    rw [d2 i]
    simp only [List.getD_eq_getElem?_getD, List.getElem?_map]
    cases c[i]? <;> simp
  rw [computeU_val, c1]
  simp only [d1]
  rw [c4, hcc]
  simp only [hoi]
  congr 1
  have key : (if o.no_wake then zeroWake w.R (relC w pts) (c.map fun v => v + v) else c.map fun v => v + v) =
      (if o.no_wake then zeroWake w.R (relC w pts) c else c).map fun v => v + v := by
    cases o.no_wake
    · rfl
    · simp only [if_true, zeroWake, List.zipWith_map_right, List.map_zipWith]
      congr 1
      funext p v
      split <;> simp
  rw [key]
  simp only [WT.toGlobal, if_true, List.map_map]
  apply List.map_congr_left
  intro v _
  exact transform_double _ _

/-- a loaded turbine on the ground, and a point of the ground -/
example (mini : (ℝ → Num) → ℝ) : (∃ gt, (refTurbine.run mini [.loading refLoad]).gamma_t = some gt) ∧
    V3.dot ⟨0,1,0⟩ (refTurbine.run mini [.loading refLoad]).r_hub = 0 ∧ V3.dot (⟨0,1,0⟩ : V3 ℝ) ⟨3,0,5⟩ = 0 := by
  obtain ⟨r, Ct, hl⟩ := refTurbine_loaded mini refTurbine rfl
  have : refTurbine.run mini [.loading refLoad] = (refTurbine.updateLoading mini refLoad).2 := rfl
  rw [this, hl]
  refine ⟨⟨_, rfl⟩, ?_, ?_⟩
  · simp [refTurbine, WT.new, WT.updateYawPos, V3.dot]
  · simp [V3.dot]

/-! ### C16 -/

theorem rootPart_ok (chi m Gr : Num) (Y : List (V3 ℝ)) (hY : Y ≠ []) : ∃ v, rootPart chi m Gr Y = .ok v := by
  unfold rootPart
  split
  · unfold svcRoot svcRootPolar
    have : ¬ (Y.map toPolarPt = []) := by simpa using hY
    simp only [this, if_false]
    repeat' split
    all_goals exact ⟨_, rfl⟩
  · exact ⟨_, rfl⟩

theorem overY_ok (f : List (V3 ℝ) → List (V3 Num) → Except String (List (V3 Num))) (L : List (List (V3 ℝ)))
    (h : ∀ Y ∈ L, ∀ u, ∃ v, f Y u = .ok v) : ∀ u, ∃ v, overY f u L = .ok v := by
  induction L with
  | nil => intro u; exact ⟨u, rfl⟩
  | cons Y L ih =>
    intro u
    obtain ⟨v, hv⟩ := h Y (by simp) u
    unfold overY
    rw [hv]
    exact ih (fun Y hY => h Y (by simp [hY])) v

theorem accum_ok (u : List (V3 Num)) (v : Except String (List (V3 Num))) : (∃ x, accum u v = .ok x) ↔ ∃ x, v = .ok x := by
  cases v with
  | error e => constructor <;> rintro ⟨x, hx⟩ <;> exact nomatch hx
  | ok v => exact ⟨fun _ => ⟨_, rfl⟩, fun _ => ⟨_, rfl⟩⟩

/-- the root part never raises on a non-empty batch -/
theorem root_ok (w : WT) (chi : Num) (pts : List (V3 ℝ)) (hp : pts ≠ []) (o : Opts) (Yl : List (List (V3 ℝ))) (hY : ∀ Y ∈ Yl, Y ≠ []) (u0 : List (V3 Num)) :
    ∃ u1, (match o.root, w.Gamma_r with
    | true, some Gr => if ¬ Num.Eqv Gr 0 then overY (fun Y u => accum u (rootPart chi (Num.tan chi) Gr Y)) u0 Yl else .ok u0
    | _, _ => .ok u0) = .ok u1 := by
  split
  · split
    · exact overY_ok _ _ (fun Y hy u => (accum_ok _ _).2 (rootPart_ok _ _ _ _ (hY Y hy))) _
    · exact ⟨_, rfl⟩
  · exact ⟨_, rfl⟩

theorem tangPart_ok (chi m : Num) (M : String) (g : Num) (R Rff : ℝ) (Y : List (V3 ℝ)) :
    (∃ v, tangPart chi m M g R Rff Y = .ok v) ↔ M = "VC" ∨ (¬ yawed chi ∧ M ∈ ["VCFF", "VD", "SS"]) := by
  unfold tangPart
  by_cases hy : yawed chi
  · simp only [if_pos hy]
    by_cases hM : M = "VC"
    · simp [hM]
    · simp [hM, hy]
  · simp only [if_neg hy]
    by_cases h1 : M = "VC"
    · simp [h1]
    by_cases h2 : M = "VCFF"
    · simp [h2, hy]
    by_cases h3 : M = "VD"
    · simp [h3, hy]
    by_cases h4 : M = "SS"
    · simp [h4, hy]
    simp [h1, h2, h3, h4]

theorem longiPart_ok (chi m : Num) (M : String) (g : Num) (R : ℝ) (Y : List (V3 ℝ)) :
    (∃ v, longiPart chi m M g R Y = .ok v) ↔ M = "VC" := by
  unfold longiPart
  by_cases h1 : M = "VC" <;> simp [h1]

theorem singleBody_ok (chi m : Num) (M : String) (g : Num) (gl : Option (List Num)) (hgl : gl = none ∨ ∃ x, gl = some [x]) (R : ℝ) (o : Opts) (Y : List (V3 ℝ))
    (u : List (V3 Num)) : (∃ v, singleBody chi m M g gl R o Y u = .ok v) ↔
      ((o.tang = true ∧ ¬ Num.Eqv g 0 → M = "VC" ∨ (¬ yawed chi ∧ M ∈ ["VCFF", "VD", "SS"])) ∧
       (∀ x, o.longi = true → gl = some [x] → ¬ Num.Eqv x 0 → M = "VC")) := by
  unfold singleBody
  have tail : ∀ u, (∃ v, (match o.longi, gl with
      | true, some [g] => if ¬ Num.Eqv g 0 then accum u (longiPart chi m M g R Y) else .ok u
      | true, some _ => .error "ValueError"
      | _, _ => .ok u : Except String (List (V3 Num))) = .ok v) ↔ (∀ x, o.longi = true → gl = some [x] → ¬ Num.Eqv x 0 → M = "VC") := by
    intro u
    cases hlo : o.longi
    · simp
    rcases hgl with rfl | ⟨x, rfl⟩
    · simp
    · simp only
      by_cases hx : Num.Eqv x 0
      · rw [if_neg (not_not.2 hx)]
        exact ⟨fun _ x' _ he h => absurd (by rw [← (List.cons.inj (Option.some.inj he)).1]; exact hx) h, fun _ => ⟨_, rfl⟩⟩
      · rw [if_pos hx, accum_ok, longiPart_ok]
        constructor
        · intro h _ _ _ _; exact h
        · intro h; exact h x trivial rfl hx
  by_cases ht : o.tang = true ∧ ¬ Num.Eqv g 0
  · rw [if_pos ht]
    cases hk : tangPart chi m M g R o.R_far_field Y with
    | error e =>
      have : ¬ ∃ v, tangPart chi m M g R o.R_far_field Y = .ok v := by rw [hk]; rintro ⟨v, hv⟩; exact nomatch hv
      rw [tangPart_ok] at this
      constructor
      · rintro ⟨v, hv⟩; exact nomatch hv
      · intro h; exact absurd (h.1 ht) this
    | ok K =>
      have := (tangPart_ok _ _ _ _ _ _ _).1 ⟨K, hk⟩
      refine (tail (addFields u K)).trans ?_
      exact ⟨fun h => ⟨fun _ => this, h⟩, fun h => h.2⟩
  · rw [if_neg ht]
    refine (tail u).trans ?_
    exact ⟨fun h => ⟨fun h' => absurd h' ht, h⟩, fun h => h.2⟩

/-- C16: for a turbine loaded with one cylinder and a non-empty batch, `compute_u` succeeds exactly when
each non-zero component asked for is implemented: tangential vorticity with the model `VC`, or without
skew also `VCFF`, `VD`, `SS`; longitudinal vorticity with `VC` only; the root vortex with any model name. -/
theorem C16_single (w : WT) (g : Num) (hg : w.gamma_t = some [g]) (hgl : w.gamma_l = none ∨ ∃ x, w.gamma_l = some [x])
    (pts : List (V3 ℝ)) (hp : pts ≠ []) (o : Opts) (chi : Num) (hchi : (w.computeU pts o).2.chi = some chi) :
    (∃ u, (w.computeU pts o).1 = .ok u) ↔
      ((o.tang = true ∧ ¬ Num.Eqv g 0 →
          o.Model.getD w.Model = "VC" ∨ (¬ (Num.fin 1e-7 < Num.abs chi) ∧ o.Model.getD w.Model ∈ ["VCFF", "VD", "SS"])) ∧
       (∀ x, o.longi = true → w.gamma_l = some [x] → ¬ Num.Eqv x 0 → o.Model.getD w.Model = "VC")) := by
  have hc : chi = usedChi w := by rw [computeU_state] at hchi; exact (Option.some.inj hchi).symm
  rw [computeU_val, hg]
  simp only
  have hYl : ∀ Y ∈ (if o.ground.getD w.Ground then [relC w pts, mirrorPts (pts.map (transformT w.T_c2g)) (transformT w.T_c2g w.r_hub)]
      else [relC w pts]), Y ≠ [] := by
    have h1 : relC w pts ≠ [] := by simpa [relC, relPts] using hp
    have h2 : mirrorPts (pts.map (transformT w.T_c2g)) (transformT w.T_c2g w.r_hub) ≠ [] := by simpa [mirrorPts] using hp
    intro Y hY
    split at hY
    · simp at hY; rcases hY with rfl | rfl <;> assumption
    · simp at hY; rw [hY]; assumption
  have key : (∃ c, w.inducedC (usedChi w) [g] pts o = .ok c) ↔ ((o.tang = true ∧ ¬ Num.Eqv g 0 →
          o.Model.getD w.Model = "VC" ∨ (¬ yawed (usedChi w) ∧ o.Model.getD w.Model ∈ ["VCFF", "VD", "SS"])) ∧
       (∀ x, o.longi = true → w.gamma_l = some [x] → ¬ Num.Eqv x 0 → o.Model.getD w.Model = "VC")) := by
    obtain ⟨u1, hu1⟩ := root_ok w (usedChi w) pts hp o _ hYl (pts.map fun _ => 0)
    have e : w.inducedC (usedChi w) [g] pts o = overY (singleBody (usedChi w) (Num.tan (usedChi w)) (o.Model.getD w.Model) g w.gamma_l w.R o) u1
      (if o.ground.getD w.Ground then [relC w pts, mirrorPts (pts.map (transformT w.T_c2g)) (transformT w.T_c2g w.r_hub)] else [relC w pts]) := by
      unfold WT.inducedC
      simp only
      change (match (match o.root, w.Gamma_r with
          | true, some Gr => if ¬ Num.Eqv Gr 0 then overY (fun Y u => accum u (rootPart (usedChi w) (Num.tan (usedChi w)) Gr Y)) (pts.map fun _ => 0) 
            (if o.ground.getD w.Ground then [relC w pts, mirrorPts (pts.map (transformT w.T_c2g)) (transformT w.T_c2g w.r_hub)] else [relC w pts]) else .ok (pts.map fun _ => 0)
          | _, _ => .ok (pts.map fun _ => 0)) with | .error e => _ | .ok u1 => _) = _
      rw [hu1]
      rfl
    rw [e]
    constructor
    · rintro ⟨c, hc⟩
      rw [← singleBody_ok (usedChi w) (Num.tan (usedChi w)) _ g w.gamma_l hgl w.R o (relC w pts) u1]
      cases hb : singleBody (usedChi w) (Num.tan (usedChi w)) (o.Model.getD w.Model) g w.gamma_l w.R o (relC w pts) u1 with
      | ok v => exact ⟨v, rfl⟩
      | error e =>
        split at hc <;> (unfold overY at hc; rw [hb] at hc; exact nomatch hc)
    · intro h
      exact overY_ok _ _ (fun Y _ u => (singleBody_ok _ _ _ _ _ hgl _ _ _ _).2 h) _
  rw [hc]
  rw [show (Num.fin 1e-7 < Num.abs (usedChi w)) = yawed (usedChi w) from rfl, ← key]
  cases w.inducedC (usedChi w) [g] pts o with
  | ok c => exact ⟨fun _ => ⟨_, rfl⟩, fun _ => ⟨_, rfl⟩⟩
  | error e => constructor <;> rintro ⟨x, hx⟩ <;> exact nomatch hx

/-- C16: for a turbine loaded with several cylinders (one radius per cylinder) and a non-empty batch,
`compute_u` succeeds exactly with the model `VC`, whatever the options. -/
theorem C16_multi (w : WT) (gt : List Num) (r : List ℝ) (hg : w.gamma_t = some gt) (hg1 : gt.length ≠ 1) (hr : w.r = some r)
    (hlen : gt.length = r.length) (hgl : w.gamma_l = none ∨ ∃ gl, w.gamma_l = some gl ∧ gl.length = r.length)
    (pts : List (V3 ℝ)) (hp : pts ≠ []) (o : Opts) :
    (∃ u, (w.computeU pts o).1 = .ok u) ↔ o.Model.getD w.Model = "VC" := by
  rw [computeU_val, hg]
  simp only
  have hYl : ∀ Y ∈ (if o.ground.getD w.Ground then [relC w pts, mirrorPts (pts.map (transformT w.T_c2g)) (transformT w.T_c2g w.r_hub)]
      else [relC w pts]), Y ≠ [] := by
    have h1 : relC w pts ≠ [] := by simpa [relC, relPts] using hp
    have h2 : mirrorPts (pts.map (transformT w.T_c2g)) (transformT w.T_c2g w.r_hub) ≠ [] := by simpa [mirrorPts] using hp
    intro Y hY
    split at hY
    · simp at hY; rcases hY with rfl | rfl <;> assumption
    · simp at hY; rw [hY]; assumption
  have key : (∃ c, w.inducedC (usedChi w) gt pts o = .ok c) ↔ o.Model.getD w.Model = "VC" := by
    obtain ⟨u1, hu1⟩ := root_ok w (usedChi w) pts hp o _ hYl (pts.map fun _ => 0)
    have e : w.inducedC (usedChi w) gt pts o = multiPart (usedChi w) (Num.tan (usedChi w)) (o.Model.getD w.Model) gt w.gamma_l w.r (transformT w.T_c2g w.r_hub)
      (o.ground.getD w.Ground) o (pts.map (transformT w.T_c2g)) u1 := by
      unfold WT.inducedC
      simp only
      change (match (match o.root, w.Gamma_r with
          | true, some Gr => if ¬ Num.Eqv Gr 0 then overY (fun Y u => accum u (rootPart (usedChi w) (Num.tan (usedChi w)) Gr Y)) (pts.map fun _ => 0) 
            (if o.ground.getD w.Ground then [relC w pts, mirrorPts (pts.map (transformT w.T_c2g)) (transformT w.T_c2g w.r_hub)] else [relC w pts]) else .ok (pts.map fun _ => 0)
          | _, _ => .ok (pts.map fun _ => 0)) with | .error e => _ | .ok u1 => _) = _
      rw [hu1]
      match gt, hg1 with
      | [], _ => rfl
      | [a], h => exact absurd rfl h
      | a :: b :: l, _ => rfl
    rw [e]
    unfold multiPart
    by_cases hM : o.Model.getD w.Model = "VC"
    · rw [if_pos hM, hr]
      simp only [hlen]
      rw [if_neg (by simp)]
      rw [if_neg (by rcases hgl with h | ⟨gl, h, h'⟩ <;> simp [h, *])]
      refine ⟨fun _ => hM, fun _ => ?_⟩
      split <;> exact ⟨_, rfl⟩
    · rw [if_neg hM]
      exact ⟨fun ⟨x, hx⟩ => (nomatch hx), fun h => absurd h hM⟩
  rw [← key]
  cases w.inducedC (usedChi w) gt pts o with
  | ok c => exact ⟨fun _ => ⟨_, rfl⟩, fun _ => ⟨_, rfl⟩⟩
  | error e => constructor <;> rintro ⟨x, hx⟩ <;> exact nomatch hx

/-- both situations occur -/
example (mini : (ℝ → Num) → ℝ) : (refTurbine.run mini [.loading refLoad]).gamma_t = some [-1] ∧ (refTurbine.run mini [.loading refLoad]).gamma_l = none ∧
    (let w := refTurbine.run mini [.loading { r := some [0.2, 0.4, 0.6, 0.8], Ct := some [1,1,1,1], nCyl := none, gamma_t_Ct := some fun c => c }]
     w.gamma_t = some [1,1,1,1] ∧ w.r = some [0.2, 0.4, 0.6, 0.8] ∧ w.gamma_l = none) := by
  obtain ⟨r, Ct, hl⟩ := refTurbine_loaded mini refTurbine rfl
  have : refTurbine.run mini [.loading refLoad] = (refTurbine.updateLoading mini refLoad).2 := rfl
  rw [this, hl]
  refine ⟨rfl, rfl, ?_⟩
  simp [WT.run, WT.step, WT.updateLoading, reinterp, loadingSolve, refTurbine, WT.new, WT.updateYawPos]

/-! ### C17 -/

theorem addCyls_one (kernel : List (V3 ℝ) → Num → ℝ → List (V3 Num)) (rel : List (V3 ℝ)) (g : Num) (hg : g ≠ .nan) (h0 : ¬ Num.Eqv g 0) (R : ℝ) (u : List (V3 Num)) :
    addCyls kernel rel [(g, R)] u = addFields u (kernel rel g R) := by
  have : 0 < Num.abs g := by
    cases g with
    | fin a =>
      have : a ≠ 0 := fun h => h0 (by subst h; simp)
      simpa using this
    | nan => exact absurd rfl hg
    | pinf => trivial
    | ninf => trivial
  simp only [addCyls, List.foldl_cons, List.foldl_nil, if_pos this]

theorem addSkewCyls_one (kernel : List (V3 ℝ) → Num → ℝ → Num → List (V3 Num)) (rel : List (V3 ℝ)) (g : Num) (hg : g ≠ .nan) (h0 : ¬ Num.Eqv g 0) (R : ℝ) (m : Num) (u : List (V3 Num)) :
    addSkewCyls kernel rel [(g, R, m)] u = addFields u (kernel rel g R m) := by
  have : 0 < Num.abs g := by
    cases g with
    | fin a =>
      have : a ≠ 0 := fun h => h0 (by subst h; simp)
      simpa using this
    | nan => exact absurd rfl hg
    | pinf => trivial
    | ninf => trivial
  simp only [addSkewCyls, List.foldl_cons, List.foldl_nil, if_pos this]

theorem not_lt_abs_zero (g : Num) (h : Num.Eqv g 0) : ¬ (0 < Num.abs g) := by
  cases g with
  | fin a =>
    have : a = 0 := by simpa using h
    subst this
    simp
  | nan => exact absurd h (by simp [Num.Eqv])
  | pinf => exact absurd h (by simp [Num.Eqv])
  | ninf => exact absurd h (by simp [Num.Eqv])

/-- C17: for a turbine loaded with one cylinder of strength `g` (any value but `nan`), the tangential
velocity of the model `VC` is, in global axes, what the multi-cylinder routines `vcs_tang_u` (no skew) and
`svcs_tang_u` (skew) return for the single cylinder `(g,R)` placed at the hub, with the same ground option. -/
theorem C17_one_cylinder (w : WT) (g : Num) (hg : w.gamma_t = some [g]) (hn : g ≠ .nan) (pts : List (V3 ℝ)) (o : Opts)
    (ht : o.tang = true) (hl : o.longi = false) (hr : o.root = false) (hw : o.no_wake = false) (hM : o.Model.getD w.Model = "VC")
    (chi : Num) (hchi : (w.computeU pts o).2.chi = some chi) :
    (w.computeU pts o).1 = .ok (w.toGlobal o.only_ind
      (if Num.fin 1e-7 < Num.abs chi then
        svcsTang (pts.map (transformT w.T_c2g)) [⟨transformT w.T_c2g w.r_hub, [(g, w.R, Num.tan chi)]⟩] 180 (o.ground.getD w.Ground)
      else vcsTang (pts.map (transformT w.T_c2g)) [⟨transformT w.T_c2g w.r_hub, [(g, w.R)]⟩] 0 (o.ground.getD w.Ground))) := by
  have hc : chi = usedChi w := by rw [computeU_state] at hchi; exact (Option.some.inj hchi).symm
  rw [computeU_val, hg]
  simp only
  rw [inducedC_single _ _ _ _ _ hr, hM, hw, hc]
  have body : ∀ Y u, singleBody (usedChi w) (Num.tan (usedChi w)) "VC" g w.gamma_l w.R o Y u = .ok (if yawed (usedChi w) then
      addSkewCyls (fun q ga R m => svcTang q ga R m 180 false) Y [(g, w.R, Num.tan (usedChi w))] u else addCyls (fun q ga R => vcTang q ga R 0) Y [(g, w.R)] u) := by
    intro Y u
    rw [singleBody_noLongi _ _ _ _ _ _ _ hl]
    by_cases h0 : Num.Eqv g 0
    · rw [if_neg (by simp only [h0]; simp)]
      have := not_lt_abs_zero g h0
      split
      · simp only [addSkewCyls, List.foldl_cons, List.foldl_nil, if_neg this]
      · simp only [addCyls, List.foldl_cons, List.foldl_nil, if_neg this]
    · rw [if_pos ⟨ht, h0⟩]
      unfold tangPart
      by_cases hy : yawed (usedChi w)
      · simp only [if_pos hy, if_true, accum]
        rw [addSkewCyls_one _ _ _ hn h0]
      · simp only [if_neg hy, if_true, accum]
        rw [addCyls_one _ _ _ hn h0]
  have hy' : (Num.fin 1e-7 < Num.abs (usedChi w)) = yawed (usedChi w) := rfl
  have hz : ∀ c : V3 ℝ, ((pts.map (transformT w.T_c2g)).map fun _ => (0 : V3 Num)) = pts.map fun _ => 0 := fun c => map_zero_congr _ _ (by simp)
  by_cases hy : yawed (usedChi w)
  · simp only [if_pos hy] at body
    cases o.ground.getD w.Ground
    · simp only [Bool.false_eq_true, if_false, overY, body, hy', if_pos hy, svcsTang, List.foldl_cons, List.foldl_nil, hz 0]; rfl
    · simp only [Bool.false_eq_true, if_false, if_true, overY, body, hy', if_pos hy, svcsTang, List.foldl_cons, List.foldl_nil, hz 0]; rfl
  · simp only [if_neg hy] at body
    cases o.ground.getD w.Ground
    · simp only [Bool.false_eq_true, if_false, overY, body, hy', if_neg hy, vcsTang, List.foldl_cons, List.foldl_nil, hz 0]; rfl
    · simp only [Bool.false_eq_true, if_false, if_true, overY, body, hy', if_neg hy, vcsTang, List.foldl_cons, List.foldl_nil, hz 0]; rfl

/-- a strength `nan` is skipped by the multi-cylinder loop but not by the single-cylinder code -/
theorem C17_nan_refuted : ∃ (w : WT) (o : Opts), w.gamma_t = some [.nan] ∧ o.Model.getD w.Model = "VC" ∧
    (∃ v, (w.computeU [⟨0,0,-1⟩] o).1 = .ok [v] ∧ v.z = .nan) ∧
    vcsTang ([⟨0,0,-1⟩].map (transformT w.T_c2g)) [⟨transformT w.T_c2g w.r_hub, [(.nan, w.R)]⟩] 0 false = [0] := by
  let w : WT := { WT.new 1 0 ⟨0,0,1⟩ ⟨0,1,0⟩ ⟨0,0,1⟩ none false "VC" with gamma_t := some [.nan], chi := some 0 }
  refine ⟨w, { only_ind := true }, rfl, rfl, ?_, ?_⟩
  · have hy : ¬ yawed (usedChi w) := by
      have : usedChi w = 0 := rfl
      rw [this]; unfold yawed; simp; norm_num
    have e : (w.computeU [⟨0,0,-1⟩] { only_ind := true }).1 = .ok (w.toGlobal true (addFields [0] (vcTang (relC w [⟨0,0,-1⟩]) .nan 1 0))) := by
      rw [computeU_val]
      have : w.gamma_t = some [.nan] := rfl
      rw [this]
      simp only
      rw [inducedC_single _ _ _ _ _ rfl]
      have h2 : (({ only_ind := true } : Opts).ground.getD w.Ground) = false := rfl
      have h3 : (({ only_ind := true } : Opts).Model.getD w.Model) = "VC" := rfl
      rw [h2, h3]
      have hn : ¬ Num.Eqv Num.nan 0 := by simp [Num.Eqv]
      simp only [Bool.false_eq_true, if_false, overY, singleBody_noLongi _ _ _ _ _ _ ({ only_ind := true } : Opts) rfl, hn, not_false_eq_true, and_self, if_true]
      unfold tangPart
      simp only [if_neg hy, if_true, accum]
      rfl
    rw [e]
    have hl : (vcTang (relC w [⟨0,0,-1⟩]) .nan 1 0).length = 1 := by rw [vcTang_length, relC_length]; rfl
    obtain ⟨v, hv⟩ := List.length_eq_one_iff.1 hl
    refine ⟨transform (M3.fin w.T_c2g) v, by rw [hv]; simp [addFields, WT.toGlobal], ?_⟩
    have hvz : v.z = .nan := by
      rw [vcTang_map] at hv
      obtain ⟨q, hq⟩ := List.length_eq_one_iff.1 (show (relC w [⟨0,0,-1⟩]).length = 1 by rw [relC_length]; rfl)
      rw [hq] at hv
      have hv := List.cons.inj hv
      rw [← hv.1]
      simp only [polarToCart, vcPt]
      split
      · rfl
      · unfold vcSpecial
        split
        · rfl
        · split <;> rfl
    have hadd : ∀ a : Num, a + Num.nan = Num.nan := by intro a; cases a <;> rfl
    have hmul : ∀ a : ℝ, Num.fin a * Num.nan = Num.nan := fun a => rfl
    simp only [transform, M3.fin, hvz, hmul, hadd]
  · have : ¬ (0 < Num.abs Num.nan) := by
      intro h; exact h
    simp only [vcsTang, List.foldl_cons, List.foldl_nil, addCyls, if_neg this]
    simp

end Wiz
