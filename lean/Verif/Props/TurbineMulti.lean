import Verif.Props.TurbineValue

/-! # C16 (values, several cylinders), with root vortex and longitudinal vorticity -/
set_option autoImplicit false
namespace Wiz
open Spec Classical Real
noncomputable section

theorem inducedC_multi_root (w : WT) (chi : Num) (gt : List Num) (hg : gt.length ≠ 1) (pts : List (V3 ℝ)) (o : Opts) :
    w.inducedC chi gt pts o =
      match (match o.root, w.Gamma_r with
        | true, some Gr => if ¬ Num.Eqv Gr 0 then overY (fun Y u => accum u (rootPart chi (Num.tan chi) Gr Y)) (pts.map fun _ => 0)
            (if o.ground.getD w.Ground then [relC w pts, mirrorPts (pts.map (transformT w.T_c2g)) (transformT w.T_c2g w.r_hub)] else [relC w pts])
            else .ok (pts.map fun _ => 0)
        | _, _ => .ok (pts.map fun _ => 0)) with
      | .error e => .error e
      | .ok u1 => multiPart chi (Num.tan chi) (o.Model.getD w.Model) gt w.gamma_l w.r (transformT w.T_c2g w.r_hub) (o.ground.getD w.Ground) o (pts.map (transformT w.T_c2g)) u1 := by
  unfold WT.inducedC
  match gt, hg with
  | [], _ => rfl
  | [a], h => exact absurd rfl h
  | a :: b :: l, _ => rfl

theorem root_value (w : WT) (chi : Num) (o : Opts) (pts : List (V3 ℝ)) (Ys : List (List (V3 ℝ))) (hlen : ∀ Y ∈ Ys, Y.length = pts.length) (u1 : List (V3 Num))
    (h1 : (match o.root, w.Gamma_r with
          | true, some Gr => if ¬ Num.Eqv Gr 0 then overY (fun Y u => accum u (rootPart chi (Num.tan chi) Gr Y)) (pts.map fun _ => 0) Ys
            else .ok (pts.map fun _ => 0)
          | _, _ => .ok (pts.map fun _ => 0)) = Except.ok u1) : u1.length = pts.length ∧ ∀ i, u1.getD i 0 =
        (match w.Gamma_r with
          | some Gr => if o.root = true ∧ ¬ Num.Eqv Gr 0 then (Ys.map fun Y => (wakeRoot chi Gr Y).getD i 0).sum else 0
          | none => 0) := by
  have hz : (pts.map fun _ => (0 : V3 Num)).length = pts.length := by simp
  cases hGr : w.Gamma_r with
  | none =>
    rw [hGr] at h1
    have h1 : (pts.map fun _ => (0 : V3 Num)) = u1 := by
      cases ho' : o.root <;> (rw [ho'] at h1; exact Except.ok.inj h1)
    subst h1
    exact ⟨hz, fun i => getD_zeros _ _⟩
  | some Gr =>
    rw [hGr] at h1
    cases hro : o.root with
    | false =>
      rw [hro] at h1
      have h1 : (pts.map fun _ => (0 : V3 Num)) = u1 := Except.ok.inj h1
      subst h1
      exact ⟨hz, fun i => by rw [getD_zeros]; simp⟩
    | true =>
      rw [hro] at h1
      simp only at h1
      by_cases hz0 : ¬ Num.Eqv Gr 0
      · rw [if_pos hz0] at h1
        obtain ⟨r1, r2⟩ := overY_value _ (fun Y i => (wakeRoot chi Gr Y).getD i 0) pts.length (by
          intro Y u x hY hu hx
          obtain ⟨y, y1, y2⟩ := accum_value _ _ _ hx
          have y3 := rootPart_length _ _ _ _ _ y1
          have hly : u.length = y.length := by rw [hu, y3, hY]
          refine ⟨by rw [y2, length_addFields _ _ hly, hu], fun i => ?_⟩
          rw [y2, getD_addFields _ _ hly, rootPart_value _ _ _ _ y1]) Ys _ u1 hlen hz h1
        refine ⟨r1, fun i => ?_⟩
        rw [r2, getD_zeros, zero_add]
        simp only
        rw [if_pos ⟨trivial, hz0⟩]
      · rw [if_neg hz0] at h1
        have h1 : (pts.map fun _ => (0 : V3 Num)) = u1 := Except.ok.inj h1
        subst h1
        refine ⟨hz, fun i => ?_⟩
        rw [getD_zeros]
        simp only
        rw [if_neg (fun c => hz0 c.2)]

/-- the skewed and the straight tangential sums of the multi-cylinder case -/
theorem multi_tang (chi : Num) (P : List (V3 ℝ)) (cyl : V3 ℝ) (gt : List Num) (r : List ℝ) (g : Bool) (Rff : ℝ) (i : ℕ) (Y1 Y2 : List (V3 ℝ))
    (h1 : (P.map fun p => p - cyl) = Y1) (h2 : (P.map fun p => p - ⟨cyl.x, -cyl.y, cyl.z⟩) = Y2) :
    ((if yawed chi then svcsTang P [⟨cyl, List.zipWith (fun g R => (g, R, Num.tan chi)) gt r⟩] 180 g else vcsTang P [⟨cyl, List.zip gt r⟩] 0 g).length = P.length) ∧
    (if yawed chi then svcsTang P [⟨cyl, List.zipWith (fun g R => (g, R, Num.tan chi)) gt r⟩] 180 g else vcsTang P [⟨cyl, List.zip gt r⟩] 0 g).getD i 0 =
      ((if g then [Y1, Y2] else [Y1]).map fun Y => (((gt.zip r).filter fun y => 0 < Num.abs y.1).map fun y => (wakeTang chi "VC" y.1 y.2 Rff Y).getD i 0).sum).sum := by
  by_cases hy : yawed chi
  · rw [if_pos hy]
    have hS := C68_tang_sum P [⟨cyl, List.zipWith (fun g R => (g, R, Num.tan chi)) gt r⟩] 180 g
    refine ⟨hS.1, ?_⟩
    rw [hS.2 i]
    simp only [List.map_cons, List.map_nil, List.sum_cons, List.sum_nil, add_zero, h1, h2]
    have hK : ∀ Y : List (V3 ℝ), ∀ gt r, (((List.zipWith (fun g (R : ℝ) => (g, R, Num.tan chi)) gt r).filter fun c => decide (0 < Num.abs c.1)).map fun c =>
        (svcTang Y c.1 c.2.1 c.2.2 180 false).getD i 0).sum = (((gt.zip r).filter fun y => decide (0 < Num.abs y.1)).map fun y =>
            (wakeTang chi "VC" y.1 y.2 Rff Y).getD i 0).sum := by
      intro Y gt
      induction gt with
      | nil => intro r; simp
      | cons g gt ih =>
        intro r
        cases r with
        | nil => simp
        | cons R r =>
          have hw : wakeTang chi "VC" g R Rff Y = svcTang Y g R (Num.tan chi) 180 false := by
            unfold wakeTang; rw [if_pos (show skewed chi from hy)]
          simp only [List.zipWith_cons_cons, List.zip_cons_cons, List.filter_cons]
          split_ifs
          · simp only [List.map_cons, List.sum_cons, ih, hw]
          · exact ih r
    simp only [hK]
    cases g <;> simp
  · rw [if_neg hy]
    have hS := C50_tang_sum P [⟨cyl, List.zip gt r⟩] 0 g
    refine ⟨hS.1, ?_⟩
    rw [hS.2 i]
    have hK : ∀ (Y : List (V3 ℝ)) (g : Num) (R : ℝ), wakeTang chi "VC" g R Rff Y = vcTang Y g R 0 := by
      intro Y g R
      unfold wakeTang; rw [if_neg (show ¬ skewed chi from hy), if_pos rfl]
    simp only [List.map_cons, List.map_nil, List.sum_cons, List.sum_nil, add_zero, h1, h2, hK]
    cases g <;> simp

/-- the longitudinal sums of the multi-cylinder case: no image for a straight wake, the hub twice for a skewed wake with ground -/
theorem multi_longi (chi : Num) (P : List (V3 ℝ)) (cyl : V3 ℝ) (gl : List Num) (r : List ℝ) (g : Bool) (i : ℕ) (Y1 : List (V3 ℝ))
    (h1 : (P.map fun p => p - cyl) = Y1) :
    ((if yawed chi then svcsLongi P [⟨cyl, List.zipWith (fun g R => (g, R, Num.tan chi)) gl r⟩] 180 g else vcsLongi P [⟨cyl, List.zip gl r⟩] g).length = P.length) ∧
    (if yawed chi then svcsLongi P [⟨cyl, List.zipWith (fun g R => (g, R, Num.tan chi)) gl r⟩] 180 g else vcsLongi P [⟨cyl, List.zip gl r⟩] g).getD i 0 =
      ((if g = true ∧ skewed chi then [Y1, Y1] else [Y1]).map fun Y => (((gl.zip r).filter fun y => 0 < Num.abs y.1).map fun y => (wakeLongi chi y.1 y.2 Y).getD i 0).sum).sum := by
  by_cases hy : yawed chi
  · rw [if_pos hy]
    have hS := C68_longi_partial P [⟨cyl, List.zipWith (fun g R => (g, R, Num.tan chi)) gl r⟩] 180 g
    refine ⟨hS.1, ?_⟩
    rw [hS.2 i]
    simp only [List.map_cons, List.map_nil, List.sum_cons, List.sum_nil, add_zero, h1]
    have hK : ∀ Y : List (V3 ℝ), ∀ gt r, (((List.zipWith (fun g (R : ℝ) => (g, R, Num.tan chi)) gt r).filter fun c => decide (0 < Num.abs c.1)).map fun c =>
        (svcLongi Y c.1 c.2.1 c.2.2 180 false).getD i 0).sum = (((gt.zip r).filter fun y => decide (0 < Num.abs y.1)).map fun y =>
            (wakeLongi chi y.1 y.2 Y).getD i 0).sum := by
      intro Y gt
      induction gt with
      | nil => intro r; simp
      | cons g gt ih =>
        intro r
        cases r with
        | nil => simp
        | cons R r =>
          have hw : wakeLongi chi g R Y = svcLongi Y g R (Num.tan chi) 180 false := by
            unfold wakeLongi; rw [if_pos (show skewed chi from hy)]
          simp only [List.zipWith_cons_cons, List.zip_cons_cons, List.filter_cons]
          split_ifs
          · simp only [List.map_cons, List.sum_cons, ih, hw]
          · exact ih r
    simp only [hK]
    have hsk : skewed chi := hy
    cases g <;> simp [hsk]
  · rw [if_neg hy]
    have hS := C50_longi_sum P [⟨cyl, List.zip gl r⟩] g
    refine ⟨hS.1, ?_⟩
    rw [hS.2 i]
    have hK : ∀ (Y : List (V3 ℝ)) (g : Num) (R : ℝ), wakeLongi chi g R Y = vcLongi Y g R false := by
      intro Y g R
      unfold wakeLongi; rw [if_neg (show ¬ skewed chi from hy)]
    have hsk : ¬ skewed chi := hy
    simp only [List.map_cons, List.map_nil, List.sum_cons, List.sum_nil, add_zero, h1, hK, hsk, and_false, if_false]

/-- C16 (values, several cylinders, every component): for every history of an orthonormal turbine with several cylinders, whenever `compute_u` returns,
it returns at every point of the batch the free stream (unless `only_ind`) plus, in rotor axes: the root vortex of the hub and, with ground effect, of its
mirror image; the sum of the tangential wakes `(γ_j,r_j)`, `|γ_j|>0`, of the hub and, with ground effect, of the mirror image; the sum of the longitudinal
wakes `(γl_j,r_j)`, `|γl_j|>0`, of the hub only (with a skewed wake and ground effect: twice the hub, never its image). -/
theorem C16_field_multi_all (mini : (ℝ → Num) → ℝ) (R : ℝ) (hub shaft vert U0 : V3 ℝ) (L : Option Num) (G : Bool)
    (M : String) (ho : Orthonormal shaft vert) (h : List Op) (pts : List (V3 ℝ)) (o : Opts) (hnw : o.no_wake = false) :
    let w := (WT.new R hub shaft vert U0 L G M).run mini h
    let s := w.e_shaft_g
    let a := V3.cross vert s
    let centres := if o.ground.getD w.Ground then [w.r_hub, groundImage vert w.r_hub] else [w.r_hub]
    ∀ (gt : List Num) (r : List ℝ) (chi : Num) (u : List (V3 Num)), w.gamma_t = some gt → gt.length ≠ 1 → w.r = some r →
      (w.computeU pts o).2.chi = some chi → (w.computeU pts o).1 = .ok u →
      u.length = pts.length ∧ ∀ i < pts.length, u.getD i 0 =
        transform (M3.fin (M3.ofCols a vert s))
          ((match w.Gamma_r with
              | some Gr => if o.root = true ∧ ¬ Num.Eqv Gr 0 then
                  (centres.map fun c => (wakeRoot chi Gr (rotorAxes a vert s c pts)).getD i 0).sum else 0
              | none => 0) +
            (if o.tang then (centres.map fun c => (((gt.zip r).filter fun y => 0 < Num.abs y.1).map fun y =>
              (wakeTang chi "VC" y.1 y.2 o.R_far_field (rotorAxes a vert s c pts)).getD i 0).sum).sum else 0) +
            (match w.gamma_l with
              | some gl => if o.longi then
                  ((if o.ground.getD w.Ground = true ∧ skewed chi then [w.r_hub, w.r_hub] else [w.r_hub]).map fun c =>
                    (((gl.zip r).filter fun y => 0 < Num.abs y.1).map fun y => (wakeLongi chi y.1 y.2 (rotorAxes a vert s c pts)).getD i 0).sum).sum else 0
              | none => 0)) +
        (if o.only_ind then 0 else V3.fin w.U0_g) := by
  intro w s a centres gt r chi u hg hg1 hr hchi hu
  have hi := frame_run mini shaft vert R h _ (frame_new R hub shaft vert U0 L G M)
  obtain ⟨a', s', e1, -, e3, e4, e5, e6, e7, e8, e9⟩ := frame_cols shaft vert R ho w hi
  have hs : s' = s := by
    have := hi.e_shaft_g
    rw [turn_eq] at this
    rw [e3]; exact this.symm
  have ha : a' = a := by rw [e9, hs]
  subst hs
  subst ha
  have hc : chi = usedChi w := by rw [computeU_state] at hchi; exact (Option.some.inj hchi).symm
  obtain ⟨gt', c, c1, c2, c3, c4⟩ := ok_cases hu
  have : gt' = gt := by rw [hg] at c1; exact (Option.some.inj c1).symm
  subst this
  let Ys := centres.map fun c => rotorAxes a vert s c pts
  have hYs : (if o.ground.getD w.Ground then [relC w pts, mirrorPts (pts.map (transformT w.T_c2g)) (transformT w.T_c2g w.r_hub)]
      else [relC w pts]) = Ys := by
    rw [relC_axes w a vert s e1, mirror_axes w a vert s e1 ho.vert e6 e8]
    simp only [Ys, centres]
    split <;> rfl
  have hlen : ∀ Y ∈ Ys, Y.length = pts.length := by
    intro Y hY
    simp only [Ys, List.mem_map] at hY
    obtain ⟨c, -, rfl⟩ := hY
    simp [rotorAxes]
  rw [← hc, inducedC_multi_root _ _ _ hg1, hYs] at c2
  rw [hnw] at c4
  simp only [Bool.false_eq_true, if_false] at c4
  have ul : u.length = pts.length := by rw [c4, WT.toGlobal, List.length_map, c3]
  refine ⟨ul, fun i hi' => ?_⟩
  have huc : u.getD i 0 = transform (M3.fin (M3.ofCols a vert s)) (c.getD i 0) + (if o.only_ind then 0 else V3.fin w.U0_g) := by
    have hic : i < c.length := by rw [c3]; exact hi'
    rw [c4, WT.toGlobal, e1]
    simp only [List.getD_eq_getElem?_getD, List.getElem?_map, List.getElem?_eq_getElem hic, Option.map_some, Option.getD_some]
    cases o.only_ind <;> simp
  rw [huc]
  congr 2
  split at c2
  · exact nomatch c2
  rename_i u1 hu1
  obtain ⟨r1, r2⟩ := root_value w chi o pts Ys hlen u1 hu1
  have r2 := r2 i
  have hYm : ∀ F : List (V3 ℝ) → V3 Num, (Ys.map F).sum = (centres.map fun c => F (rotorAxes a vert s c pts)).sum := fun F => by
    simp only [Ys, List.map_map]; rfl
  simp only [hYm] at r2
  have hrel : ((pts.map (transformT w.T_c2g)).map fun p => p - transformT w.T_c2g w.r_hub) = rotorAxes a vert s w.r_hub pts :=
    relC_axes w a vert s e1 pts
  have hmir : ((pts.map (transformT w.T_c2g)).map fun p => p - ⟨(transformT w.T_c2g w.r_hub).x, -(transformT w.T_c2g w.r_hub).y, (transformT w.T_c2g w.r_hub).z⟩)
      = rotorAxes a vert s (groundImage vert w.r_hub) pts := by
    rw [← mirror_axes w a vert s e1 ho.vert e6 e8]
    unfold mirrorPts
    apply List.map_congr_left
    intro p _
    ext <;> simp <;> ring
  unfold multiPart at c2
  rw [hr] at c2
  by_cases hM : o.Model.getD w.Model = "VC"
  swap
  · rw [if_neg hM] at c2; exact nomatch c2
  rw [if_pos hM] at c2
  simp only at c2
  by_cases hl1 : gt'.length ≠ r.length
  · rw [if_pos hl1] at c2; exact nomatch c2
  rw [if_neg hl1] at c2
  by_cases hl2 : (w.gamma_l.any fun l => decide (l.length ≠ r.length)) = true
  · rw [if_pos hl2] at c2; exact nomatch c2
  rw [if_neg hl2] at c2
  obtain ⟨t1, t2⟩ := multi_tang chi (pts.map (transformT w.T_c2g)) (transformT w.T_c2g w.r_hub) gt' r (o.ground.getD w.Ground) o.R_far_field i _ _ hrel hmir
  have hcen : (if o.ground.getD w.Ground then [rotorAxes a vert s w.r_hub pts, rotorAxes a vert s (groundImage vert w.r_hub) pts] else [rotorAxes a vert s w.r_hub pts]) = Ys := by
    simp only [Ys, centres]; split <;> rfl
  rw [hcen, hYm] at t2
  rw [List.length_map] at t1
  -- after the tangential part
  obtain ⟨u2, hu2⟩ : ∃ u2, u2 = (if o.tang then
            addFields u1 (if yawed chi then svcsTang (pts.map (transformT w.T_c2g)) [⟨transformT w.T_c2g w.r_hub, List.zipWith (fun g R => (g, R, Num.tan chi)) gt' r⟩] 180 (o.ground.getD w.Ground)
              else vcsTang (pts.map (transformT w.T_c2g)) [⟨transformT w.T_c2g w.r_hub, List.zip gt' r⟩] 0 (o.ground.getD w.Ground))
          else u1) := ⟨_, rfl⟩
  rw [← hu2] at c2
  have hv2 : u2.length = pts.length ∧ u2.getD i 0 = u1.getD i 0 + (if o.tang then (centres.map fun c => (((gt'.zip r).filter fun y => 0 < Num.abs y.1).map fun y =>
              (wakeTang chi "VC" y.1 y.2 o.R_far_field (rotorAxes a vert s c pts)).getD i 0).sum).sum else 0) := by
    cases ht : o.tang with
    | false =>
      rw [ht] at hu2
      rw [hu2]
      exact ⟨r1, by simp⟩
    | true =>
      rw [ht, if_pos rfl] at hu2
      have hl : u1.length = _ := r1.trans t1.symm
      rw [hu2]
      refine ⟨by rw [length_addFields _ _ hl, r1], ?_⟩
      rw [getD_addFields _ _ hl, t2, if_pos rfl]
  clear hu2 t1 t2
  obtain ⟨v1, v2⟩ := hv2
  cases hgl : w.gamma_l with
  | none =>
    rw [hgl] at c2
    have : c = u2 := by
      cases hlo : o.longi <;> (rw [hlo] at c2; exact (Except.ok.inj c2).symm)
    rw [this, v2, r2, add_zero]
  | some gl =>
    rw [hgl] at c2
    cases hlo : o.longi with
    | false =>
      rw [hlo] at c2
      have : c = u2 := (Except.ok.inj c2).symm
      rw [this, v2, r2]
      simp
    | true =>
      rw [hlo] at c2
      obtain ⟨l1, l2⟩ := multi_longi chi (pts.map (transformT w.T_c2g)) (transformT w.T_c2g w.r_hub) gl r (o.ground.getD w.Ground) i _ hrel
      rw [List.length_map] at l1
      have c2 := Except.ok.inj c2
      have hl : u2.length = _ := v1.trans l1.symm
      rw [← c2, getD_addFields _ _ hl, l2, v2, r2]
      simp only [if_true]
      congr 1
      split <;> rfl

end
end Wiz
