import Verif.Spec.Dispatch
import Verif.Props.TurbineField
import Verif.Props.SkewedGround

/-! # C16: which velocity `compute_u` returns -/
namespace Wiz
open Spec Real Classical

theorem mul_fin_pos (g : Num) (a b : ℝ) (hb : 0 < b) : g * Num.fin a * Num.fin b = g * Num.fin (b * a) := by
  have hs : ∀ a : ℝ, Num.infSign a * Num.fin b = Num.infSign (b * a) := by
    intro a
    rcases lt_trichotomy a 0 with h | h | h
    · have h1 : b * a < 0 := mul_neg_of_pos_of_neg hb h
      simp only [Num.infSign, if_neg (not_lt.mpr h.le), if_pos h, if_neg (not_lt.mpr h1.le), if_pos h1]
      show Num.infSign (-b) = Num.ninf
      simp only [Num.infSign, if_neg (show ¬ 0 < -b by linarith), if_pos (show -b < 0 by linarith)]
    · subst h
      simp only [mul_zero, Num.infSign, lt_irrefl, if_false]
      rfl
    · have h1 : 0 < b * a := mul_pos hb h
      simp only [Num.infSign, if_pos h, if_pos h1]
      show Num.infSign b = Num.pinf
      simp only [Num.infSign, if_pos hb]
  match g with
  | .fin g => simp only [Num.fin_mul]; congr 1; ring
  | .nan => rfl
  | .pinf => exact hs a
  | .ninf =>
    show Num.infSign (-a) * Num.fin b = Num.infSign (-(b*a))
    rw [hs, mul_neg]

theorem tangPart_value (chi : Num) (M : String) (g : Num) (R Rff : ℝ) (Y : List (V3 ℝ)) (x : List (V3 Num))
    (h : tangPart chi (Num.tan chi) M g R Rff Y = .ok x) : x = wakeTang chi M g R Rff Y ∧ x.length = Y.length := by
  have e : g * Num.fin R ^ 2 * Num.fin π = g * .fin (π * R^2) := by
    rw [Num.fin_pow, mul_fin_pos _ _ _ Real.pi_pos]
  unfold tangPart at h
  unfold wakeTang
  by_cases hy : yawed chi
  · rw [if_pos hy] at h
    rw [if_pos (show skewed chi from hy)]
    split at h
    · have h := Except.ok.inj h; subst h; exact ⟨rfl, by simp [svcTang]⟩
    · exact nomatch h
  · rw [if_neg hy] at h
    rw [if_neg (show ¬ skewed chi from hy)]
    split_ifs at h ⊢
    · have h := Except.ok.inj h; subst h; exact ⟨rfl, vcTang_length _ _ _ _⟩
    · have h := Except.ok.inj h; subst h; exact ⟨rfl, vcTangDoublet_length _ _ _ _⟩
    · have h := Except.ok.inj h; subst h; rw [e]; exact ⟨rfl, by simp⟩
    · have h := Except.ok.inj h; subst h; exact ⟨rfl, by simp⟩

theorem longiPart_value (chi : Num) (M : String) (g : Num) (R : ℝ) (Y : List (V3 ℝ)) (x : List (V3 Num))
    (h : longiPart chi (Num.tan chi) M g R Y = .ok x) : x = wakeLongi chi g R Y ∧ x.length = Y.length := by
  unfold longiPart at h
  split at h
  · have h := Except.ok.inj h
    subst h
    refine ⟨rfl, ?_⟩
    split
    · simp [svcLongi]
    · exact vcLongi_length _ _ _ _
  · exact nomatch h

theorem rootPart_value (chi Gr : Num) (Y : List (V3 ℝ)) (x : List (V3 Num))
    (h : rootPart chi (Num.tan chi) Gr Y = .ok x) : x = wakeRoot chi Gr Y := by
  unfold rootPart at h
  unfold wakeRoot
  by_cases hy : yawed chi
  · rw [if_pos hy] at h
    rw [if_pos (show skewed chi from hy), h]
  · rw [if_neg hy] at h
    rw [if_neg (show ¬ skewed chi from hy)]
    exact (Except.ok.inj h).symm

theorem accum_value (u x : List (V3 Num)) (v : Except String (List (V3 Num))) (h : accum u v = .ok x) :
    ∃ y, v = .ok y ∧ x = addFields u y := by
  cases v with
  | error e => exact nomatch h
  | ok y => exact ⟨y, rfl, (Except.ok.inj h).symm⟩

/-- what the rotor asked for induces at points relative to its centre: one cylinder -/
noncomputable def oneField (w : WT) (chi g : Num) (o : Opts) (Y : List (V3 ℝ)) (i : ℕ) : V3 Num :=
  (if o.tang = true ∧ ¬ Num.Eqv g 0 then (wakeTang chi (o.Model.getD w.Model) g w.R o.R_far_field Y).getD i 0 else 0) +
  (match w.gamma_l with
    | some [gl] => if o.longi = true ∧ ¬ Num.Eqv gl 0 then (wakeLongi chi gl w.R Y).getD i 0 else 0
    | _ => 0)

theorem singleBody_value (w : WT) (chi g : Num) (o : Opts) (Y : List (V3 ℝ)) (u x : List (V3 Num)) (hl : u.length = Y.length)
    (h : singleBody chi (Num.tan chi) (o.Model.getD w.Model) g w.gamma_l w.R o Y u = .ok x) :
    x.length = Y.length ∧ ∀ i, x.getD i 0 = u.getD i 0 + oneField w chi g o Y i := by
  unfold singleBody at h
  unfold oneField
  have tail : ∀ (u x : List (V3 Num)), u.length = Y.length →
      (match o.longi, w.gamma_l with
        | true, some [g] => if ¬ Num.Eqv g 0 then accum u (longiPart chi (Num.tan chi) (o.Model.getD w.Model) g w.R Y) else .ok u
        | true, some _ => .error "ValueError"
        | _, _ => .ok u) = Except.ok x →
      x.length = Y.length ∧ ∀ i, x.getD i 0 = u.getD i 0 + (match w.gamma_l with
        | some [gl] => if o.longi = true ∧ ¬ Num.Eqv gl 0 then (wakeLongi chi gl w.R Y).getD i 0 else 0
        | _ => 0) := by
    intro u x hl h
    cases hlo : o.longi with
    | false =>
      rw [hlo] at h
      have h : u = x := Except.ok.inj h
      subst h
      refine ⟨hl, fun i => ?_⟩
      split <;> simp
    | true =>
      rw [hlo] at h
      split at h
      · rename_i gl e1 e2
        rw [e2]
        simp only
        split at h
        · rename_i hz
          obtain ⟨y, h1, h2⟩ := accum_value _ _ _ h
          obtain ⟨h3, h4⟩ := longiPart_value _ _ _ _ _ _ h1
          have hly : u.length = y.length := by rw [hl, h4]
          refine ⟨by rw [h2, length_addFields _ _ hly, hl], fun i => ?_⟩
          rw [h2, getD_addFields _ _ hly, h3, if_pos ⟨trivial, hz⟩]
        · rename_i hz
          have h : u = x := Except.ok.inj h
          subst h
          refine ⟨hl, fun i => ?_⟩
          rw [if_neg (fun c => hz c.2), add_zero]
      · exact nomatch h
      · rename_i e1 e2
        have h : u = x := Except.ok.inj h
        subst h
        refine ⟨hl, fun i => ?_⟩
        cases hgl : w.gamma_l with
        | none => simp
        | some l => exact absurd hgl (e2 l rfl)
  split at h
  · exact nomatch h
  · rename_i u' e
    by_cases ht : o.tang = true ∧ ¬ Num.Eqv g 0
    · rw [if_pos ht] at e
      obtain ⟨y, h1, h2⟩ := accum_value _ _ _ e
      obtain ⟨h3, h4⟩ := tangPart_value _ _ _ _ _ _ _ h1
      have hly : u.length = y.length := by rw [hl, h4]
      obtain ⟨t1, t2⟩ := tail u' x (by rw [h2, length_addFields _ _ hly, hl]) h
      refine ⟨t1, fun i => ?_⟩
      rw [t2, h2, getD_addFields _ _ hly, h3, if_pos ht, add_assoc]
    · rw [if_neg ht] at e
      have e : u = u' := Except.ok.inj e
      subst e
      obtain ⟨t1, t2⟩ := tail u x hl h
      refine ⟨t1, fun i => ?_⟩
      rw [t2, if_neg ht, zero_add]

theorem overY_value (f : List (V3 ℝ) → List (V3 Num) → Except String (List (V3 Num))) (F : List (V3 ℝ) → ℕ → V3 Num) (n : ℕ)
    (hf : ∀ Y u x, Y.length = n → u.length = n → f Y u = .ok x → x.length = n ∧ ∀ i, x.getD i 0 = u.getD i 0 + F Y i) :
    ∀ (L : List (List (V3 ℝ))) (u x : List (V3 Num)), (∀ Y ∈ L, Y.length = n) → u.length = n → overY f u L = .ok x →
      x.length = n ∧ ∀ i, x.getD i 0 = u.getD i 0 + (L.map fun Y => F Y i).sum := by
  intro L
  induction L with
  | nil =>
    intro u x _ hu h
    have h : u = x := Except.ok.inj h
    subst h
    exact ⟨hu, fun i => by simp⟩
  | cons Y L ih =>
    intro u x hY hu h
    unfold overY at h
    cases e : f Y u with
    | error _ => rw [e] at h; exact nomatch h
    | ok v =>
      rw [e] at h
      obtain ⟨a, b⟩ := hf Y u v (hY Y (by simp)) hu e
      obtain ⟨c, d⟩ := ih v x (fun Y h => hY Y (by simp [h])) a h
      refine ⟨c, fun i => ?_⟩
      rw [d, b, List.map_cons, List.sum_cons, add_assoc]

/-- the points in cylinder axes relative to the hub are the rotor coordinates -/
theorem relC_axes (w : WT) (a v s : V3 ℝ) (hT : w.T_c2g = M3.ofCols a v s) (pts : List (V3 ℝ)) :
    relC w pts = rotorAxes a v s w.r_hub pts := by
  unfold relC rotorAxes relPts
  rw [List.map_map]
  apply List.map_congr_left
  intro p _
  simp only [Function.comp, hT, transformT_sub]
  rw [transformT_cols]

theorem mirror_axes (w : WT) (a v s : V3 ℝ) (hT : w.T_c2g = M3.ofCols a v s) (hv : V3.dot v v = 1) (ha : V3.dot a v = 0) (hs : V3.dot s v = 0)
    (pts : List (V3 ℝ)) :
    mirrorPts (pts.map (transformT w.T_c2g)) (transformT w.T_c2g w.r_hub) = rotorAxes a v s (groundImage v w.r_hub) pts := by
  unfold mirrorPts rotorAxes
  rw [List.map_map]
  apply List.map_congr_left
  intro p _
  simp only [Function.comp, hT, transformT_cols, groundImage]
  have h1 : ∀ x, V3.dot (p - (w.r_hub - V3.smul (2 * V3.dot w.r_hub v) v)) x = V3.dot p x - V3.dot w.r_hub x + 2 * V3.dot w.r_hub v * V3.dot x v := by
    intro x; simp [V3.dot]; ring
  rw [h1, h1, h1, hv, ha, hs]
  ext <;> simp

/-- C16 (values, one cylinder): for every history of an orthonormal turbine, whenever `compute_u` returns,
it returns at every point of the batch the free stream (unless `only_ind`) plus, in rotor axes, the sum of
the root vortex, the tangential and the longitudinal vorticity asked for, of the wake starting at the hub and,
with ground effect, of the same wake starting at the mirror image of the hub. -/
theorem C16_field (mini : (ℝ → Num) → ℝ) (R : ℝ) (hub shaft vert U0 : V3 ℝ) (L : Option Num) (G : Bool)
    (M : String) (ho : Orthonormal shaft vert) (h : List Op) (pts : List (V3 ℝ)) (o : Opts) (hnw : o.no_wake = false) :
    let w := (WT.new R hub shaft vert U0 L G M).run mini h
    let s := w.e_shaft_g
    let a := V3.cross vert s
    let centres := if o.ground.getD w.Ground then [w.r_hub, groundImage vert w.r_hub] else [w.r_hub]
    ∀ (g chi : Num) (u : List (V3 Num)), w.gamma_t = some [g] → (w.computeU pts o).2.chi = some chi → (w.computeU pts o).1 = .ok u →
      u.length = pts.length ∧ ∀ i < pts.length, u.getD i 0 =
        transform (M3.fin (M3.ofCols a vert s))
          ((match w.Gamma_r with
              | some Gr => if o.root = true ∧ ¬ Num.Eqv Gr 0 then
                  (centres.map fun c => (wakeRoot chi Gr (rotorAxes a vert s c pts)).getD i 0).sum else 0
              | none => 0) +
            (if o.tang = true ∧ ¬ Num.Eqv g 0 then
              (centres.map fun c => (wakeTang chi (o.Model.getD w.Model) g R o.R_far_field (rotorAxes a vert s c pts)).getD i 0).sum else 0) +
            (match w.gamma_l with
              | some [gl] => if o.longi = true ∧ ¬ Num.Eqv gl 0 then
                  (centres.map fun c => (wakeLongi chi gl R (rotorAxes a vert s c pts)).getD i 0).sum else 0
              | _ => 0)) + (if o.only_ind then 0 else V3.fin w.U0_g) := by
  intro w s a centres g chi u hg hchi hu
  have hi := frame_run mini shaft vert R h _ (frame_new R hub shaft vert U0 L G M)
  obtain ⟨a', s', e1, -, e3, e4, e5, e6, e7, e8, e9⟩ := frame_cols shaft vert R ho w hi
  have hs : s' = s := by
    have := hi.e_shaft_g
    rw [turn_eq] at this
    rw [e3]; exact this.symm
  have ha : a' = a := by rw [e9, hs]
  subst hs
  subst ha
  have hR : w.R = R := hi.R
  have hc : chi = usedChi w := by rw [computeU_state] at hchi; exact (Option.some.inj hchi).symm
  obtain ⟨gt, c, c1, c2, c3, c4⟩ := ok_cases hu
  have : gt = [g] := by rw [hg] at c1; exact (Option.some.inj c1).symm
  subst this
  rw [← hc] at c2
  -- the two lists of relative points
  let Ys := centres.map fun c => rotorAxes a vert s c pts
  have hYs : (if o.ground.getD w.Ground then [relC w pts, mirrorPts (pts.map (transformT w.T_c2g)) (transformT w.T_c2g w.r_hub)]
      else [relC w pts]) = Ys := by
    rw [relC_axes w a vert s e1, mirror_axes w a vert s e1 ho.vert e6 e8]
    simp only [Ys, centres]
    split <;> rfl
  have hlen : ∀ Y ∈ Ys, Y.length = pts.length := by
    intro Y hY
    simp only [Ys, List.mem_map] at hY
    obtain ⟨c, -, rfl⟩ := hY
    simp [rotorAxes]
  have hbig : (match (match o.root, w.Gamma_r with
          | true, some Gr => if ¬ Num.Eqv Gr 0 then overY (fun Y u => accum u (rootPart chi (Num.tan chi) Gr Y)) (pts.map fun _ => 0) Ys
            else .ok (pts.map fun _ => 0)
          | _, _ => .ok (pts.map fun _ => 0)) with
        | .error e => .error e
        | .ok u1 => overY (singleBody chi (Num.tan chi) (o.Model.getD w.Model) g w.gamma_l w.R o) u1 Ys) = Except.ok c := by
    rw [← c2, ← hYs]
    rfl
  clear c2
  have hroot : ∀ u1, (match o.root, w.Gamma_r with
          | true, some Gr => if ¬ Num.Eqv Gr 0 then overY (fun Y u => accum u (rootPart chi (Num.tan chi) Gr Y)) (pts.map fun _ => 0) Ys
            else .ok (pts.map fun _ => 0)
          | _, _ => .ok (pts.map fun _ => 0)) = Except.ok u1 → u1.length = pts.length ∧ ∀ i, u1.getD i 0 =
        (match w.Gamma_r with
          | some Gr => if o.root = true ∧ ¬ Num.Eqv Gr 0 then
              (centres.map fun c => (wakeRoot chi Gr (rotorAxes a vert s c pts)).getD i 0).sum else 0
          | none => 0) := by
    intro u1 h1
    have hz : (pts.map fun _ => (0 : V3 Num)).length = pts.length := by simp
    cases hGr : w.Gamma_r with
    | none =>
      rw [hGr] at h1
      have h1 : (pts.map fun _ => (0 : V3 Num)) = u1 := by
        cases ho' : o.root <;> (rw [ho'] at h1; exact Except.ok.inj h1)
      subst h1
      exact ⟨hz, fun i => getD_zeros _ _⟩
    | some Gr =>
      rw [hGr] at h1
      cases hro : o.root with
      | false =>
        rw [hro] at h1
        have h1 : (pts.map fun _ => (0 : V3 Num)) = u1 := Except.ok.inj h1
        subst h1
        exact ⟨hz, fun i => by rw [getD_zeros]; simp⟩
      | true =>
        rw [hro] at h1
        simp only at h1
        by_cases hz0 : ¬ Num.Eqv Gr 0
        · rw [if_pos hz0] at h1
          obtain ⟨r1, r2⟩ := overY_value _ (fun Y i => (wakeRoot chi Gr Y).getD i 0) pts.length (by
            intro Y u x hY hu hx
            obtain ⟨y, y1, y2⟩ := accum_value _ _ _ hx
            have y3 := rootPart_length _ _ _ _ _ y1
            have hly : u.length = y.length := by rw [hu, y3, hY]
            refine ⟨by rw [y2, length_addFields _ _ hly, hu], fun i => ?_⟩
            rw [y2, getD_addFields _ _ hly, rootPart_value _ _ _ _ y1]) Ys _ u1 hlen hz h1
          refine ⟨r1, fun i => ?_⟩
          rw [r2, getD_zeros, zero_add]
          simp only
          rw [if_pos ⟨trivial, hz0⟩, List.map_map]
          rfl
        · rw [if_neg hz0] at h1
          have h1 : (pts.map fun _ => (0 : V3 Num)) = u1 := Except.ok.inj h1
          subst h1
          refine ⟨hz, fun i => ?_⟩
          rw [getD_zeros]
          simp only
          rw [if_neg (fun c => hz0 c.2)]
  split at hbig
  · exact nomatch hbig
  · rename_i u1 hu1
    obtain ⟨r1, r2⟩ := hroot u1 hu1
    obtain ⟨q1, q2⟩ := overY_value _ (oneField w chi g o) pts.length (by
      intro Y u x hY hu hx
      obtain ⟨y1, y2⟩ := singleBody_value w chi g o Y u x (by rw [hu, hY]) hx
      exact ⟨by rw [y1, hY], y2⟩) Ys u1 c hlen r1 hbig
    rw [hnw] at c4
    simp only [Bool.false_eq_true, if_false] at c4
    have ul : u.length = pts.length := by rw [c4, WT.toGlobal, List.length_map, c3]
    refine ⟨ul, fun i hi' => ?_⟩
    have huc : u.getD i 0 = transform (M3.fin (M3.ofCols a vert s)) (c.getD i 0) + (if o.only_ind then 0 else V3.fin w.U0_g) := by
      have hic : i < c.length := by rw [c3]; exact hi'
      rw [c4, WT.toGlobal, e1]
      simp only [List.getD_eq_getElem?_getD, List.getElem?_map, List.getElem?_eq_getElem hic, Option.map_some, Option.getD_some]
      cases o.only_ind <;> simp
    rw [huc, q2, r2]
    congr 2
    rw [add_assoc]
    congr 1
    rw [List.map_map]
    have hsum : ∀ l : List (V3 ℝ), (l.map ((fun Y => oneField w chi g o Y i) ∘ fun c => rotorAxes a vert s c pts)).sum =
        (if o.tang = true ∧ ¬ Num.Eqv g 0 then
          (l.map fun c => (wakeTang chi (o.Model.getD w.Model) g R o.R_far_field (rotorAxes a vert s c pts)).getD i 0).sum else 0) +
        (match w.gamma_l with
          | some [gl] => if o.longi = true ∧ ¬ Num.Eqv gl 0 then
              (l.map fun c => (wakeLongi chi gl R (rotorAxes a vert s c pts)).getD i 0).sum else 0
          | _ => 0) := by
      intro l
      induction l with
      | nil =>
        simp only [List.map_nil, List.sum_nil, ite_self, zero_add]
        split <;> rfl
      | cons c l ih =>
        rw [List.map_cons, List.sum_cons, ih]
        simp only [List.map_cons, List.sum_cons, Function.comp, oneField, hR]
        split_ifs <;> split <;> (try split_ifs) <;> (try simp only [add_zero, zero_add]) <;> (try ac_rfl)
    exact hsum centres

/-- three of the tabulated wakes occur: a turbine loaded with one cylinder, evaluated with three models -/
example (mini : (ℝ → Num) → ℝ) (p : V3 ℝ) : ∃ u1 u2 u3, ((refTurbine.run mini [.loading refLoad]).computeU [p] { Model := some "VC" }).1 = .ok u1 ∧
    ((refTurbine.run mini [.loading refLoad, .chi (some 0)]).computeU [p] { Model := some "VD" }).1 = .ok u2 ∧
    ((refTurbine.run mini [.loading refLoad, .chi (some 0)]).computeU [p] { Model := some "SS", ground := some true }).1 = .ok u3 := by
  obtain ⟨r, Ct, hl⟩ := refTurbine_loaded mini refTurbine rfl
  have h0 : refTurbine.run mini [.loading refLoad] = (refTurbine.updateLoading mini refLoad).2 := rfl
  have h1 : refTurbine.run mini [.loading refLoad, .chi (some 0)] = ((refTurbine.updateLoading mini refLoad).2).setChi (some 0) := rfl
  have hy : ¬ (Num.fin 1e-7 < Num.abs 0) := by
    rw [show (0 : Num) = Num.fin 0 from rfl, Num.abs_fin, Num.lt_fin]; norm_num
  obtain ⟨u1, e1⟩ := (C16_single (refTurbine.run mini [.loading refLoad]) (-1) (by rw [h0, hl]) (by left; rw [h0, hl]) [p] (by simp) { Model := some "VC" } _
    (by rw [computeU_state])).2 (by rw [h0, hl]; exact ⟨fun _ => Or.inl rfl, fun _ _ _ _ => rfl⟩)
  obtain ⟨u2, e2⟩ := (C16_single (refTurbine.run mini [.loading refLoad, .chi (some 0)]) (-1) (by rw [h1, hl]; rfl) (by left; rw [h1, hl]; rfl) [p] (by simp)
    { Model := some "VD" } _ (by rw [computeU_state])).2 (by
      rw [h1, hl]; exact ⟨fun _ => Or.inr ⟨hy, by simp⟩, fun _ h => nomatch h⟩)
  obtain ⟨u3, e3⟩ := (C16_single (refTurbine.run mini [.loading refLoad, .chi (some 0)]) (-1) (by rw [h1, hl]; rfl) (by left; rw [h1, hl]; rfl) [p] (by simp)
    { Model := some "SS", ground := some true } _ (by rw [computeU_state])).2 (by
      rw [h1, hl]; exact ⟨fun _ => Or.inr ⟨hy, by simp⟩, fun _ h => nomatch h⟩)
  exact ⟨u1, u2, u3, e1, e2, e3⟩

/-- C16 (values, several cylinders): with `VC` and without root vortex and longitudinal vorticity (for these see `C16_field_multi_all`), the velocity is the free
stream (unless `only_ind`) plus, in rotor axes, the sum over the cylinders `(γ_j,r_j)` with
`|γ_j|>0` of the tangential wake of strength `γ_j` and radius `r_j`, of the hub and, with ground effect, of its
mirror image. -/
theorem C16_field_multi (mini : (ℝ → Num) → ℝ) (R : ℝ) (hub shaft vert U0 : V3 ℝ) (L : Option Num) (G : Bool)
    (M : String) (ho : Orthonormal shaft vert) (h : List Op) (pts : List (V3 ℝ)) (o : Opts) (hnw : o.no_wake = false)
    (hlo : o.longi = false) (hro : o.root = false) :
    let w := (WT.new R hub shaft vert U0 L G M).run mini h
    let s := w.e_shaft_g
    let a := V3.cross vert s
    let centres := if o.ground.getD w.Ground then [w.r_hub, groundImage vert w.r_hub] else [w.r_hub]
    ∀ (gt : List Num) (r : List ℝ) (chi : Num) (u : List (V3 Num)), w.gamma_t = some gt → gt.length ≠ 1 → w.r = some r →
      (w.computeU pts o).2.chi = some chi → (w.computeU pts o).1 = .ok u →
      u.length = pts.length ∧ ∀ i < pts.length, u.getD i 0 =
        transform (M3.fin (M3.ofCols a vert s))
          (if o.tang then (centres.map fun c => (((gt.zip r).filter fun y => 0 < Num.abs y.1).map fun y =>
              (wakeTang chi "VC" y.1 y.2 o.R_far_field (rotorAxes a vert s c pts)).getD i 0).sum).sum else 0) +
        (if o.only_ind then 0 else V3.fin w.U0_g) := by
  intro w s a centres gt r chi u hg hg1 hr hchi hu
  have hi := frame_run mini shaft vert R h _ (frame_new R hub shaft vert U0 L G M)
  obtain ⟨a', s', e1, -, e3, e4, e5, e6, e7, e8, e9⟩ := frame_cols shaft vert R ho w hi
  have hs : s' = s := by
    have := hi.e_shaft_g
    rw [turn_eq] at this
    rw [e3]; exact this.symm
  have ha : a' = a := by rw [e9, hs]
  subst hs
  subst ha
  have hc : chi = usedChi w := by rw [computeU_state] at hchi; exact (Option.some.inj hchi).symm
  obtain ⟨gt', c, c1, c2, c3, c4⟩ := ok_cases hu
  have : gt' = gt := by rw [hg] at c1; exact (Option.some.inj c1).symm
  subst this
  rw [← hc, inducedC_multi _ _ _ hg1 _ _ hro] at c2
  rw [hnw] at c4
  simp only [Bool.false_eq_true, if_false] at c4
  have ul : u.length = pts.length := by rw [c4, WT.toGlobal, List.length_map, c3]
  refine ⟨ul, fun i hi' => ?_⟩
  have huc : u.getD i 0 = transform (M3.fin (M3.ofCols a vert s)) (c.getD i 0) + (if o.only_ind then 0 else V3.fin w.U0_g) := by
    have hic : i < c.length := by rw [c3]; exact hi'
    rw [c4, WT.toGlobal, e1]
    simp only [List.getD_eq_getElem?_getD, List.getElem?_map, List.getElem?_eq_getElem hic, Option.map_some, Option.getD_some]
    cases o.only_ind <;> simp
  rw [huc]
  congr 2
  have hrel : ((pts.map (transformT w.T_c2g)).map fun p => p - transformT w.T_c2g w.r_hub) = rotorAxes a vert s w.r_hub pts :=
    relC_axes w a vert s e1 pts
  have hmir : ((pts.map (transformT w.T_c2g)).map fun p => p - ⟨(transformT w.T_c2g w.r_hub).x, -(transformT w.T_c2g w.r_hub).y, (transformT w.T_c2g w.r_hub).z⟩)
      = rotorAxes a vert s (groundImage vert w.r_hub) pts := by
    rw [← mirror_axes w a vert s e1 ho.vert e6 e8]
    unfold mirrorPts
    apply List.map_congr_left
    intro p _
    ext <;> simp <;> ring
  unfold multiPart at c2
  rw [hr] at c2
  by_cases hM : o.Model.getD w.Model = "VC"
  swap
  · rw [if_neg hM] at c2; exact nomatch c2
  rw [if_pos hM] at c2
  simp only at c2
  by_cases hl1 : gt'.length ≠ r.length
  · rw [if_pos hl1] at c2; exact nomatch c2
  rw [if_neg hl1] at c2
  by_cases hl2 : (w.gamma_l.any fun l => decide (l.length ≠ r.length)) = true
  · rw [if_pos hl2] at c2; exact nomatch c2
  rw [if_neg hl2, hlo] at c2
  have c2 := Except.ok.inj c2
  by_cases ht : o.tang = true
  · rw [if_pos ht] at c2 ⊢
    have hz : ∀ v : List (V3 Num), v.length = pts.length → (addFields (pts.map fun _ => 0) v).getD i 0 = v.getD i 0 := by
      intro v hv
      rw [getD_addFields _ _ (by simp [hv]), getD_zeros, zero_add]
    by_cases hy : yawed chi
    · rw [if_pos hy] at c2
      have hS := C68_tang_sum (pts.map (transformT w.T_c2g)) [⟨transformT w.T_c2g w.r_hub, List.zipWith (fun g R => (g, R, Num.tan chi)) gt' r⟩] 180 (o.ground.getD w.Ground)
      rw [← c2, hz _ (by rw [hS.1]; simp), hS.2 i]
      simp only [List.map_cons, List.map_nil, List.sum_cons, List.sum_nil, add_zero, hrel, hmir]
      have hK : ∀ Y : List (V3 ℝ), ∀ gt r, (((List.zipWith (fun g (R : ℝ) => (g, R, Num.tan chi)) gt r).filter fun c => decide (0 < Num.abs c.1)).map fun c =>
          (svcTang Y c.1 c.2.1 c.2.2 180 false).getD i 0).sum = (((gt.zip r).filter fun y => decide (0 < Num.abs y.1)).map fun y =>
              (wakeTang chi "VC" y.1 y.2 o.R_far_field Y).getD i 0).sum := by
        intro Y gt
        induction gt with
        | nil => intro r; simp
        | cons g gt ih =>
          intro r
          cases r with
          | nil => simp
          | cons R r =>
            have hw : wakeTang chi "VC" g R o.R_far_field Y = svcTang Y g R (Num.tan chi) 180 false := by
              unfold wakeTang; rw [if_pos (show skewed chi from hy)]
            simp only [List.zipWith_cons_cons, List.zip_cons_cons, List.filter_cons]
            split_ifs
            · simp only [List.map_cons, List.sum_cons, ih, hw]
            · exact ih r
      simp only [hK]
      cases hgr : o.ground.getD w.Ground <;> simp [centres, hgr]
    · rw [if_neg hy] at c2
      have hS := C50_tang_sum (pts.map (transformT w.T_c2g)) [⟨transformT w.T_c2g w.r_hub, List.zip gt' r⟩] 0 (o.ground.getD w.Ground)
      rw [← c2, hz _ (by rw [hS.1]; simp), hS.2 i]
      have hK : ∀ (Y : List (V3 ℝ)) (g : Num) (R : ℝ), wakeTang chi "VC" g R o.R_far_field Y = vcTang Y g R 0 := by
        intro Y g R
        unfold wakeTang; rw [if_neg (show ¬ skewed chi from hy), if_pos rfl]
      simp only [List.map_cons, List.map_nil, List.sum_cons, List.sum_nil, add_zero, hrel, hmir, hK]
      cases hgr : o.ground.getD w.Ground <;> simp [centres, hgr]
  · rw [if_neg ht] at c2 ⊢
    rw [← c2, getD_zeros]

end Wiz
