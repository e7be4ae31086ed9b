import Verif.Props.TurbineMulti
import Verif.Props.CompleteWake2
import Verif.Props.FarmStations
/-! # C153: the ground effect of a turbine is a second turbine under the ground -/
set_option autoImplicit false
namespace Wiz
open Spec Classical Real
noncomputable section

theorem Num.fin_mul_add (k : ℝ) (x y : Num) : Num.fin k * (x + y) = Num.fin k * x + Num.fin k * y := by
  have key : ∀ A B : Num, Num.fin k * .pinf = A → Num.fin k * .ninf = B → ((A = .pinf ∧ B = .ninf) ∨ (A = .ninf ∧ B = .pinf) ∨ (A = .nan ∧ B = .nan)) →
      Num.fin k * (x + y) = Num.fin k * x + Num.fin k * y := by
    intro A B hA hB h
    rcases h with ⟨rfl, rfl⟩ | ⟨rfl, rfl⟩ | ⟨rfl, rfl⟩ <;> cases x <;> cases y <;>
      simp only [Num.fin_add, Num.fin_mul, mul_add, hA, hB, Num.mul_nan] <;> first | rfl | (refine Eq.trans ?_ hA; rfl) | (refine Eq.trans ?_ hB; rfl) | exact hA | exact hB
  refine key _ _ rfl rfl ?_
  change (Num.infSign k = _ ∧ Num.infSign (-k) = _) ∨ (Num.infSign k = _ ∧ Num.infSign (-k) = _) ∨ (Num.infSign k = _ ∧ Num.infSign (-k) = _)
  unfold Num.infSign
  rcases lt_trichotomy k 0 with h | h | h
  · right; left; simp [h, h.le, h.not_gt]
  · right; right; simp [h]
  · left; simp [h, h.le, h.not_gt]

theorem transform_add (T : M3 ℝ) (x y : V3 Num) : transform (M3.fin T) (x + y) = transform (M3.fin T) x + transform (M3.fin T) y := by
  have e : ∀ a b c d e f : Num, (a + b) + (c + d) + (e + f) = (a + c + e) + (b + d + f) := by
    intro a b c d e f
    rw [add_add_add_comm a b c d, add_add_add_comm]
  ext <;> simp only [transform, M3.fin, V3.add_x, V3.add_y, V3.add_z, Num.fin_mul_add] <;> exact e _ _ _ _ _ _

theorem run_position (mini : (ℝ → Num) → ℝ) (w0 : WT) (h : List Op) (p : V3 ℝ) : w0.run mini (h ++ [.position p]) = { w0.run mini h with r_hub := p } := by
  unfold WT.run
  rw [List.foldl_append]
  rfl

theorem getElem_of_getD {α : Type} [Zero α] (u : List α) (n i : ℕ) (x : α) (hl : u.length = n) (hi : i < n) (h : u.getD i 0 = x) : u[i]? = some x := by
  rw [List.getElem?_eq_getElem (by omega)]
  rw [List.getD_eq_getElem?_getD, List.getElem?_eq_getElem (by omega), Option.getD_some] at h
  rw [h]

theorem sum_pair {α : Type} (f : α → V3 Num) (a b : α) : ([a, b].map f).sum = f a + f b := by
  simp only [List.map_cons, List.map_nil, List.sum_cons, List.sum_nil, add_zero]

theorem sum_one {α : Type} (f : α → V3 Num) (a : α) : ([a].map f).sum = f a := by
  simp only [List.map_cons, List.map_nil, List.sum_cons, List.sum_nil, add_zero]

/-- C153: one turbine.  After any history, for a turbine with one cylinder (whatever parts of the wake and model are asked for) or with several cylinders (without the longitudinal vorticity), `compute_u` with
the ground is `compute_u` without it plus the velocity induced by the same turbine moved with `update_position` to the image of its hub under the ground: it raises an exception exactly when either of
them does, and else returns the sum at every point, including at the points where it is not a number. -/
theorem C153_turbine (mini : (ℝ → Num) → ℝ) (c : TurbineArgs) (ho : Orthonormal c.shaft c.vert) (h : List Op) (pts : List (V3 ℝ)) (hp : pts ≠ []) (o : Opts) (hnw : o.no_wake = false) :
    let w := c.build.run mini h
    let w' := c.build.run mini (h ++ [.position (groundImage c.vert w.r_hub)])
    let on := (w.computeU pts { o with ground := some true }).1
    let off := (w.computeU pts { o with ground := some false }).1
    let img := (w'.computeU pts { o with ground := some false, only_ind := true }).1
    ((∃ g, w.gamma_t = some [g] ∧ (w.gamma_l = none ∨ ∃ x, w.gamma_l = some [x])) ∨
      (o.longi = false ∧ ∃ gt r, w.gamma_t = some gt ∧ gt.length ≠ 1 ∧ w.r = some r ∧ gt.length = r.length ∧ (w.gamma_l = none ∨ ∃ gl, w.gamma_l = some gl ∧ gl.length = r.length))) →
    ((∃ u, on = .ok u) ↔ ∃ u, off = .ok u) ∧ ((∃ u, on = .ok u) ↔ ∃ u, img = .ok u) ∧
    ∀ u u1 u2, on = .ok u → off = .ok u1 → img = .ok u2 → ∀ i < pts.length, ∃ x y, u1[i]? = some x ∧ u2[i]? = some y ∧ u[i]? = some (x + y) := by
  intro w w' on off img hst
  have hw' : w' = { w with r_hub := groundImage c.vert w.r_hub } := run_position mini c.build h _
  have hw : (WT.new c.R c.hub c.shaft c.vert c.U0 c.Lambda c.Ground c.Model).run mini h = w := rfl
  have hcs : ∀ o', (w.computeU pts o').2.chi = some (usedChi w) := fun o' => by rw [computeU_state]; rfl
  have hcs' : ∀ o', (w'.computeU pts o').2.chi = some (usedChi w) := fun o' => by rw [computeU_state, hw']; rfl
  have hT : ∀ (T : M3 ℝ) (A B C A' B' C' W W1 : V3 Num), W1 = 0 → transform (M3.fin T) ((A + A') + (B + B') + (C + C')) + W = (transform (M3.fin T) (A + B + C) + W) + (transform (M3.fin T) (A' + B' + C') + W1) := by
    intro T A B C A' B' C' W W1 hW
    rw [hW, add_zero]
    have : (A + A') + (B + B') + (C + C') = (A + B + C) + (A' + B' + C') := by
      rw [add_add_add_comm A A' B B', add_add_add_comm]
    rw [this, transform_add, add_right_comm]
  rcases hst with ⟨g, hg, hgl⟩ | ⟨hlo, gt, r, hgt, hg1, hr, hlen, hgl⟩
  · have h1 := C16_single w g hg hgl pts hp { o with ground := some true } _ (hcs _)
    have h2 := C16_single w g hg hgl pts hp { o with ground := some false } _ (hcs _)
    have h3 := C16_single w' g (by rw [hw']; exact hg) (by rw [hw']; exact hgl) pts hp { o with ground := some false, only_ind := true } _ (hcs' _)
    refine ⟨h1.trans h2.symm, h1.trans (Iff.trans ?_ h3.symm), ?_⟩
    · rw [hw']
    · intro u u1 u2 e e1 e2 i hi
      have ktrue := C16_field mini c.R c.hub c.shaft c.vert c.U0 c.Lambda c.Ground c.Model ho h pts { o with ground := some true } hnw
      rw [hw] at ktrue
      obtain ⟨l, v⟩ := ktrue g (usedChi w) u hg (hcs _) e
      have kfalse := C16_field mini c.R c.hub c.shaft c.vert c.U0 c.Lambda c.Ground c.Model ho h pts { o with ground := some false } hnw
      rw [hw] at kfalse
      obtain ⟨l1, v1⟩ := kfalse g (usedChi w) u1 hg (hcs _) e1
      have k := C16_field mini c.R c.hub c.shaft c.vert c.U0 c.Lambda c.Ground c.Model ho (h ++ [.position (groundImage c.vert w.r_hub)]) pts
        { o with ground := some false, only_ind := true } hnw
      rw [show (WT.new c.R c.hub c.shaft c.vert c.U0 c.Lambda c.Ground c.Model).run mini (h ++ [.position (groundImage c.vert w.r_hub)]) = { w with r_hub := groundImage c.vert w.r_hub } from hw'] at k
      obtain ⟨l2, v2⟩ := k g (usedChi w) u2 hg (by rw [← hw']; exact hcs' _) (by rw [← hw']; exact e2)
      refine ⟨_, _, getElem_of_getD u1 _ i _ l1 hi (v1 i hi), getElem_of_getD u2 _ i _ l2 hi (v2 i hi), getElem_of_getD u _ i _ l hi ((v i hi).trans ?_)⟩
      change _ = _ + (transform (M3.fin (M3.ofCols (V3.cross c.vert w.e_shaft_g) c.vert w.e_shaft_g)) _ + _)
      simp only [Option.getD_some, if_true, Bool.false_eq_true, if_false, sum_pair, sum_one]
      refine Eq.trans ?_ (hT _ _ _ _ _ _ _ _ _ rfl)
      congr 2
      congr 1
      · congr 1
        · cases w.Gamma_r with
          | none => simp
          | some G => simp only; split_ifs <;> simp
        · split_ifs <;> simp
      · cases w.gamma_l with
        | none => simp
        | some l => 
          rcases l with _ | ⟨a, _ | ⟨b, l⟩⟩
          · simp
          · simp only; split_ifs <;> simp
          · simp
  · have h1 := C16_multi w gt r hgt hg1 hr hlen hgl pts hp { o with ground := some true }
    have h2 := C16_multi w gt r hgt hg1 hr hlen hgl pts hp { o with ground := some false }
    have h3 := C16_multi w' gt r (by rw [hw']; exact hgt) hg1 (by rw [hw']; exact hr) hlen (by rw [hw']; exact hgl) pts hp { o with ground := some false, only_ind := true }
    refine ⟨h1.trans h2.symm, h1.trans (Iff.trans ?_ h3.symm), ?_⟩
    · rw [hw']
    · intro u u1 u2 e e1 e2 i hi
      have ktrue := C16_field_multi_all mini c.R c.hub c.shaft c.vert c.U0 c.Lambda c.Ground c.Model ho h pts { o with ground := some true } hnw
      rw [hw] at ktrue
      obtain ⟨l, v⟩ := ktrue gt r (usedChi w) u hgt hg1 hr (hcs _) e
      have kfalse := C16_field_multi_all mini c.R c.hub c.shaft c.vert c.U0 c.Lambda c.Ground c.Model ho h pts { o with ground := some false } hnw
      rw [hw] at kfalse
      obtain ⟨l1, v1⟩ := kfalse gt r (usedChi w) u1 hgt hg1 hr (hcs _) e1
      have k := C16_field_multi_all mini c.R c.hub c.shaft c.vert c.U0 c.Lambda c.Ground c.Model ho (h ++ [.position (groundImage c.vert w.r_hub)]) pts
        { o with ground := some false, only_ind := true } hnw
      rw [show (WT.new c.R c.hub c.shaft c.vert c.U0 c.Lambda c.Ground c.Model).run mini (h ++ [.position (groundImage c.vert w.r_hub)]) = { w with r_hub := groundImage c.vert w.r_hub } from hw'] at k
      obtain ⟨l2, v2⟩ := k gt r (usedChi w) u2 hgt hg1 hr (by rw [← hw']; exact hcs' _) (by rw [← hw']; exact e2)
      refine ⟨_, _, getElem_of_getD u1 _ i _ l1 hi (v1 i hi), getElem_of_getD u2 _ i _ l2 hi (v2 i hi), getElem_of_getD u _ i _ l hi ((v i hi).trans ?_)⟩
      change _ = _ + (transform (M3.fin (M3.ofCols (V3.cross c.vert w.e_shaft_g) c.vert w.e_shaft_g)) _ + _)
      simp only [Option.getD_some, if_true, Bool.false_eq_true, if_false, sum_pair, sum_one, hlo]
      refine Eq.trans ?_ (hT _ _ _ _ _ _ _ _ _ rfl)
      congr 2
      congr 1
      · congr 1
        · cases w.Gamma_r with
          | none => simp
          | some G => simp only; split_ifs <;> simp
        · split_ifs <;> simp
      · cases w.gamma_l with
        | none => simp
        | some l => simp

/-- the turbines whose ground effect is an image: one cylinder, or several cylinders without the longitudinal vorticity -/
def ImageCase (w : WT) (o : Opts) : Prop :=
  (∃ g, w.gamma_t = some [g] ∧ (w.gamma_l = none ∨ ∃ x, w.gamma_l = some [x])) ∨
  (o.longi = false ∧ ∃ gt r, w.gamma_t = some gt ∧ gt.length ≠ 1 ∧ w.r = some r ∧ gt.length = r.length ∧ (w.gamma_l = none ∨ ∃ gl, w.gamma_l = some gl ∧ gl.length = r.length))

theorem sum_images (ts : List ℕ) (img : ℕ → ℕ) (f g : PyObj → V3 Num) (h : ∀ t ∈ ts, f (.turbine t) = g (.turbine t) + g (.turbine (img t))) :
    ((ts.map PyObj.turbine).map f).sum = (((ts ++ ts.map img).map PyObj.turbine).map g).sum := by
  induction ts with
  | nil => rfl
  | cons t l ih =>
    have h1 := h t List.mem_cons_self
    have h2 := ih fun t ht => h t (List.mem_cons_of_mem _ ht)
    simp only [List.map_cons, List.sum_cons, List.map_append, List.sum_append, List.cons_append] at h2 ⊢
    rw [h1, h2, add_add_add_comm, add_assoc]

/-- C153: a farm.  `velocity_field` of a farm with the ground is `velocity_field` without the ground of the farm to which the image turbines have been added (each built and called like its original, then
moved with `update_position` under the ground): the same exceptions, or the same velocities at all points. -/
theorem C153_farm (mini : (ℝ → Num) → ℝ) (args : ℕ → TurbineArgs) (hist : ℕ → List Op) (ts : List ℕ) (img : ℕ → ℕ) (w : ℕ → WT)
    (hw : ∀ t ∈ ts, w t = (args t).build.run mini (hist t))
    (hi : ∀ t ∈ ts, w (img t) = (args t).build.run mini (hist t ++ [.position (groundImage (args t).vert (w t).r_hub)]))
    (ho : ∀ t ∈ ts, Orthonormal (args t).shaft (args t).vert) (pts : List (V3 ℝ)) (hp : pts ≠ []) (o : Opts) (hnw : o.no_wake = false)
    (hc : ∀ t ∈ ts, ImageCase (w t) o) (U0 : Option (V3 ℝ)) :
    let q := frun mini (ts.map .turbine) w []
    let q' := frun mini ((ts ++ ts.map img).map .turbine) w []
    let on := (farmVelocity q.1 q.2 pts { o with ground := some true } U0).1
    let off := (farmVelocity q'.1 q'.2 pts { o with ground := some false } U0).1
    ((∃ u, on = .ok u) ↔ ∃ u, off = .ok u) ∧ ∀ u u', on = .ok u → off = .ok u' → u = u' := by
  intro q q' on off
  have hget : ∀ t, q.2.get t = w t := fun _ => rfl
  have hget' : ∀ t, q'.2.get t = w t := fun _ => rfl
  have key : ∀ t ∈ ts, ((∃ u, inducedBy q.2 pts { o with ground := some true } t = .ok u) ↔ ∃ u, inducedBy q'.2 pts { o with ground := some false } t = .ok u) ∧
      ((∃ u, inducedBy q.2 pts { o with ground := some true } t = .ok u) ↔ ∃ u, inducedBy q'.2 pts { o with ground := some false } (img t) = .ok u) ∧
      ∀ u u1 u2, inducedBy q.2 pts { o with ground := some true } t = .ok u → inducedBy q'.2 pts { o with ground := some false } t = .ok u1 →
        inducedBy q'.2 pts { o with ground := some false } (img t) = .ok u2 → ∀ i < pts.length, u.getD i 0 = u1.getD i 0 + u2.getD i 0 := by
    intro t ht
    have k := C153_turbine mini (args t) (ho t ht) (hist t) pts hp { o with only_ind := true } hnw
    rw [← hw t ht] at k
    dsimp only at k
    rw [← hi t ht] at k
    obtain ⟨k1, k2, k3⟩ := k (hc t ht)
    refine ⟨k1, k2, fun u u1 u2 e e1 e2 i hil => ?_⟩
    obtain ⟨x, y, x1, y1, z⟩ := k3 u u1 u2 e e1 e2 i hil
    simp only [List.getD_eq_getElem?_getD, x1, y1, z, Option.getD_some]
  have s1 := C18_succeeds_iff (ts.map PyObj.turbine) q.2 pts { o with ground := some true } U0
  have s2 := C18_succeeds_iff ((ts ++ ts.map img).map PyObj.turbine) q'.2 pts { o with ground := some false } U0
  have hsucc : (∃ u, on = .ok u) ↔ ∃ u, off = .ok u := by
    refine s1.trans (Iff.trans ?_ s2.symm)
    constructor
    · intro H x hx
      obtain ⟨t', ht', rfl⟩ := List.mem_map.1 hx
      rcases List.mem_append.1 ht' with ht | ht
      · obtain ⟨_, v, e, hv⟩ := H (.turbine t') (List.mem_map.2 ⟨t', ht, rfl⟩)
        cases e
        obtain ⟨v', hv'⟩ := (key t' ht).1.1 ⟨v, hv⟩
        exact ⟨_, v', rfl, hv'⟩
      · obtain ⟨t, ht2, rfl⟩ := List.mem_map.1 ht
        replace ht := ht2
        obtain ⟨_, v, e, hv⟩ := H (.turbine t) (List.mem_map.2 ⟨t, ht, rfl⟩)
        cases e
        obtain ⟨v', hv'⟩ := (key t ht).2.1.1 ⟨v, hv⟩
        exact ⟨_, v', rfl, hv'⟩
    · intro H x hx
      obtain ⟨t, ht, rfl⟩ := List.mem_map.1 hx
      obtain ⟨_, v, e, hv⟩ := H (.turbine t) (List.mem_map.2 ⟨t, List.mem_append_left _ ht, rfl⟩)
      cases e
      obtain ⟨v', hv'⟩ := (key t ht).1.2 ⟨v, hv⟩
      exact ⟨_, v', rfl, hv'⟩
  refine ⟨hsucc, fun u u' e e' => ?_⟩
  obtain ⟨l1, v1⟩ := C18_sum _ _ _ _ _ _ e
  obtain ⟨l2, v2⟩ := C18_sum _ _ _ _ _ _ e'
  apply List.ext_getElem (by omega)
  intro i h1 h2
  have a := v1 i (by omega)
  have b := v2 i (by omega)
  rw [List.getD_eq_getElem?_getD, List.getElem?_eq_getElem h1, Option.getD_some] at a
  rw [List.getD_eq_getElem?_getD, List.getElem?_eq_getElem h2, Option.getD_some] at b
  rw [a, b]
  congr 1
  refine sum_images ts img _ _ fun t ht => ?_
  have ok1 := s1.1 ⟨u, e⟩
  obtain ⟨_, v, ee, hv⟩ := ok1 (.turbine t) (List.mem_map.2 ⟨t, ht, rfl⟩)
  cases ee
  obtain ⟨v1', hv1⟩ := (key t ht).1.1 ⟨v, hv⟩
  obtain ⟨v2', hv2⟩ := (key t ht).2.1.1 ⟨v, hv⟩
  simp only [inducedAt, hv, hv1, hv2]
  exact (key t ht).2.2 v v1' v2' hv hv1 hv2 i (by omega)

/-- C153: what the ground does with the longitudinal vorticity of several cylinders and a straight wake: the image turbine has none (see C68). -/
theorem C153_several_longi (mini : (ℝ → Num) → ℝ) (c : TurbineArgs) (ho : Orthonormal c.shaft c.vert) (h : List Op) (pts : List (V3 ℝ)) (hp : pts ≠ []) (o : Opts) (hnw : o.no_wake = false) :
    let w := c.build.run mini h
    let w' := c.build.run mini (h ++ [.position (groundImage c.vert w.r_hub)])
    let on := (w.computeU pts { o with ground := some true }).1
    let off := (w.computeU pts { o with ground := some false }).1
    let img := (w'.computeU pts { o with ground := some false, only_ind := true, longi := false }).1
    ∀ gt r chi, w.gamma_t = some gt → gt.length ≠ 1 → w.r = some r → (w.computeU pts o).2.chi = some chi → ¬ (Num.fin 1e-7 < Num.abs chi) →
    ∀ u u1 u2, on = .ok u → off = .ok u1 → img = .ok u2 → ∀ i < pts.length, ∃ x y, u1[i]? = some x ∧ u2[i]? = some y ∧ u[i]? = some (x + y) := by
  intro w w' on off img gt r chi hgt hg1 hr hchi hsk u u1 u2 e e1 e2 i hi
  have hw' : w' = { w with r_hub := groundImage c.vert w.r_hub } := run_position mini c.build h _
  have hw : (WT.new c.R c.hub c.shaft c.vert c.U0 c.Lambda c.Ground c.Model).run mini h = w := rfl
  have hcs : ∀ o', (w.computeU pts o').2.chi = some (usedChi w) := fun o' => by rw [computeU_state]; rfl
  have hcs' : ∀ o', (w'.computeU pts o').2.chi = some (usedChi w) := fun o' => by rw [computeU_state, hw']; rfl
  have hc : chi = usedChi w := by rw [hcs] at hchi; exact (Option.some.inj hchi).symm
  have hsk' : ¬ skewed (usedChi w) := by rw [← hc]; exact hsk
  have hT : ∀ (T : M3 ℝ) (A B C A' B' C' W W1 : V3 Num), W1 = 0 → transform (M3.fin T) ((A + A') + (B + B') + (C + C')) + W = (transform (M3.fin T) (A + B + C) + W) + (transform (M3.fin T) (A' + B' + C') + W1) := by
    intro T A B C A' B' C' W W1 hW
    rw [hW, add_zero]
    have : (A + A') + (B + B') + (C + C') = (A + B + C) + (A' + B' + C') := by
      rw [add_add_add_comm A A' B B', add_add_add_comm]
    rw [this, transform_add, add_right_comm]
  have ktrue := C16_field_multi_all mini c.R c.hub c.shaft c.vert c.U0 c.Lambda c.Ground c.Model ho h pts { o with ground := some true } hnw
  have kfalse := C16_field_multi_all mini c.R c.hub c.shaft c.vert c.U0 c.Lambda c.Ground c.Model ho h pts { o with ground := some false } hnw
  rw [hw] at ktrue kfalse
  obtain ⟨l, v⟩ := ktrue gt r (usedChi w) u hgt hg1 hr (hcs _) e
  obtain ⟨l1, v1⟩ := kfalse gt r (usedChi w) u1 hgt hg1 hr (hcs _) e1
  have k := C16_field_multi_all mini c.R c.hub c.shaft c.vert c.U0 c.Lambda c.Ground c.Model ho (h ++ [.position (groundImage c.vert w.r_hub)]) pts
    { o with ground := some false, only_ind := true, longi := false } hnw
  rw [show (WT.new c.R c.hub c.shaft c.vert c.U0 c.Lambda c.Ground c.Model).run mini (h ++ [.position (groundImage c.vert w.r_hub)]) = { w with r_hub := groundImage c.vert w.r_hub } from hw'] at k
  obtain ⟨l2, v2⟩ := k gt r (usedChi w) u2 hgt hg1 hr (by rw [← hw']; exact hcs' _) (by rw [← hw']; exact e2)
  refine ⟨_, _, getElem_of_getD u1 _ i _ l1 hi (v1 i hi), getElem_of_getD u2 _ i _ l2 hi (v2 i hi), getElem_of_getD u _ i _ l hi ((v i hi).trans ?_)⟩
  change _ = _ + (transform (M3.fin (M3.ofCols (V3.cross c.vert w.e_shaft_g) c.vert w.e_shaft_g)) _ + _)
  simp only [Option.getD_some, if_true, Bool.false_eq_true, if_false, sum_pair, sum_one, hsk', and_false, false_and]
  refine Eq.trans ?_ (hT _ _ _ _ _ _ _ _ _ rfl)
  congr 2
  congr 1
  · congr 1
    · cases w.Gamma_r with
      | none => simp
      | some G => simp only; split_ifs <;> simp
    · split_ifs <;> simp
  · cases w.gamma_l with
    | none => simp
    | some l => simp

/-- C153: the complete wake over the ground.  A turbine with one cylinder in a horizontal wind of direction `d`, at an angle with the shaft, over the ground: `compute_u` with all parts of the wake is the wind
plus the Biot–Savart velocities of the complete wake of the rotor and of the same wake of the rotor moved under the ground, within the bound of the 180-point quadrature for each. -/
theorem C153_wake (mini : (ℝ → Num) → ℝ) (c : TurbineArgs) (ho : Orthonormal c.shaft c.vert) (h : List Op) (pts : List (V3 ℝ)) (hp : pts ≠ []) (o : Opts) (hnw : o.no_wake = false)
    (hta : o.tang = true) (hlo : o.longi = true) (hro : o.root = true) (γ γl Γr D U : ℝ) (d : V3 ℝ) (hD : 0 < D) (hU : 0 < U) (hd : V3.dot d d = 1) (hdv : V3.dot d c.vert = 0) (hR : 0 < c.R) :
    let w := c.build.run mini h
    let s := w.e_shaft_g
    let c0 := w.r_hub
    let c1 := groundImage c.vert w.r_hub
    w.gamma_t = some [.fin γ] → w.gamma_l = some [.fin γl] → w.Gamma_r = some (.fin Γr) → w.chi = none → w.U0_g = V3.smul U d → 0 < V3.dot d s → 1e-7 < |V3.dot d (V3.cross c.vert s)| →
    o.ground.getD w.Ground = true → o.Model.getD w.Model = "VC" →
    ∃ u, (w.computeU pts o).1 = .ok u ∧ ∀ (i : ℕ) (p : V3 ℝ), pts[i]? = some p →
      (∀ e ∈ [c0, c1], Clear D c.R e c.vert s d p ∧ (Γr ≠ 0 → 1e-7 < axisDist s e p ∧ 1e-5 ≤ V3.norm (p - e) ∧ 1e-12 ≤ V3.norm (p - e) * (V3.norm (p - e) - V3.dot (p - e) d))) →
      ∃ v, u[i]? = some (V3.fin v) ∧
        V3.norm (v - ((if o.only_ind then 0 else V3.smul U d) + completeWake [γ] [(γl, c.R)] Γr c0 c.vert s d p + completeWake [γ] [(γl, c.R)] Γr c1 c.vert s d p)) ≤
        2 * (√3 * π^2/(3 * 179^2) * ((c.R/D * (c.R/D + 2)) * (|γ| * (1 + 10 * (c.R/D) + 18 * (c.R/D)^2) + |γl| * (4 * (c.R/D) + 24 * (c.R/D)^2)))) := by
  intro w s c0 c1 hg hgl hGr hchi hU0 hds hsk hG hM
  have hRw : w.R = c.R := (frame_run mini c.shaft c.vert c.R h _ (frame_new c.R c.hub c.shaft c.vert c.U0 c.Lambda c.Ground c.Model)).R
  have hw : (WT.new c.R c.hub c.shaft c.vert c.U0 c.Lambda c.Ground c.Model).run mini h = w := rfl
  have hw' : (WT.new c.R c.hub c.shaft c.vert c.U0 c.Lambda c.Ground c.Model).run mini (h ++ [.position (groundImage c.vert w.r_hub)]) = { w with r_hub := groundImage c.vert w.r_hub } :=
    run_position mini c.build h _
  have hst : StoredWake w [γ] [(γl, c.R)] Γr := ⟨hg, hGr, hgl, rfl, by simpa using hR, Or.inr ⟨rfl, by rw [hRw]; rfl⟩⟩
  have k0 := C140_wind mini c.R c.hub c.shaft c.vert c.U0 c.Lambda c.Ground c.Model ho h pts hp { o with ground := some false } hnw hta hlo hro [γ] [(γl, c.R)] Γr D U d hD hU hd hdv
  have k1 := C140_wind mini c.R c.hub c.shaft c.vert c.U0 c.Lambda c.Ground c.Model ho (h ++ [.position (groundImage c.vert w.r_hub)]) pts hp { o with ground := some false, only_ind := true } hnw
    hta hlo hro [γ] [(γl, c.R)] Γr D U d hD hU hd hdv
  rw [hw] at k0
  rw [hw'] at k1
  obtain ⟨u0, e0, H0⟩ := k0 hst hchi hU0 hds hsk rfl hM
  obtain ⟨u1, e1, H1⟩ := k1 hst hchi hU0 hds hsk rfl hM
  have kg := C153_turbine mini c ho h pts hp o hnw
  obtain ⟨g1, -, g3⟩ := kg (Or.inl ⟨_, hg, Or.inr ⟨_, hgl⟩⟩)
  obtain ⟨u, hu⟩ := g1.2 ⟨u0, e0⟩
  have hsame : (w.computeU pts o).1 = (w.computeU pts { o with ground := some true }).1 := by
    have : w.inducedC (usedChi w) [.fin γ] pts o = w.inducedC (usedChi w) [.fin γ] pts { o with ground := some true } := by
      unfold WT.inducedC
      rw [hG]
      rfl
    rw [computeU_val, computeU_val, hg]
    simp only [this]
  refine ⟨u, hsame.trans hu, fun i p hpi hoff => ?_⟩
  have hil : i < pts.length := by
    by_contra h
    rw [List.getElem?_eq_none (by omega)] at hpi; exact nomatch hpi
  obtain ⟨o1, o2⟩ := hoff c0 (by simp)
  obtain ⟨o3, o4⟩ := hoff c1 (by simp)
  obtain ⟨v0, v1, v2⟩ := H0 i p hpi (by simpa using o1) o2
  obtain ⟨v0', v1', v2'⟩ := H1 i p hpi (by simpa using o3) o4
  obtain ⟨x, y, hx, hy, hxy⟩ := g3 u u0 u1 hu e0 (by rw [← e1]; exact congrArg (fun a : WT => (a.computeU pts { o with ground := some false, only_ind := true }).1) hw') i hil
  rw [v1] at hx
  rw [v1'] at hy
  cases hx
  cases hy
  refine ⟨v0 + v0', hxy.trans (congrArg some (by ext <;> simp)), ?_⟩
  have hsplit : v0 + v0' - ((if o.only_ind then 0 else V3.smul U d) + completeWake [γ] [(γl, c.R)] Γr c0 c.vert s d p + completeWake [γ] [(γl, c.R)] Γr c1 c.vert s d p) =
      (v0 - ((if o.only_ind then 0 else V3.smul U d) + completeWake [γ] [(γl, c.R)] Γr c0 c.vert s d p)) + (v0' - (0 + completeWake [γ] [(γl, c.R)] Γr c1 c.vert s d p)) := by
    ext <;> simp <;> ring
  rw [hsplit]
  refine (norm_triangle _ _).trans ?_
  refine le_trans (add_le_add v2 v2') (le_of_eq ?_)
  simp
  ring

/-- a rotor at height 100 turned by 30° to the wind and loaded with one circulation meets the hypotheses of `C153_wake` (and so those of `C153_turbine` and `C153_farm`) 200 m upstream -/
example (mini : (ℝ → Num) → ℝ) :
    let a : LoadArgs := { r := some [50], Gamma := some [.fin 100], Lambda := some (.fin 7), nCyl := none }
    let c : TurbineArgs := ⟨50, ⟨0,100,0⟩, ⟨1/2,0,√3/2⟩, ⟨0,1,0⟩, ⟨0,0,10⟩, none, true, "VC"⟩
    let w := c.build.run mini ([] ++ [.loading a])
    let s := w.e_shaft_g
    let d : V3 ℝ := ⟨0,0,1⟩
    let p : V3 ℝ := ⟨0,100,-200⟩
    ∃ g : ℝ, w.gamma_t = some [.fin g] ∧ w.gamma_l = some [.fin (100/(2*π*50))] ∧ w.Gamma_r = some (.fin (-100)) ∧ w.chi = none ∧ w.U0_g = V3.smul 10 d ∧ 0 < V3.dot d s ∧
      1e-7 < |V3.dot d (V3.cross ⟨0,1,0⟩ s)| ∧ w.Ground = true ∧ w.Model = "VC" ∧ Orthonormal c.shaft c.vert ∧ V3.dot d d = 1 ∧ V3.dot d c.vert = 0 ∧
      ∀ e ∈ [w.r_hub, groundImage c.vert w.r_hub], Clear 150 50 e ⟨0,1,0⟩ s d p ∧
        1e-7 < axisDist s e p ∧ 1e-5 ≤ V3.norm (p - e) ∧ 1e-12 ≤ V3.norm (p - e) * (V3.norm (p - e) - V3.dot (p - e) d) := by
  intro a c w s d p
  have h3 : √3^2 = 3 := Real.sq_sqrt (by norm_num)
  have h30 : 0 < √3 := Real.sqrt_pos.mpr (by norm_num)
  obtain ⟨e1, e2, -, -, e5, -, -, -, -, -, e11, e12, e13, e14⟩ := loading_frame mini (c.build.run mini []) a
  have f2 : w.r_hub = ⟨0,100,0⟩ := e2
  have f5 : s = ⟨1/2,0,√3/2⟩ := by
    refine Eq.trans e5 ?_
    have := (frame_run mini ⟨1/2,0,√3/2⟩ ⟨0,1,0⟩ 50 [] _ (frame_new 50 ⟨0,100,0⟩ ⟨1/2,0,√3/2⟩ ⟨0,1,0⟩ ⟨0,0,10⟩ none true "VC")).e_shaft_g
    rw [turn_eq] at this
    refine this.trans ?_
    change turn _ 0 _ = _
    unfold turn
    ext <;> simp
  have f11 : w.U0_g = ⟨0,0,10⟩ := e11
  obtain ⟨g, hst⟩ := stored_one mini (c.build.run mini []) (by change (0:ℝ) < 50; norm_num)
    (by change 0 < V3.norm (⟨0,0,10⟩ : V3 ℝ); unfold V3.norm; simp) 50 100 7 (by norm_num) (by norm_num) (by norm_num) (le_refl (50:ℝ)) a rfl rfl rfl
  have hst : StoredWake w [g] [(100/(2*π*50), 50)] (-100) := hst
  have key : ∀ e : V3 ℝ, e.x = 0 → e.z = 0 → Clear 150 50 e ⟨0,1,0⟩ s d p ∧ 1e-7 < axisDist s e p ∧ 1e-5 ≤ V3.norm (p - e) ∧ 1e-12 ≤ V3.norm (p - e) * (V3.norm (p - e) - V3.dot (p - e) d) := by
    intro e hx hz
    have hn : 200 ≤ V3.norm (p - e) := by
      refine le_trans ?_ (comp_le_norm _).2.2
      simp [p, hz]
    have hdt : V3.dot (p - e) d = -200 := by simp [V3.dot, p, d, hz]
    refine ⟨?_, ?_, by linarith, by rw [hdt]; nlinarith⟩
    · intro θ t ht
      rw [f5]
      refine le_trans ?_ (comp_le_norm _).2.2
      have e : (p - sheetPoint 50 e ⟨0,1,0⟩ ⟨1/2, 0, √3/2⟩ d θ t).z = -200 + 25 * cos θ - t := by
        simp [sheetPoint, V3.cross, p, d, hz]; ring
      have := cos_le_one θ
      rw [e, abs_of_neg (by linarith)]
      linarith
    · rw [f5]
      unfold axisDist
      refine lt_of_lt_of_le ?_ (comp_le_norm _).2.1
      simp [V3.cross, p, hx, hz]; norm_num
  refine ⟨g, hst.1, hst.2.2.1, hst.2.1, e13, ?_, ?_, ?_, e12, e14, ⟨?_, ?_, ?_⟩, ?_, ?_, ?_⟩
  · rw [f11]; ext <;> simp [d]
  · rw [f5]; simp [V3.dot, d]
  · rw [f5]; simp [V3.dot, V3.cross, d]; norm_num
  · simp only [V3.dot, c]; linarith
  · simp [V3.dot, c]
  · simp [V3.dot, c]
  · simp [V3.dot, d]
  · simp [V3.dot, d, c]
  · intro e he
    rw [f2] at he
    rcases List.mem_cons.1 he with rfl | he
    · exact key _ rfl rfl
    · rw [List.mem_singleton.1 he]
      exact key _ (by simp [groundImage, c]) (by simp [groundImage, c])

end
end Wiz
