import Verif.Props.Row
import Verif.Props.SolidAngle
import Verif.Props.YawedFarmBlockage
/-! # C152: the velocity field of a farm of turbines with radial stations is that of their vortex cylinders -/
set_option autoImplicit false
namespace Wiz
open Spec Classical Real
noncomputable section

/-- the field of a farm, from values of the fields of its turbines -/
theorem farm_assemble (mini : (ℝ → Num) → ℝ) (ts : List ℕ) (w : ℕ → WT) (pts : List (V3 ℝ)) (o : Opts) (U0 : Option (V3 ℝ))
    (P : ℕ → V3 ℝ → Prop) (f : ℕ → V3 ℝ → V3 ℝ) (b : ℕ → ℝ) :
    let q := frun mini (ts.map .turbine) w []
    (∀ t ∈ ts, ∃ u, inducedBy q.2 pts o t = .ok u ∧ ∀ (i : ℕ) (p : V3 ℝ), pts[i]? = some p → P t p →
      ∃ v, u[i]? = some (V3.fin v) ∧ V3.norm (v - f t p) ≤ b t) →
    ∃ u, (farmVelocity q.1 q.2 pts o U0).1 = .ok u ∧ ∀ (i : ℕ) (p : V3 ℝ), pts[i]? = some p → (∀ t ∈ ts, P t p) →
      ∃ v, u[i]? = some (V3.fin v) ∧ V3.norm (v - (U0.getD 0 + (ts.map fun t => f t p).sum)) ≤ (ts.map b).sum := by
  intro q one
  choose! u hu hall using one
  have hok : ∀ x ∈ ts.map PyObj.turbine, ∃ t v, x = .turbine t ∧ inducedBy q.2 pts o t = .ok v := by
    intro x hx
    obtain ⟨t, ht, rfl⟩ := List.mem_map.1 hx
    exact ⟨t, _, rfl, hu t ht⟩
  obtain ⟨r, hr⟩ := (C18_succeeds_iff (ts.map PyObj.turbine) q.2 pts o U0).2 hok
  refine ⟨r, hr, fun i p hpi hoff => ?_⟩
  have hil : i < pts.length := by
    by_contra h
    rw [List.getElem?_eq_none (by omega)] at hpi; exact nomatch hpi
  obtain ⟨l1, l2⟩ := C18_sum _ _ _ _ _ _ hr
  have hi := l2 i hil
  have hval : ∀ t ∈ ts, ∃ v, (u t)[i]? = some (V3.fin v) ∧ V3.norm (v - f t p) ≤ b t := fun t ht => hall t ht i p hpi (hoff t ht)
  choose! v hv hb using hval
  have hs : ((ts.map PyObj.turbine).map (inducedAt q.2 pts o i)).sum = V3.fin (ts.map v).sum := by
    rw [← sum_fin, List.map_map]
    congr 1
    apply List.map_congr_left
    intro t ht
    simp only [Function.comp, inducedAt, hu t ht]
    rw [List.getD_eq_getElem?_getD, hv t ht, Option.getD_some]
  have hf : freeStream U0 = V3.fin (U0.getD 0) := by
    cases U0 with
    | none => rfl
    | some U => rfl
  rw [hs, hf] at hi
  refine ⟨(ts.map v).sum + U0.getD 0, ?_, ?_⟩
  · have hil' : i < r.length := by omega
    rw [List.getElem?_eq_getElem hil']
    rw [List.getD_eq_getElem?_getD, List.getElem?_eq_getElem hil', Option.getD_some] at hi
    rw [hi]
    rfl
  · have := norm_sum_le ts _ _ hb
    rw [← sum_map_sub] at this
    have e : (ts.map v).sum + U0.getD 0 - (U0.getD 0 + (ts.map fun t => f t p).sum) = (ts.map v).sum - (ts.map fun t => f t p).sum := by
      ext <;> simp <;> ring
    rw [e]
    exact this

theorem bundle_sum (v s p c : V3 ℝ) (st : List (ℝ × ℝ)) : (st.map fun y => wakeFlow y.1 y.2 c v s p).sum =
    V3.smul (st.map fun y => cylinderField y.1 y.2 (inRotor c v s p)).sum.x (V3.cross v s) + V3.smul (st.map fun y => cylinderField y.1 y.2 (inRotor c v s p)).sum.y v
      + V3.smul (st.map fun y => cylinderField y.1 y.2 (inRotor c v s p)).sum.z s := by
  induction st with
  | nil => ext <;> simp
  | cons y l ih =>
    rw [List.map_cons, List.sum_cons, ih, List.map_cons, List.sum_cons]
    unfold wakeFlow
    ext <;> simp <;> ring

theorem bundles_sum (v s p : V3 ℝ) (st : List (ℝ × ℝ)) (l : List (V3 ℝ)) (F : V3 ℝ)
    (hF : F = (l.map fun c => (st.map fun y => cylinderField y.1 y.2 (inRotor c v s p)).sum).sum) :
    (l.map fun c => (st.map fun y => wakeFlow y.1 y.2 c v s p).sum).sum = V3.smul F.x (V3.cross v s) + V3.smul F.y v + V3.smul F.z s := by
  subst hF
  induction l with
  | nil => ext <;> simp
  | cons c l ih =>
    rw [List.map_cons, List.sum_cons, ih, bundle_sum, List.map_cons, List.sum_cons]
    ext <;> simp <;> ring

/-- C152: one turbine.  After any history, with one or several radial stations, over the ground or not, straight wake: the velocity induced by the turbine is the sum of the Biot–Savart velocities of the
vortex cylinders of its stations (and of their images), within 3.01% of the sum of their intensities. -/
theorem C152_turbine (mini : (ℝ → Num) → ℝ) (c : TurbineArgs) (h : List Op) (pts : List (V3 ℝ)) (hp : pts ≠ []) (o : Opts) (hnw : o.no_wake = false)
    (hta : o.tang = true) (hlo : o.longi = false) (hro : o.root = false) (ho : Orthonormal c.shaft c.vert) (st : List (ℝ × ℝ)) (hpos : ∀ y ∈ st, 0 < y.2) :
    let w := c.build.run mini h
    let wakes := wakeCentres (o.ground.getD w.Ground) c.vert w.r_hub
    HasStations w st → o.Model.getD w.Model = "VC" → (∃ chi, (w.computeU pts o).2.chi = some chi ∧ ¬ (Num.fin 1e-7 < Num.abs chi)) →
    ∃ u, (w.computeU pts o).1 = .ok u ∧ ∀ (i : ℕ) (p : V3 ℝ), pts[i]? = some p →
      (∀ d ∈ wakes, ∀ y ∈ st, OffEdge y.2 d c.vert w.e_shaft_g p) → ∃ v, u[i]? = some (V3.fin v) ∧
        V3.norm (v - ((if o.only_ind then 0 else w.U0_g) + (wakes.map fun d => (st.map fun y => wakeFlow y.1 y.2 d c.vert w.e_shaft_g p).sum).sum)) ≤
          0.0301 * (wakes.length * (st.map fun y => |y.1|).sum) := by
  intro w wakes hst hM hchi
  obtain ⟨chi, c1, c2⟩ := hchi
  have hw : w = (WT.new c.R c.hub c.shaft c.vert c.U0 c.Lambda c.Ground c.Model).run mini h := rfl
  obtain ⟨a1, a2, a3, a4, a5, a6⟩ := rotorAxes_run mini c.R c.hub c.shaft c.vert c.U0 c.Lambda c.Ground c.Model ho h
  rw [← hw] at a1 a2 a3 a5 a6
  have hRw : w.R = c.R := (frame_run mini c.shaft c.vert c.R h _ (frame_new c.R c.hub c.shaft c.vert c.U0 c.Lambda c.Ground c.Model)).R
  have fin : ∀ (F e v : V3 ℝ) (p : V3 ℝ), F = (wakes.map fun d => (st.map fun y => cylinderField y.1 y.2 (inRotor d c.vert w.e_shaft_g p)).sum).sum →
      v = (if o.only_ind then 0 else w.U0_g) + V3.smul (F.x + e.x) (V3.cross c.vert w.e_shaft_g) + V3.smul (F.y + e.y) c.vert + V3.smul (F.z + e.z) w.e_shaft_g →
      ∀ S : ℝ, S = (st.map fun y => |y.1|).sum → |e.x| ≤ 1e-7*(wakes.length*S) → |e.y| ≤ 1e-7*(wakes.length*S) → |e.z| ≤ 3/100*(wakes.length*S) →
      V3.norm (v - ((if o.only_ind then 0 else w.U0_g) + (wakes.map fun d => (st.map fun y => wakeFlow y.1 y.2 d c.vert w.e_shaft_g p).sum).sum)) ≤
          0.0301 * (wakes.length * (st.map fun y => |y.1|).sum) := by
    intro F e v p hF hv S hS e1 e2 e3
    rw [bundles_sum _ _ p st wakes F hF, hv, ← hS]
    have hS0 : 0 ≤ S := by rw [hS]; exact List.sum_nonneg (by intro x hx; obtain ⟨y, -, rfl⟩ := List.mem_map.1 hx; exact abs_nonneg _)
    generalize (if o.only_ind then (0 : V3 ℝ) else w.U0_g) = B
    have hd : B + V3.smul (F.x + e.x) (V3.cross c.vert w.e_shaft_g) + V3.smul (F.y + e.y) c.vert +
        V3.smul (F.z + e.z) w.e_shaft_g - (B + (V3.smul F.x (V3.cross c.vert w.e_shaft_g) + V3.smul F.y c.vert + V3.smul F.z w.e_shaft_g)) =
        V3.smul e.x (V3.cross c.vert w.e_shaft_g) + V3.smul e.y c.vert + V3.smul e.z w.e_shaft_g := by
      ext <;> simp <;> ring
    rw [hd]
    exact norm_frame _ _ ho.vert a6 a5 e _ (by positivity) e1 e2 e3
  rcases hst with ⟨γ, hg, rfl⟩ | ⟨gt, r, hgt, hr, hl1, hl3, hgl, rfl⟩
  · have key := C119_turbine_ground mini c.R c.hub c.shaft c.vert c.U0 c.Lambda c.Ground c.Model ho (by rw [← hRw]; exact hpos _ List.mem_cons_self) h pts o hnw hta hlo hro
    rw [← hw] at key
    obtain ⟨u, hu, hall⟩ := key γ chi hg hM c1 c2
    refine ⟨u, hu, fun i p hpi hoff => ?_⟩
    obtain ⟨F, e, v, hF, huv, hv, e1, e2, e3⟩ := hall i p hpi (fun d => inRotor d c.vert w.e_shaft_g p) (fun d => rfl)
      (fun d hd => by rw [← hRw]; exact hoff d hd _ List.mem_cons_self)
    refine ⟨v, huv, fin F e v p ?_ hv |γ| (by simp) e1 e2 e3⟩
    rw [hF, hRw]
    simp only [List.map_cons, List.map_nil, List.sum_cons, List.sum_nil]
    congr 2
    funext d
    ext <;> simp
  · have key := C119_turbine_multi mini c.R c.hub c.shaft c.vert c.U0 c.Lambda c.Ground c.Model ho h pts hp o hnw hta hlo hro
    rw [← hw] at key
    obtain ⟨u, hu, hall⟩ := key gt r chi hgt hr hl3 hl1 (by
      intro gl hgl'
      rcases hgl with hn | ⟨gl2, g1, g2⟩
      · rw [hn] at hgl'; exact nomatch hgl'
      · rw [g1] at hgl'; injection hgl' with hgl'; rw [← hgl']; exact g2) hM c1 c2
    refine ⟨u, hu, fun i p hpi hoff => ?_⟩
    obtain ⟨F, e, v, hF, huv, hv, e1, e2, e3⟩ := hall i p hpi (fun d => inRotor d c.vert w.e_shaft_g p) (fun d => rfl)
      (fun d hd k hk _ => ⟨hpos k hk, hoff d hd k hk⟩)
    refine ⟨v, huv, fin F e v p hF hv _ ?_ e1 e2 e3⟩
    have : (gt.zip r).map Prod.fst = gt := List.map_fst_zip (by omega)
    conv_lhs => rw [← this, List.map_map]
    rfl

/-- C152: a farm.  The turbines are built from `args` and called with the histories `hist`, after which they have the stations `st` (one cylinder, or several), model "VC" and no skew: the velocity field of the
farm is the free stream plus, for each turbine, each image below the ground and each station, the Biot–Savart velocity of its vortex cylinder, within 3.01% of the sum of their intensities. -/
theorem C152_farm (mini : (ℝ → Num) → ℝ) (args : ℕ → TurbineArgs) (hist : ℕ → List Op) (ts : List ℕ) (st : ℕ → List (ℝ × ℝ))
    (pts : List (V3 ℝ)) (hp : pts ≠ []) (o : Opts) (hnw : o.no_wake = false) (hta : o.tang = true) (hlo : o.longi = false) (hro : o.root = false)
    (U0 : Option (V3 ℝ)) (w : ℕ → WT) (hw : ∀ t, w t = ((args t).build).run mini (hist t))
    (ho : ∀ t ∈ ts, Orthonormal (args t).shaft (args t).vert) (hpos : ∀ t ∈ ts, ∀ y ∈ st t, 0 < y.2) (hst : ∀ t ∈ ts, HasStations (w t) (st t))
    (hM : ∀ t ∈ ts, o.Model.getD (w t).Model = "VC")
    (hchi : ∀ t ∈ ts, ∃ chi, ((w t).computeU pts o).2.chi = some chi ∧ ¬ (Num.fin 1e-7 < Num.abs chi)) :
    let q := frun mini (ts.map .turbine) w []
    let wakes := fun t => wakeCentres (o.ground.getD (w t).Ground) (args t).vert (w t).r_hub
    ∃ u, (farmVelocity q.1 q.2 pts o U0).1 = .ok u ∧ ∀ (i : ℕ) (p : V3 ℝ), pts[i]? = some p →
      (∀ t ∈ ts, ∀ c ∈ wakes t, ∀ y ∈ st t, OffEdge y.2 c (args t).vert (w t).e_shaft_g p) →
      ∃ v, u[i]? = some (V3.fin v) ∧
        V3.norm (v - (U0.getD 0 + (ts.map fun t => ((wakes t).map fun c => ((st t).map fun y => wakeFlow y.1 y.2 c (args t).vert (w t).e_shaft_g p).sum).sum).sum)) ≤
          0.0301 * (ts.map fun t => (wakes t).length * ((st t).map fun y => |y.1|).sum).sum := by
  intro q wakes
  obtain ⟨u, hu, hall⟩ := farm_assemble mini ts w pts o U0 (fun t p => ∀ c ∈ wakes t, ∀ y ∈ st t, OffEdge y.2 c (args t).vert (w t).e_shaft_g p)
    (fun t p => ((wakes t).map fun c => ((st t).map fun y => wakeFlow y.1 y.2 c (args t).vert (w t).e_shaft_g p).sum).sum)
    (fun t => 0.0301 * ((wakes t).length * ((st t).map fun y => |y.1|).sum)) (by
    intro t ht
    have key := C152_turbine mini (args t) (hist t) pts hp { o with only_ind := true } hnw hta hlo hro (ho t ht) (st t) (hpos t ht)
    rw [← hw t] at key
    obtain ⟨chi, c1, c2⟩ := hchi t ht
    obtain ⟨u, hu, hall⟩ := key (hst t ht) (hM t ht) ⟨chi, by rw [computeU_state] at c1 ⊢; exact c1, c2⟩
    refine ⟨u, hu, fun i p hpi hP => ?_⟩
    obtain ⟨v, v1, v2⟩ := hall i p hpi hP
    refine ⟨v, v1, le_trans (le_of_eq ?_) v2⟩
    congr 1
    simp only [wakes, if_true]
    ext <;> simp)
  refine ⟨u, hu, fun i p hpi hoff => ?_⟩
  obtain ⟨v, v1, v2⟩ := hall i p hpi hoff
  exact ⟨v, v1, by rw [← sum_map_const_mul]; exact v2⟩

/-- C152: upstream.  For a farm of turbines of the same shaft direction `s`, at a point upstream of the rotors, the velocity along the shafts is the free stream plus, for each turbine, each image and each
station, the intensity times the fraction `Ω/4π` of the sphere that its disk covers as seen from the point, within 3.01% of the sum of the intensities. -/
theorem C152_upstream (mini : (ℝ → Num) → ℝ) (args : ℕ → TurbineArgs) (hist : ℕ → List Op) (ts : List ℕ) (st : ℕ → List (ℝ × ℝ))
    (pts : List (V3 ℝ)) (hp : pts ≠ []) (o : Opts) (hnw : o.no_wake = false) (hta : o.tang = true) (hlo : o.longi = false) (hro : o.root = false)
    (U0 : Option (V3 ℝ)) (w : ℕ → WT) (hw : ∀ t, w t = ((args t).build).run mini (hist t))
    (ho : ∀ t ∈ ts, Orthonormal (args t).shaft (args t).vert) (hpos : ∀ t ∈ ts, ∀ y ∈ st t, 0 < y.2) (hst : ∀ t ∈ ts, HasStations (w t) (st t))
    (hM : ∀ t ∈ ts, o.Model.getD (w t).Model = "VC")
    (hchi : ∀ t ∈ ts, ∃ chi, ((w t).computeU pts o).2.chi = some chi ∧ ¬ (Num.fin 1e-7 < Num.abs chi))
    (s : V3 ℝ) (hs1 : V3.dot s s = 1) (hs : ∀ t ∈ ts, (w t).e_shaft_g = s) :
    let q := frun mini (ts.map .turbine) w []
    let wakes := fun t => wakeCentres (o.ground.getD (w t).Ground) (args t).vert (w t).r_hub
    ∃ u, (farmVelocity q.1 q.2 pts o U0).1 = .ok u ∧ ∀ (i : ℕ) (p : V3 ℝ), pts[i]? = some p →
      (∀ t ∈ ts, V3.dot (p - (w t).r_hub) s < 0) → (∀ t ∈ ts, ∀ c ∈ wakes t, ∀ y ∈ st t, OffEdge y.2 c (args t).vert s p) →
      ∃ v, u[i]? = some (V3.fin v) ∧
        |V3.dot v s - (V3.dot (U0.getD 0) s +
          (ts.map fun t => ((wakes t).map fun c => ((st t).map fun y => y.1 / (4*π) * diskSolidAngle y.2 (inRotor c (args t).vert s p)).sum).sum).sum)| ≤
          0.0301 * (ts.map fun t => (wakes t).length * ((st t).map fun y => |y.1|).sum).sum := by
  intro q wakes
  obtain ⟨u, hu, hall⟩ := C152_farm mini args hist ts st pts hp o hnw hta hlo hro U0 w hw ho hpos hst hM hchi
  refine ⟨u, hu, fun i p hpi hz hoff => ?_⟩
  obtain ⟨v, v1, v2⟩ := hall i p hpi fun t ht c hc y hy => by rw [hs t ht]; exact hoff t ht c hc y hy
  refine ⟨v, v1, le_trans (le_of_eq ?_) ((dot_le_norm_unit _ s hs1).trans v2)⟩
  congr 1
  rw [dot_sub_left, dot_add_left]
  congr 2
  symm
  refine sum_along _ _ _ _ fun t ht => sum_along _ _ _ _ fun c hc => sum_along _ _ _ _ fun y hy => ?_
  rw [hs t ht]
  have hv5 : V3.dot (args t).vert s = 0 := by
    have a5 := (rotorAxes_run mini (args t).R (args t).hub (args t).shaft (args t).vert (args t).U0 (args t).Lambda (args t).Ground (args t).Model (ho t ht) (hist t)).2.2.2.2.1
    have e : w t = (WT.new (args t).R (args t).hub (args t).shaft (args t).vert (args t).U0 (args t).Lambda (args t).Ground (args t).Model).run mini (hist t) := hw t
    rw [← e, hs t ht] at a5
    exact a5
  have hneg : V3.dot (p - c) s < 0 := by
    have hcc : c = (w t).r_hub ∨ c = groundImage (args t).vert (w t).r_hub := by
      simp only [wakes, wakeCentres] at hc
      split_ifs at hc <;> simp at hc
      · exact hc
      · exact Or.inl hc
    rcases hcc with rfl | rfl
    · exact hz t ht
    · have e : p - groundImage (args t).vert (w t).r_hub = (p - (w t).r_hub) + V3.smul (2 * V3.dot (w t).r_hub (args t).vert) (args t).vert := by
        unfold groundImage; ext <;> simp <;> ring
      rw [e, dot_add_left, dot_smul_left, hv5, mul_zero, add_zero]
      exact hz t ht
  have hsol := (C111_solid_angle y.1 y.2 (hpos t ht y hy) (inRotor c (args t).vert s p) hneg.ne).2.2.1 hneg
  have hx : V3.dot (V3.cross (args t).vert s) s = 0 := by simp [V3.dot, V3.cross]; ring
  rw [← hsol]
  unfold wakeFlow
  simp only
  rw [dot_add_left, dot_add_left, dot_smul_left, dot_smul_left, dot_smul_left, hx, hv5, hs1]
  ring

/-- a farm of a turbine with one cylinder and of a turbine with two stations, over the ground, seen from a point upstream of both, meets the hypotheses -/
example (mini : (ℝ → Num) → ℝ) : let args : ℕ → TurbineArgs := fun t => ⟨50, ⟨200*t, 80, 0⟩, ⟨0, 0, 1⟩, ⟨0, 1, 0⟩, ⟨0, 0, 10⟩, some .pinf, true, "VC"⟩
    let hist : ℕ → List Op := fun t => if t = 0 then [.chi (some 0)] ++ [.loading { Ct := some [.fin (-5)], nCyl := none, gamma_t_Ct := some fun c => c }] else
      [.chi (some 0)] ++ [.loading { r := some [20, 50], Ct := some [.fin (-3), .fin (-4)], nCyl := none, gamma_t_Ct := some fun c => c }]
    let st : ℕ → List (ℝ × ℝ) := fun t => if t = 0 then [(-5, 50)] else [(-3, 20), (-4, 50)]
    let w := fun t => (args t).build.run mini (hist t)
    let p : V3 ℝ := ⟨0, 80, -100⟩
    ∀ t ∈ [0, 1], Orthonormal (args t).shaft (args t).vert ∧ (∀ y ∈ st t, 0 < y.2) ∧ HasStations (w t) (st t) ∧ (w t).Model = "VC" ∧
      ((w t).computeU [p] {}).2.chi = some 0 ∧ ¬ (Num.fin 1e-7 < Num.abs 0) ∧ (w t).e_shaft_g = ⟨0, 0, 1⟩ ∧ V3.dot (p - (w t).r_hub) ⟨0, 0, 1⟩ < 0 ∧
      ∀ c ∈ wakeCentres (w t).Ground (args t).vert (w t).r_hub, ∀ y ∈ st t, OffEdge y.2 c (args t).vert ⟨0, 0, 1⟩ p := by
  intro args hist st w p t ht
  have hsh : (w t).e_shaft_g = ⟨0, 0, 1⟩ := by
    have : (w t).e_shaft_g = M3.mulVec (rotMatAxisAngle (args t).vert 0) (args t).shaft := by
      simp only [w, hist]; split_ifs <;> rfl
    rw [this]
    unfold rotMatAxisAngle M3.mulVec; ext <;> simp [args]
  have hhub : (w t).r_hub = ⟨200*t, 80, 0⟩ := by simp only [w, hist]; split_ifs <;> rfl
  have hchi : (w t).chi = some 0 := by simp only [w, hist]; split_ifs <;> rfl
  have hoff : ∀ c : V3 ℝ, c.z = 0 → ∀ y : ℝ × ℝ, 0 < y.2 ∧ y.2 ≤ 50 → (p.x - c.x)^2 + (p.y - c.y)^2 ≠ y.2^2 → OffEdge y.2 c ⟨0,1,0⟩ ⟨0, 0, 1⟩ p := by
    intro c hc y hy h
    have e : inRotor c ⟨0,1,0⟩ ⟨0, 0, 1⟩ p = ⟨p.x - c.x, p.y - c.y, -100⟩ := by
      unfold inRotor; ext <;> simp [V3.dot, V3.cross, p, hc]
    unfold OffEdge
    rw [e]
    refine ⟨fun h' => h ?_, fun h' => ?_⟩
    · rw [← h', Real.sq_sqrt (by positivity)]
    · have := h'.2
      simp only [abs_neg] at this
      rw [abs_of_pos (by norm_num)] at this
      norm_num at this
      linarith
  have hG : (w t).Ground = true := by simp only [w, hist]; split_ifs <;> rfl
  have ht2 : t = 0 ∨ t = 1 := by simpa using ht
  refine ⟨⟨by simp [V3.dot, args], by simp [V3.dot, args], by simp [V3.dot, args]⟩, ?_, ?_, ?_, ?_, by simp; norm_num, hsh, ?_, ?_⟩
  · rcases ht2 with rfl | rfl <;> simp [st]
  · rcases ht2 with rfl | rfl
    · exact Or.inl ⟨-5, rfl, rfl⟩
    · refine Or.inr ⟨[-3, -4], [20, 50], rfl, rfl, rfl, by simp, Or.inl rfl, rfl⟩
  · simp only [w, hist]; split_ifs <;> rfl
  · rw [computeU_state, hchi]
  · rw [hhub]; simp [V3.dot, p]
  · rw [hG, hhub]
    intro c hc y hy
    simp [wakeCentres, groundImage, V3.dot, args] at hc
    rcases ht2 with rfl | rfl <;> simp [st] at hy <;> rcases hc with rfl | rfl
    · subst hy; exact hoff _ (by simp) _ (by norm_num) (by norm_num [p])
    · subst hy; exact hoff _ (by simp) _ (by norm_num) (by norm_num [p])
    · rcases hy with rfl | rfl
      · exact hoff _ (by simp) _ (by norm_num) (by norm_num [p])
      · exact hoff _ (by simp) _ (by norm_num) (by norm_num [p])
    · rcases hy with rfl | rfl
      · exact hoff _ (by simp) _ (by norm_num) (by norm_num [p])
      · exact hoff _ (by simp) _ (by norm_num) (by norm_num [p])

end
end Wiz
