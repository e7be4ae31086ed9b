import Verif.Props.AxialStations
import Verif.Props.FarmAccuracy
import Verif.Props.YawedStations
/-! # C150: rotors of the same plane do not block each other, and the ground does not block a rotor -/
set_option autoImplicit false
namespace Wiz
open Spec Classical Real
noncomputable section

theorem sum_fin_z {α : Type} (l : List α) (g : α → V3 Num) (k : α → ℝ) (h : ∀ c ∈ l, ∃ f, g c = V3.fin f ∧ f.z = k c) : ∃ F, (l.map g).sum = V3.fin F ∧ F.z = (l.map k).sum := by
  induction l with
  | nil => exact ⟨0, rfl, rfl⟩
  | cons c l ih =>
    obtain ⟨F, F1, F2⟩ := ih fun c hc => h c (List.mem_cons_of_mem _ hc)
    obtain ⟨f, f1, f2⟩ := h c List.mem_cons_self
    refine ⟨f + F, ?_, ?_⟩
    · rw [List.map_cons, List.sum_cons, f1, F1]; ext <;> simp
    · rw [List.map_cons, List.sum_cons, V3.add_z, f2, F2]

/-- the stations (intensity, radius) of the wake of a turbine: its single cylinder at the rotor radius, or the cylinders of its several radial stations -/
def HasStations (w : WT) (st : List (ℝ × ℝ)) : Prop :=
  (∃ γ, w.gamma_t = some [.fin γ] ∧ st = [(γ, w.R)]) ∨
  ∃ gt r : List ℝ, w.gamma_t = some (gt.map .fin) ∧ w.r = some r ∧ gt.length = r.length ∧ gt.length ≠ 1 ∧
    (w.gamma_l = none ∨ ∃ gl, w.gamma_l = some gl ∧ gl.length = r.length) ∧ st = gt.zip r

/-- C150: one turbine.  After any history, a turbine with one or several stations, straight wake, over the ground or not, in its rotor plane: the induced velocity along the shaft is exactly the sum of
half the intensities of the stations (of the rotor, and of its image below the ground) outside of the point.  Hence, when the point is outside of the image, the same as without the ground. -/
theorem C150_turbine (mini : (ℝ → Num) → ℝ) (R : ℝ) (hub shaft vert U0 : V3 ℝ) (L : Option Num) (G : Bool)
    (M : String) (ho : Orthonormal shaft vert) (h : List Op) (pts : List (V3 ℝ)) (hp : pts ≠ []) (o : Opts) (hnw : o.no_wake = false)
    (hlo : o.longi = false) (hro : o.root = false) (hta : o.tang = true) (st : List (ℝ × ℝ)) (hpos : ∀ y ∈ st, 0 < y.2) :
    let w := (WT.new R hub shaft vert U0 L G M).run mini h
    let s := w.e_shaft_g
    let centres := if o.ground.getD w.Ground then [w.r_hub, groundImage vert w.r_hub] else [w.r_hub]
    HasStations w st → o.Model.getD w.Model = "VC" → ∀ chi, (w.computeU pts o).2.chi = some chi → ¬ (Num.fin 1e-7 < Num.abs chi) →
    ∃ u, (w.computeU pts o).1 = .ok u ∧ ∀ (i : ℕ) (p : V3 ℝ), pts[i]? = some p → V3.dot (p - w.r_hub) s = 0 →
      (∀ c ∈ centres, ∀ y ∈ st, 1e-8 * y.2 ≤ |V3.norm (p - c) - y.2|) →
      ∃ v, u[i]? = some (V3.fin v) ∧ V3.dot (v - if o.only_ind then 0 else w.U0_g) s =
        (centres.map fun c => (st.map fun y => if V3.norm (p - c) < y.2 then y.1/2 else 0).sum).sum := by
  intro w s centres hst hM chi hchi hsk
  have hw : w = (WT.new R hub shaft vert U0 L G M).run mini h := rfl
  have hsk' : ¬ skewed chi := hsk
  obtain ⟨a1, a2, a3, a4, a5, a6⟩ := rotorAxes_run mini R hub shaft vert U0 L G M ho h
  have hRw : w.R = R := (frame_run mini shaft vert R h _ (frame_new R hub shaft vert U0 L G M)).R
  -- values at one centre
  have hwk : ∀ (Y : List (V3 ℝ)) g R', wakeTang chi "VC" g R' o.R_far_field Y = vcTang Y g R' 0 := by
    intro Y g R'; unfold wakeTang; rw [if_neg hsk', if_pos rfl]
  have hcen : ∀ c ∈ centres, ∀ p : V3 ℝ, V3.dot (p - w.r_hub) s = 0 → V3.dot (p - c) s = 0 := by
    intro c hc p hp0
    have hcc : c = w.r_hub ∨ c = groundImage vert w.r_hub := by
      simp only [centres] at hc
      split_ifs at hc <;> simp at hc
      · exact hc
      · exact Or.inl hc
    rcases hcc with rfl | rfl
    · exact hp0
    · have e : p - groundImage vert w.r_hub = (p - w.r_hub) + V3.smul (2 * V3.dot w.r_hub vert) vert := by
        unfold groundImage; ext <;> simp <;> ring
      rw [e, dot_add_left, dot_smul_left, hp0]
      have : V3.dot vert s = 0 := a5
      rw [this]; ring
  have val : ∀ (i : ℕ) (p : V3 ℝ), pts[i]? = some p → V3.dot (p - w.r_hub) s = 0 → ∀ c ∈ centres, ∀ γ x : ℝ, 0 < x → 1e-8 * x ≤ |V3.norm (p - c) - x| →
      ∃ f, (vcTang (rotorAxes (V3.cross vert s) vert s c pts) (.fin γ) x 0).getD i 0 = V3.fin f ∧ f.z = if V3.norm (p - c) < x then γ/2 else 0 := by
    intro i p hpi hz c hc γ x hx hb
    obtain ⟨q, hq⟩ : ∃ q : V3 ℝ, q = ⟨V3.dot (p - c) (V3.cross vert s), V3.dot (p - c) vert, V3.dot (p - c) s⟩ := ⟨_, rfl⟩
    have hY : (rotorAxes (V3.cross vert s) vert s c pts)[i]? = some q := by
      rw [hq]; simp only [rotorAxes, List.getElem?_map, hpi, Option.map_some]
    have hqz : q.z = 0 := by rw [hq]; exact hcen c hc p hz
    have hpol : polarR q.x q.y = V3.norm (p - c) := by
      have e := expand_frame vert s (p - c) a4 a6 (by rw [dot_comm]; exact a5)
      rw [hcen c hc p hz] at e
      rw [hq]
      change √((V3.dot (p - c) (V3.cross vert s))^2 + (V3.dot (p - c) vert)^2) = _
      unfold V3.norm
      congr 1
      have : V3.dot (p - c) (p - c) = (p - c).x^2 + (p - c).y^2 + (p - c).z^2 := by simp only [V3.dot]; ring
      rw [← this, e]; ring
    rw [← hpol] at hb ⊢
    obtain ⟨x1, y1, e⟩ := tang_plane _ γ x hx i q hY hqz hb
    exact ⟨_, e, rfl⟩
  -- assembling
  have fin : ∀ (u : List (V3 Num)) (i : ℕ) (p : V3 ℝ), pts[i]? = some p → u.length = pts.length → ∀ F : V3 ℝ,
      u.getD i 0 = transform (M3.fin (M3.ofCols (V3.cross vert s) vert s)) (V3.fin F) + (if o.only_ind then 0 else V3.fin w.U0_g) →
      ∃ v, u[i]? = some (V3.fin v) ∧ V3.dot (v - if o.only_ind then 0 else w.U0_g) s = F.z := by
    intro u i p hpi ul F hF
    have hil : i < pts.length := by
      by_contra h
      rw [List.getElem?_eq_none (by omega)] at hpi; exact nomatch hpi
    have hcancel : ∀ x y : V3 ℝ, x + y - y = x := fun x y => by ext <;> simp
    refine ⟨fromAxes (V3.cross vert s) vert s F + (if o.only_ind then 0 else w.U0_g), ?_, ?_⟩
    · rw [transform_fin, mulVec_fromAxes] at hF
      rw [List.getD_eq_getElem?_getD, List.getElem?_eq_getElem (by omega)] at hF
      rw [List.getElem?_eq_getElem (by omega)]
      refine congrArg some (Eq.trans hF ?_)
      cases o.only_ind <;> ext <;> simp <;> rfl
    · rw [hcancel]
      have h1 : V3.dot (fromAxes (V3.cross vert s) vert s F) s = F.x * V3.dot (V3.cross vert s) s + F.y * V3.dot vert s + F.z * V3.dot s s := by
        simp [fromAxes, V3.dot]; ring
      have b3 : V3.dot (V3.cross vert s) s = 0 := a3
      have b5 : V3.dot vert s = 0 := a5
      have b6 : V3.dot s s = 1 := a6
      rw [h1, b3, b5, b6]; ring
  rcases hst with ⟨γ, hg, rfl⟩ | ⟨gt, r, hgt, hr, hl1, hl3, hgl, rfl⟩
  · obtain ⟨u, hu⟩ : ∃ u, (w.computeU pts o).1 = .ok u := vc_ok w _ hg pts o hro hlo hM
    obtain ⟨ul, uv⟩ := C16_field mini R hub shaft vert U0 L G M ho h pts o hnw (.fin γ) chi u hg hchi hu
    refine ⟨u, hu, fun i p hpi hz hb => ?_⟩
    have hil : i < pts.length := by
      by_contra h
      rw [List.getElem?_eq_none (by omega)] at hpi; exact nomatch hpi
    have uv := uv i hil
    have e2 : ∃ F : V3 ℝ, (if o.tang = true ∧ ¬ Num.Eqv (.fin γ) 0 then
              (centres.map fun c => (wakeTang chi (o.Model.getD w.Model) (.fin γ) R o.R_far_field (rotorAxes (V3.cross vert s) vert s c pts)).getD i 0).sum else 0) = V3.fin F ∧
        F.z = (centres.map fun c => ([(γ, w.R)].map fun y => if V3.norm (p - c) < y.2 then y.1/2 else 0).sum).sum := by
      simp only [List.map_cons, List.map_nil, List.sum_cons, List.sum_nil, add_zero]
      by_cases h0 : γ = 0
      · refine ⟨0, ?_, ?_⟩
        · rw [if_neg (by rw [h0]; simp)]; rfl
        · simp [h0]
      · rw [if_pos ⟨hta, by simpa using h0⟩, hM]
        refine sum_fin_z _ _ _ fun c hc => ?_
        rw [hwk]
        rw [hRw] at hpos hb ⊢
        exact val i p hpi hz c hc γ R (hpos _ List.mem_cons_self) (hb c hc _ List.mem_cons_self)
    obtain ⟨F, F1, F2⟩ := e2
    have e1 : (match w.Gamma_r with
        | some Gr => if o.root = true ∧ ¬ Num.Eqv Gr 0 then
            (centres.map fun c => (wakeRoot chi Gr (rotorAxes (V3.cross vert s) vert s c pts)).getD i 0).sum else 0
        | none => 0) = V3.fin 0 := by
      rw [hro]
      split
      · rw [if_neg (fun h => Bool.false_ne_true h.1)]; rfl
      · rfl
    have e3 : (match w.gamma_l with
        | some [gl'] => if o.longi = true ∧ ¬ Num.Eqv gl' 0 then
            (centres.map fun c => (wakeLongi chi gl' R (rotorAxes (V3.cross vert s) vert s c pts)).getD i 0).sum else 0
        | _ => 0) = V3.fin 0 := by
      rw [hlo]
      split
      · rw [if_neg (fun h => Bool.false_ne_true h.1)]; rfl
      · rfl
    rw [← F2]
    refine fin u i p hpi ul F (uv.trans ?_)
    refine (congrArg (fun z => transform (M3.fin (M3.ofCols (V3.cross vert s) vert s)) z + _) (congrArg₂ (· + ·) (congrArg₂ (· + ·) e1 F1) e3)).trans ?_
    have e4 : ∀ x y : V3 ℝ, V3.fin x + V3.fin y = V3.fin (x + y) := fun x y => by ext <;> simp
    have e5 : (0 : V3 ℝ) + F + 0 = F := by ext <;> simp
    rw [e4, e4, e5]
  · obtain ⟨u, hu⟩ := (C16_multi w _ r hgt (by simpa using hl3) hr (by simpa using hl1) hgl pts hp o).mpr hM
    obtain ⟨ul, uv⟩ := C16_field_multi mini R hub shaft vert U0 L G M ho h pts o hnw hlo hro _ r chi u hgt (by simpa using hl3) hr hchi hu
    refine ⟨u, hu, fun i p hpi hz hb => ?_⟩
    have hil : i < pts.length := by
      by_contra h
      rw [List.getElem?_eq_none (by omega)] at hpi; exact nomatch hpi
    have uv := uv i hil
    rw [if_pos hta] at uv
    have e2 : ∃ F : V3 ℝ, (centres.map fun c => ((((gt.map Num.fin).zip r).filter fun y => decide (0 < Num.abs y.1)).map fun y =>
          (wakeTang chi "VC" y.1 y.2 o.R_far_field (rotorAxes (V3.cross vert s) vert s c pts)).getD i 0).sum).sum = V3.fin F ∧
        F.z = (centres.map fun c => ((gt.zip r).map fun y => if V3.norm (p - c) < y.2 then y.1/2 else 0).sum).sum := by
      refine sum_fin_z _ _ _ fun c hc => ?_
      have hT : ∀ y : ℝ × ℝ, ∃ g : V3 ℝ, y ∈ gt.zip r → (vcTang (rotorAxes (V3.cross vert s) vert s c pts) (.fin y.1) y.2 0).getD i 0 = V3.fin g ∧ g.z = if V3.norm (p - c) < y.2 then y.1/2 else 0 := by
        intro y
        by_cases hy : y ∈ gt.zip r
        · obtain ⟨g, g1⟩ := val i p hpi hz c hc y.1 y.2 (hpos _ hy) (hb c hc _ hy)
          exact ⟨g, fun _ => g1⟩
        · exact ⟨0, fun h => absurd h hy⟩
      choose g hg1 using hT
      refine ⟨((gt.zip r).map fun y => if y.1 = 0 then 0 else g y).sum, ?_, ?_⟩
      · refine filter_zip_fin gt r _ _ (fun y hy h0 => ?_) (fun y _ h0 => if_pos h0)
        rw [if_neg h0, ← (hg1 y hy).1, hwk]
      · apply sum_z
        intro y hy
        by_cases h0 : y.1 = 0
        · rw [if_pos h0, h0]; simp
        · rw [if_neg h0, (hg1 y hy).2]
    obtain ⟨F, F1, F2⟩ := e2
    rw [← F2]
    refine fin u i p hpi ul F (uv.trans ?_)
    exact congrArg (fun z => transform (M3.fin (M3.ofCols (V3.cross vert s) vert s)) z + _) F1

/-- C150: turbines in a row.  For any number of turbines (any radii, histories, one or several stations each, straight wakes, with or without ground) with the same shaft direction `s` and a common rotor
plane, the velocity along `s` that `velocity_field` returns in that plane is exactly the free stream plus half the intensities of the stations (of rotors and images) whose disk contains the point:
a rotor contributes nothing in its plane outside of its disk. -/
theorem C150_farm (mini : (ℝ → Num) → ℝ) (args : ℕ → TurbineArgs) (hist : ℕ → List Op) (ts : List ℕ) (st : ℕ → List (ℝ × ℝ))
    (pts : List (V3 ℝ)) (hp : pts ≠ []) (o : Opts) (hnw : o.no_wake = false) (hta : o.tang = true) (hlo : o.longi = false) (hro : o.root = false)
    (U0 : Option (V3 ℝ)) (w : ℕ → WT) (hw : ∀ t, w t = ((args t).build).run mini (hist t))
    (ho : ∀ t ∈ ts, Orthonormal (args t).shaft (args t).vert) (hst : ∀ t ∈ ts, HasStations (w t) (st t)) (hpos : ∀ t ∈ ts, ∀ y ∈ st t, 0 < y.2)
    (hM : ∀ t ∈ ts, o.Model.getD (w t).Model = "VC")
    (hchi : ∀ t ∈ ts, ∃ chi, ((w t).computeU pts o).2.chi = some chi ∧ ¬ (Num.fin 1e-7 < Num.abs chi)) (s : V3 ℝ) (hs : ∀ t ∈ ts, (w t).e_shaft_g = s) :
    let q := frun mini (ts.map .turbine) w []
    let wakes := fun t => wakeCentres (o.ground.getD (w t).Ground) (args t).vert (w t).r_hub
    ∃ u, (farmVelocity q.1 q.2 pts o U0).1 = .ok u ∧ ∀ (i : ℕ) (p : V3 ℝ), pts[i]? = some p →
      (∀ t ∈ ts, V3.dot (p - (w t).r_hub) s = 0) → (∀ t ∈ ts, ∀ c ∈ wakes t, ∀ y ∈ st t, 1e-8 * y.2 ≤ |V3.norm (p - c) - y.2|) →
      ∃ v, u[i]? = some (V3.fin v) ∧
        V3.dot v s = V3.dot (U0.getD 0) s + (ts.map fun t => ((wakes t).map fun c => ((st t).map fun y => if V3.norm (p - c) < y.2 then y.1/2 else 0).sum).sum).sum := by
  intro q wakes
  have one : ∀ t ∈ ts, ∃ u, inducedBy q.2 pts o t = .ok u ∧ ∀ (i : ℕ) (p : V3 ℝ), pts[i]? = some p → V3.dot (p - (w t).r_hub) s = 0 →
      (∀ c ∈ wakes t, ∀ y ∈ st t, 1e-8 * y.2 ≤ |V3.norm (p - c) - y.2|) → ∃ v, u[i]? = some (V3.fin v) ∧
        V3.dot v s = ((wakes t).map fun c => ((st t).map fun y => if V3.norm (p - c) < y.2 then y.1/2 else 0).sum).sum := by
    intro t ht
    obtain ⟨chi, c1, c2⟩ := hchi t ht
    have key := C150_turbine mini (args t).R (args t).hub (args t).shaft (args t).vert (args t).U0 (args t).Lambda (args t).Ground (args t).Model
      (ho t ht) (hist t) pts hp { o with only_ind := true } hnw hlo hro hta (st t) (hpos t ht)
    have ew : w t = (WT.new (args t).R (args t).hub (args t).shaft (args t).vert (args t).U0 (args t).Lambda (args t).Ground (args t).Model).run mini (hist t) := hw t
    rw [← ew] at key
    obtain ⟨u, hu, hall⟩ := key (hst t ht) (hM t ht) chi (by rw [computeU_state] at c1 ⊢; exact c1) c2
    refine ⟨u, hu, fun i p hpi hz hb => ?_⟩
    rw [hs t ht] at hall
    obtain ⟨v, v1, v2⟩ := hall i p hpi hz hb
    refine ⟨v, v1, ?_⟩
    have : v - (if ({ o with only_ind := true } : Opts).only_ind then 0 else (w t).U0_g) = v := by
      ext <;> simp
    rw [this] at v2
    exact v2
  choose! u hu hall using one
  have hok : ∀ x ∈ ts.map PyObj.turbine, ∃ t v, x = .turbine t ∧ inducedBy q.2 pts o t = .ok v := by
    intro x hx
    obtain ⟨t, ht, rfl⟩ := List.mem_map.1 hx
    exact ⟨t, _, rfl, hu t ht⟩
  obtain ⟨r, hr⟩ := (C18_succeeds_iff (ts.map PyObj.turbine) q.2 pts o U0).2 hok
  refine ⟨r, hr, fun i p hpi hz hb => ?_⟩
  have hil : i < pts.length := by
    by_contra h
    rw [List.getElem?_eq_none (by omega)] at hpi; exact nomatch hpi
  obtain ⟨l1, l2⟩ := C18_sum _ _ _ _ _ _ hr
  have hi := l2 i hil
  have hval : ∀ t ∈ ts, ∃ v, (u t)[i]? = some (V3.fin v) ∧
        V3.dot v s = ((wakes t).map fun c => ((st t).map fun y => if V3.norm (p - c) < y.2 then y.1/2 else 0).sum).sum :=
    fun t ht => hall t ht i p hpi (hz t ht) (hb t ht)
  choose! v hv hb using hval
  have hsum : ((ts.map PyObj.turbine).map (inducedAt q.2 pts o i)).sum = V3.fin (ts.map v).sum := by
    rw [← sum_fin, List.map_map]
    congr 1
    apply List.map_congr_left
    intro t ht
    simp only [Function.comp, inducedAt, hu t ht]
    rw [List.getD_eq_getElem?_getD, hv t ht, Option.getD_some]
  have hf : freeStream U0 = V3.fin (U0.getD 0) := by
    cases U0 with
    | none => rfl
    | some U => rfl
  rw [hsum, hf] at hi
  refine ⟨(ts.map v).sum + U0.getD 0, ?_, ?_⟩
  · have hil' : i < r.length := by omega
    rw [List.getElem?_eq_getElem hil']
    rw [List.getD_eq_getElem?_getD, List.getElem?_eq_getElem hil', Option.getD_some] at hi
    rw [hi]
    rfl
  · rw [dot_add_left, add_comm]
    congr 1
    exact sum_along ts v _ s hb

/-- C150 from the thrust coefficients: turbines of the same plane and shaft direction, built with the wind `U` along the shaft and loaded with `update_loading(Ct=C)` (no or little wake rotation).  At a
point of that plane inside the disk of the turbine `t0` and outside of the disks of the other rotors and images, the velocity along the shaft is exactly `U(1-a)`, with `a` the axial induction of the
thrust of `t0` alone (`4a(1-a) = C(1+apc)`): the neighbours and the ground do not change it.  At a point of that plane outside of all disks it is exactly `U`: there is no blockage nor speed-up there. -/
theorem C150_row (mini : (ℝ → Num) → ℝ) (args : ℕ → TurbineArgs) (C Ω apc : ℕ → ℝ) (U : ℝ) (s : V3 ℝ) (ts : List ℕ) (hnd : ts.Nodup)
    (hU : 0 < U) (hs1 : V3.dot s s = 1) (ho : ∀ t ∈ ts, Orthonormal (args t).shaft (args t).vert) (hR : ∀ t ∈ ts, 0 < (args t).R)
    (hs : ∀ t ∈ ts, (args t).shaft = s ∧ (args t).U0 = V3.smul U s) (hM : ∀ t ∈ ts, (args t).Model = "VC")
    (hΩ : ∀ t ∈ ts, ((∃ l : ℝ, (args t).Lambda = some (.fin l) ∧ Ω t = l * U / (args t).R) ∨ ((args t).Lambda = some .pinf ∧ Ω t = 800)) ∧
      20 ≤ Ω t * (args t).R / U)
    (hapc : ∀ t ∈ ts, apc t = C t * π * U^2 / Ω t / (4 * π * Ω t * (args t).R)^2)
    (hC : ∀ t ∈ ts, C t ≤ Ctc ∧ 0 ≤ C t * (1 + apc t) ∧ 0 ≤ 1 - C t * (1 + apc t)) (pts : List (V3 ℝ)) (hp : pts ≠ []) :
    let w := fun t => ((args t).build).run mini [.loading { Ct := some [.fin (C t)] }]
    let q := frun mini (ts.map .turbine) w []
    ∃ u, (farmVelocity q.1 q.2 pts {} (some (V3.smul U s))).1 = .ok u ∧ ∀ (i : ℕ) (p : V3 ℝ), pts[i]? = some p →
      (∀ t ∈ ts, V3.dot (p - (args t).hub) s = 0) →
      (∀ t ∈ ts, (args t).Ground = true → (1 + 1e-8) * (args t).R ≤ V3.norm (p - groundImage (args t).vert (args t).hub)) →
      ((∀ t ∈ ts, (1 + 1e-8) * (args t).R ≤ V3.norm (p - (args t).hub)) → ∃ v, u[i]? = some (V3.fin v) ∧ V3.dot v s = U) ∧
      ∀ t0 ∈ ts, V3.norm (p - (args t0).hub) ≤ (1 - 1e-8) * (args t0).R → (∀ t ∈ ts, t ≠ t0 → (1 + 1e-8) * (args t).R ≤ V3.norm (p - (args t).hub)) →
        ∃ v a, u[i]? = some (V3.fin v) ∧ V3.dot v s = U * (1 - a) ∧ 4 * a * (1 - a) = C t0 * (1 + apc t0) ∧ 0 ≤ a ∧ a ≤ 1/2 := by
  intro w q
  have hb : ∀ t, (w t).r_hub = (args t).hub ∧ (w t).e_shaft_g = M3.mulVec (rotMatAxisAngle (args t).vert 0) (args t).shaft ∧
      (w t).Ground = (args t).Ground ∧ (w t).Model = (args t).Model ∧ (w t).R = (args t).R := by
    intro t
    obtain ⟨b1, b2, b3, b4, b5, b6, b7, b8, b9, b10, b11, b12, b13, b14⟩ := loading_frame mini (args t).build { Ct := some [.fin (C t)] }
    exact ⟨b2, b5, b12, b14, b1⟩
  have hsh : ∀ t ∈ ts, (w t).e_shaft_g = s := by
    intro t ht
    rw [(hb t).2.1, (hs t ht).1]
    unfold rotMatAxisAngle M3.mulVec
    ext <;> simp
  have hss : ∀ t ∈ ts, (args t).U0 = V3.smul U (args t).shaft := by
    intro t ht
    rw [(hs t ht).1, (hs t ht).2]
  obtain ⟨γ, hγ⟩ : ∃ γ : ℕ → ℝ, ∀ t, γ t = -U * (1 - √(1 - C t * (1 + apc t))) := ⟨_, fun _ => rfl⟩
  have hg : ∀ t ∈ ts, (w t).gamma_t = some [.fin (γ t)] := by
    intro t ht
    have hw := hss t ht
    have hn : V3.norm ((args t).build).U0_g = U := by
      change V3.norm (args t).U0 = U
      rw [hw, norm_smul_unit _ _ (ho t ht).shaft, abs_of_pos hU]
    have hne : ((args t).build).U0_g ≠ 0 := by
      intro h
      rw [h, norm_zero3] at hn
      exact hU.ne hn
    obtain ⟨o1, o2⟩ := hΩ t ht
    have key : ∀ L : Num, (args t).Lambda = some L → ((∃ l : ℝ, L = .fin l ∧ Ω t = l * U / (args t).R) ∨ (L = .pinf ∧ Ω t = 800)) →
        (w t).gamma_t = some [.fin (γ t)] := by
      intro L hL hLO
      have hd := updateLoading_default mini (args t).build L hL { Ct := some [.fin (C t)] } rfl
      obtain ⟨r1, r2, -⟩ := C34_update_loading mini (args t).build (hR t ht) hne [C t] (by simp) L (Ω t) (by rw [hn]; exact hLO) (by rw [hn]; exact o2) none none
      simp only [List.map_cons, List.map_nil, List.sum_cons, List.sum_nil, add_zero, List.length_singleton, Nat.cast_one, div_one] at r2
      rw [hn] at r2
      have e := hapc t ht
      change apc t = C t * π * U^2 / Ω t / (4 * π * Ω t * ((args t).build).R)^2 at e
      rw [← e] at r2
      have := r2 (hC t ht).1 (hC t ht).2.2
      change ((args t).build.updateLoading mini { Ct := some [.fin (C t)] }).2.gamma_t = _
      rw [hd, hγ]
      exact this
    rcases o1 with ⟨l, h1, h2⟩ | ⟨h1, h2⟩
    · exact key _ h1 (Or.inl ⟨l, rfl, h2⟩)
    · exact key _ h1 (Or.inr ⟨rfl, h2⟩)
  obtain ⟨u, h1, h2⟩ := C150_farm mini args (fun t => [.loading { Ct := some [.fin (C t)] }]) ts (fun t => [(γ t, (args t).R)]) pts hp {} rfl rfl rfl rfl
    (some (V3.smul U s)) w (fun _ => rfl) ho (fun t ht => Or.inl ⟨γ t, hg t ht, by rw [(hb t).2.2.2.2]⟩) (fun t ht y hy => by rw [List.mem_singleton.1 hy]; exact hR t ht)
    (fun t ht => (hb t).2.2.2.1.trans (hM t ht)) (fun t ht => ⟨0, aligned_chi mini (args t) (ho t ht) U hU (hss t ht) _ _ _, by simp; norm_num⟩) s hsh
  refine ⟨u, h1, fun i p hpi hz himg => ?_⟩
  have key : ∀ (m : ℕ → ℝ), (∀ t ∈ ts, ((1 + 1e-8) * (args t).R ≤ V3.norm (p - (args t).hub) ∧ m t = 0) ∨
      (V3.norm (p - (args t).hub) ≤ (1 - 1e-8) * (args t).R ∧ m t = γ t / 2)) → ∃ v, u[i]? = some (V3.fin v) ∧ V3.dot v s = V3.dot (V3.smul U s) s + (ts.map m).sum := by
    intro m hm
    have hcc : ∀ t ∈ ts, ∀ c ∈ wakeCentres ((({} : Opts).ground).getD (w t).Ground) (args t).vert (w t).r_hub,
        c = (args t).hub ∨ (c = groundImage (args t).vert (args t).hub ∧ (args t).Ground = true) := by
      intro t ht c hc
      rw [(hb t).1, (hb t).2.2.1] at hc
      simp only [Option.getD_none, wakeCentres] at hc
      split_ifs at hc with hG
      · rcases List.mem_cons.1 hc with h | h
        · exact Or.inl h
        · exact Or.inr ⟨List.mem_singleton.1 h, hG⟩
      · exact Or.inl (List.mem_singleton.1 hc)
    obtain ⟨v, v1, v2⟩ := h2 i p hpi (fun t ht => by rw [(hb t).1]; exact hz t ht) (by
      intro t ht c hc y hy
      rw [List.mem_singleton.1 hy]
      have hr := hR t ht
      have key1 : (1 + 1e-8) * (args t).R ≤ V3.norm (p - c) ∨ V3.norm (p - c) ≤ (1 - 1e-8) * (args t).R := by
        rcases hcc t ht c hc with rfl | ⟨rfl, hG⟩
        · exact (hm t ht).imp And.left And.left
        · exact Or.inl (himg t ht hG)
      change 1e-8 * (args t).R ≤ |V3.norm (p - c) - (args t).R|
      rcases key1 with h | h
      · exact le_trans (by linarith) (le_abs_self _)
      · exact le_trans (by linarith) (neg_le_abs _))
    refine ⟨v, v1, v2.trans ?_⟩
    congr 2
    apply List.map_congr_left
    intro t ht
    have hr := hR t ht
    have e1 : (if V3.norm (p - (args t).hub) < (args t).R then γ t / 2 else 0) = m t := by
      rcases hm t ht with ⟨h, e⟩ | ⟨h, e⟩
      · rw [if_neg (by linarith), e]
      · rw [if_pos (by linarith), e]
    simp only [List.map_cons, List.map_nil, List.sum_cons, List.sum_nil, add_zero, Option.getD_none]
    rw [(hb t).1, (hb t).2.2.1]
    unfold wakeCentres
    split_ifs with hG
    · simp only [List.map_cons, List.map_nil, List.sum_cons, List.sum_nil, add_zero]
      rw [e1, if_neg (by have := himg t ht hG; linarith), add_zero]
    · simp only [List.map_cons, List.map_nil, List.sum_cons, List.sum_nil, add_zero]
      rw [e1]
  have hzero : ∀ l : List ℕ, (l.map fun _ => (0:ℝ)).sum = 0 := by intro l; simp
  have hUs : V3.dot (V3.smul U s) s = U := by rw [dot_smul_left, hs1, mul_one]
  constructor
  · intro hout
    obtain ⟨v, v1, v2⟩ := key (fun _ => 0) fun t ht => Or.inl ⟨hout t ht, rfl⟩
    exact ⟨v, v1, by rw [v2, hUs, hzero, add_zero]⟩
  · intro t0 ht0 hin hout
    obtain ⟨v, v1, v2⟩ := key (fun t => if t = t0 then γ t0 / 2 else 0) fun t ht => by
      by_cases h : t = t0
      · subst h; exact Or.inr ⟨hin, if_pos rfl⟩
      · exact Or.inl ⟨hout t ht h, if_neg h⟩
    obtain ⟨c1, c2, c3⟩ := hC t0 ht0
    obtain ⟨X, hX⟩ : ∃ X, X = √(1 - C t0 * (1 + apc t0)) := ⟨_, rfl⟩
    have hX0 : 0 ≤ X := by rw [hX]; exact Real.sqrt_nonneg _
    have hX2 : X^2 = 1 - C t0 * (1 + apc t0) := by rw [hX]; exact Real.sq_sqrt c3
    have hX1 : X ≤ 1 := by nlinarith
    refine ⟨v, (1 - X)/2, v1, ?_, by linear_combination -hX2, by linarith, by linarith⟩
    have hsum : (ts.map fun t => if t = t0 then γ t0 / 2 else 0).sum = γ t0 / 2 := by
      rw [List.sum_map_ite_eq, List.count_eq_one_of_mem hnd ht0]; simp
    rw [v2, hUs, hsum, hγ, ← hX]; ring

/-- three turbines of 50 m, 200 m apart, 80 m above the ground, `Ct = 0.8`, and a point 30 m from the axis of the second one, meet the hypotheses -/
example : let args : ℕ → TurbineArgs := fun t => ⟨50, ⟨200*t, 80, 0⟩, ⟨0, 0, 1⟩, ⟨0, 1, 0⟩, ⟨0, 0, 10⟩, some .pinf, true, "VC"⟩
    let apc : ℝ := 0.8 * π * 10^2 / 800 / (4 * π * 800 * 50)^2
    let p : V3 ℝ := ⟨230, 80, 0⟩
    ([0, 1, 2] : List ℕ).Nodup ∧ V3.dot (⟨0, 0, 1⟩ : V3 ℝ) ⟨0, 0, 1⟩ = 1 ∧ V3.norm (p - (args 1).hub) ≤ (1 - 1e-8) * (args 1).R ∧
    ∀ t ∈ ([0, 1, 2] : List ℕ), Orthonormal (args t).shaft (args t).vert ∧ 0 < (args t).R ∧ (args t).shaft = ⟨0, 0, 1⟩ ∧ (args t).U0 = V3.smul 10 ⟨0, 0, 1⟩ ∧ (args t).Model = "VC" ∧
      20 ≤ 800 * (args t).R / 10 ∧ (0.8:ℝ) ≤ Ctc ∧ 0 ≤ 0.8 * (1 + apc) ∧ 0 ≤ 1 - 0.8 * (1 + apc) ∧ V3.dot (p - (args t).hub) ⟨0, 0, 1⟩ = 0 ∧
      (1 + 1e-8) * (args t).R ≤ V3.norm (p - groundImage (args t).vert (args t).hub) ∧ (t ≠ 1 → (1 + 1e-8) * (args t).R ≤ V3.norm (p - (args t).hub)) := by
  intro args apc p
  have hp := Real.pi_gt_three
  have h1 : apc = 0.8 * 10^2 / 800 / (π * (4 * 800 * 50)^2) := by simp only [apc]; field_simp
  have h0 : 0 ≤ apc := by rw [h1]; positivity
  have hle : apc ≤ 0.001 := by
    rw [h1, div_le_iff₀ (by positivity)]
    nlinarith
  refine ⟨by decide, by simp [V3.dot], ?_, ?_⟩
  · unfold V3.norm
    rw [show (p - (args 1).hub).x^2 + (p - (args 1).hub).y^2 + (p - (args 1).hub).z^2 = 30^2 by simp [p, args]; norm_num, Real.sqrt_sq (by norm_num)]
    norm_num [args]
  · intro t ht
    refine ⟨⟨by simp [V3.dot, args], by simp [V3.dot, args], by simp [V3.dot, args]⟩, by norm_num [args], rfl, by ext <;> simp [args], rfl, by norm_num [args],
      by unfold Ctc ac; norm_num, by positivity, by linarith, by simp [V3.dot, args, p], ?_, ?_⟩
    · refine Real.le_sqrt_of_sq_le ?_
      simp only [groundImage, V3.dot, V3.smul, V3.sub_x, V3.sub_y, V3.sub_z, args, p]
      norm_num
      nlinarith [sq_nonneg (230 - 200 * (t:ℝ))]
    · intro ht1
      refine Real.le_sqrt_of_sq_le ?_
      simp only [V3.sub_x, V3.sub_y, V3.sub_z, args, p]
      have : t = 0 ∨ t = 2 := by simp at ht; omega
      rcases this with rfl | rfl <;> norm_num

end
end Wiz
