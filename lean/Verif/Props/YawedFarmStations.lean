import Verif.Props.GroundImage
import Verif.Props.FarmStations
import Verif.Props.YawedSpread
/-! # C154: farms of yawed turbines with radial stations -/
set_option autoImplicit false
namespace Wiz
open Spec Classical Real
noncomputable section

theorem ground_asked (w : WT) (pts : List (V3 ℝ)) (o : Opts) (b : Bool) (hG : o.ground.getD w.Ground = b) :
    (w.computeU pts o).1 = (w.computeU pts { o with ground := some b }).1 := by
  have : ∀ gt, w.inducedC (usedChi w) gt pts o = w.inducedC (usedChi w) gt pts { o with ground := some b } := by
    intro gt
    unfold WT.inducedC
    rw [hG]
    rfl
  rw [computeU_val, computeU_val]
  simp only [this]

/-- several stations, no ground: the field in the axes of the farm -/
theorem several_sheets (mini : (ℝ → Num) → ℝ) (R : ℝ) (hub shaft vert U0 : V3 ℝ) (L : Option Num) (G : Bool)
    (M : String) (ho : Orthonormal shaft vert) (h : List Op) (pts : List (V3 ℝ)) (hp : pts ≠ []) (o : Opts) (hnw : o.no_wake = false)
    (hlo : o.longi = false) (hro : o.root = false) (hta : o.tang = true) (hoi : o.only_ind = true) (gt r : List ℝ) (hl1 : gt.length = r.length) (hl3 : gt.length ≠ 1) (hpos : ∀ x ∈ r, 0 < x) (χ : ℝ)
    (w : WT) (hw : w = (WT.new R hub shaft vert U0 L G M).run mini h)
    (hgt : w.gamma_t = some (gt.map .fin)) (hgl : w.gamma_l = none ∨ ∃ gl, w.gamma_l = some gl ∧ gl.length = r.length) (hr : w.r = some r)
    (hg : o.ground.getD w.Ground = false) (hM : o.Model.getD w.Model = "VC") (hchi : (w.computeU pts o).2.chi = some (.fin χ)) (hsk : 1e-7 < |χ|) (hcos : 0 < cos χ)
    (d : V3 ℝ) (hd : d = V3.smul (sin χ) (V3.cross vert w.e_shaft_g) + V3.smul (cos χ) w.e_shaft_g) (D : ℝ → ℝ) (hD : ∀ x ∈ r, 0 < D x) :
    ∃ u, (w.computeU pts o).1 = .ok u ∧ ∀ (i : ℕ) (p : V3 ℝ), pts[i]? = some p →
      (∀ x ∈ r, Clear (D x) x w.r_hub vert w.e_shaft_g d p) →
      ∃ v, u[i]? = some (V3.fin v) ∧
        V3.norm (v - ((gt.zip r).map fun y => sheetFlow y.1 y.2 w.r_hub vert w.e_shaft_g d p).sum) ≤
          √3 * ((gt.zip r).map fun y => |y.1| * (π^2/(3 * 179^2) * (y.2/D y.2 * (y.2/D y.2 + 2)) * (1 + 10 * (y.2/D y.2) + 18 * (y.2/D y.2)^2))).sum := by
  obtain ⟨a1, a2, a3, a4, a5, a6⟩ := rotorAxes_run mini R hub shaft vert U0 L G M ho h
  rw [← hw] at a1 a2 a3 a5 a6
  have H := C149_field mini R hub shaft vert U0 L G M ho h pts hp o hnw hlo hro hta gt r hl1 hl3 hpos χ
  simp only [← hw] at H
  obtain ⟨u, hu, hall⟩ := H hgt hgl hr hg hM hchi hsk hcos.ne'
  refine ⟨u, hu, fun i p hpi hcl => ?_⟩
  have hax : ∀ y ∈ gt.zip r, _ := fun y hy => sheetFlow_axes y.1 y.2 (D y.2) χ (hpos _ (List.of_mem_zip hy).2).le (hD _ (List.of_mem_zip hy).2) w.r_hub vert w.e_shaft_g p a4 a6 a5 hcos d hd
    (hcl _ (List.of_mem_zip hy).2)
  obtain ⟨v, v1, v2⟩ := hall i p (inRotor w.r_hub vert w.e_shaft_g p) D hpi rfl fun x hx =>
    ⟨hD x hx, (sheetFlow_axes 0 x (D x) χ (hpos x hx).le (hD x hx) w.r_hub vert w.e_shaft_g p a4 a6 a5 hcos d hd (hcl x hx)).1⟩
  refine ⟨v, v1, ?_⟩
  obtain ⟨b1, b2, b3⟩ := v2 v _ (by rw [hoi, if_pos rfl]; ext <;> simp) rfl _ rfl
  have e : ((gt.zip r).map fun y => sheetFlow y.1 y.2 w.r_hub vert w.e_shaft_g d p).sum =
      fromAxes (V3.cross vert w.e_shaft_g) vert w.e_shaft_g ((gt.zip r).map fun y => skewTangField y.1 y.2 (tan χ) (inRotor w.r_hub vert w.e_shaft_g p)).sum := by
    rw [fromAxes_sum]
    congr 1
    exact List.map_congr_left fun y hy => (hax y hy).2
  rw [e]
  have e' := axes_expand vert w.e_shaft_g a4 a6 a5 v
  conv_lhs => rw [← e']
  rw [← fromAxes_sub, axes_norm vert w.e_shaft_g a4 a6 a5]
  exact norm_le_three _ _ b1 b2 b3

/-- C154: one yawed turbine.  After any history, a turbine with one or several stations `st` (intensity, radius) in a horizontal wind of direction `d` (less than 90 degrees from the shaft, skewed by more than
1e-7; no earlier evaluation), over the ground or not: it induces the sum of the Biot–Savart velocities, in the axes of the farm, of the sheets that leave the circles of its stations (and of their images
below the ground) along the wind, up to the quadrature errors at the distances `D x` of the point to the sheets of the stations of radius `x`. -/
theorem C154_turbine (mini : (ℝ → Num) → ℝ) (c : TurbineArgs) (h : List Op) (pts : List (V3 ℝ)) (hp : pts ≠ []) (o : Opts) (hnw : o.no_wake = false)
    (hta : o.tang = true) (hlo : o.longi = false) (hro : o.root = false) (hoi : o.only_ind = true) (ho : Orthonormal c.shaft c.vert) (st : List (ℝ × ℝ)) (hpos : ∀ y ∈ st, 0 < y.2)
    (U : ℝ) (hU : 0 < U) (d : V3 ℝ) (hd : V3.dot d d = 1) (hdv : V3.dot d c.vert = 0) (D : ℝ → ℝ) (hD : ∀ y ∈ st, 0 < D y.2) :
    let w := c.build.run mini h
    let s := w.e_shaft_g
    let wakes := wakeCentres (o.ground.getD w.Ground) c.vert w.r_hub
    HasStations w st → o.Model.getD w.Model = "VC" → w.chi = none → w.U0_g = V3.smul U d → 0 < V3.dot d s → 1e-7 < |V3.dot d (V3.cross c.vert s)| →
    ∃ u, (w.computeU pts o).1 = .ok u ∧ ∀ (i : ℕ) (p : V3 ℝ), pts[i]? = some p →
      (∀ e ∈ wakes, ∀ y ∈ st, Clear (D y.2) y.2 e c.vert s d p) → ∃ v, u[i]? = some (V3.fin v) ∧
        V3.norm (v - (wakes.map fun e => (st.map fun y => sheetFlow y.1 y.2 e c.vert s d p).sum).sum) ≤
          wakes.length * (√3 * (st.map fun y => |y.1| * (π^2/(3 * 179^2) * (y.2/D y.2 * (y.2/D y.2 + 2)) * (1 + 10 * (y.2/D y.2) + 18 * (y.2/D y.2)^2))).sum) := by
  intro w s wakes hst hM hc hwind hf hy
  have hw : w = (WT.new c.R c.hub c.shaft c.vert c.U0 c.Lambda c.Ground c.Model).run mini h := rfl
  have hRw : w.R = c.R := (frame_run mini c.shaft c.vert c.R h _ (frame_new c.R c.hub c.shaft c.vert c.U0 c.Lambda c.Ground c.Model)).R
  obtain ⟨χ, c1, c2, c3, -⟩ := wind_chi mini c.R c.hub c.shaft c.vert c.U0 c.Lambda c.Ground c.Model ho h w hw hc U hU d hd hdv hwind pts o
  obtain ⟨a1, a2, a3, a4, a5, a6⟩ := rotorAxes_run mini c.R c.hub c.shaft c.vert c.U0 c.Lambda c.Ground c.Model ho h
  rw [← hw] at a1 a2 a3 a5 a6
  have hcos : 0 < cos χ := by rw [c3]; exact hf
  have hsk : 1e-7 < |χ| := by
    have hy : 1e-7 < |V3.dot d (V3.cross c.vert w.e_shaft_g)| := hy
    rw [← c2] at hy
    exact lt_of_lt_of_le hy Real.abs_sin_le_abs
  have hdir : d = V3.smul (sin χ) (V3.cross c.vert w.e_shaft_g) + V3.smul (cos χ) w.e_shaft_g := by
    have := axes_expand c.vert w.e_shaft_g a4 a6 a5 d
    rw [← c2, ← c3, hdv] at this
    conv_lhs => rw [← this]
    unfold fromAxes
    ext <;> simp
  rcases hst with ⟨γ, hg, rfl⟩ | ⟨gt, r, hgt, hr, hl1, hl3, hgl, rfl⟩
  · have hR : 0 < c.R := by rw [← hRw]; exact hpos _ List.mem_cons_self
    have hDR : 0 < D c.R := by rw [← hRw]; exact hD _ List.mem_cons_self
    obtain ⟨u, hu, hall⟩ := yawed_one mini c.R c.hub c.shaft c.vert c.U0 c.Lambda c.Ground c.Model ho hR h pts o hnw hta hlo hro hoi w hw γ χ hg hM c1 hsk hcos d hdir (D c.R) hDR
    refine ⟨u, hu, fun i p hpi hcl => ?_⟩
    obtain ⟨v, v1, v2⟩ := hall i p hpi fun e he => by have := hcl e he _ List.mem_cons_self; rw [hRw] at this; exact this
    refine ⟨v, v1, ?_⟩
    have e1 : (wakes.map fun e => ([(γ, w.R)].map fun y => sheetFlow y.1 y.2 e c.vert s d p).sum) = wakes.map fun e => sheetFlow γ c.R e c.vert s d p := by
      apply List.map_congr_left
      intro e _
      rw [hRw]
      ext <;> simp
    rw [e1, hRw]
    simpa only [List.map_cons, List.map_nil, List.sum_cons, List.sum_nil, add_zero] using v2
  · have hr0 : ∀ x ∈ r, ∃ y ∈ gt.zip r, y.2 = x := by
      intro x hx
      have : (gt.zip r).map Prod.snd = r := List.map_snd_zip (by omega)
      rw [← this] at hx
      obtain ⟨y, hy, rfl⟩ := List.mem_map.1 hx
      exact ⟨y, hy, rfl⟩
    have hrp : ∀ x ∈ r, 0 < x := fun x hx => by obtain ⟨y, h1, rfl⟩ := hr0 x hx; exact hpos y h1
    have hrD : ∀ x ∈ r, 0 < D x := fun x hx => by obtain ⟨y, h1, rfl⟩ := hr0 x hx; exact hD y h1
    obtain ⟨b, hb⟩ : ∃ b, o.ground.getD w.Ground = b := ⟨_, rfl⟩
    have hwk : wakes = wakeCentres b c.vert w.r_hub := by rw [← hb]
    have k0 := several_sheets mini c.R c.hub c.shaft c.vert c.U0 c.Lambda c.Ground c.Model ho h pts hp { o with ground := some false } hnw hlo hro hta hoi gt r hl1 hl3 hrp χ w hw hgt hgl hr rfl hM
      (by rw [computeU_state] at c1 ⊢; exact c1) hsk hcos d hdir D hrD
    obtain ⟨u0, e0, H0⟩ := k0
    rw [hwk]
    cases b with
    | false =>
      refine ⟨u0, (ground_asked w pts o false hb).trans e0, fun i p hpi hcl => ?_⟩
      obtain ⟨v, v1, v2⟩ := H0 i p hpi fun x hx => by
        obtain ⟨y, h1, rfl⟩ := hr0 x hx
        exact hcl w.r_hub (by simp [wakeCentres]) y h1
      refine ⟨v, v1, ?_⟩
      have e1 : ((wakeCentres false c.vert w.r_hub).map fun e => ((gt.zip r).map fun y => sheetFlow y.1 y.2 e c.vert s d p).sum).sum =
          ((gt.zip r).map fun y => sheetFlow y.1 y.2 w.r_hub c.vert w.e_shaft_g d p).sum := by
        simp only [wakeCentres, Bool.false_eq_true, if_false, List.map_cons, List.map_nil, List.sum_cons, List.sum_nil, add_zero, s]
      rw [e1]
      simpa [wakeCentres] using v2
    | true =>
      obtain ⟨c', hc'⟩ : ∃ c', c' = groundImage c.vert w.r_hub := ⟨_, rfl⟩
      have hw' : (WT.new c.R c.hub c.shaft c.vert c.U0 c.Lambda c.Ground c.Model).run mini (h ++ [.position c']) = { w with r_hub := c' } :=
        run_position mini c.build h _
      have kg := C153_turbine mini c ho h pts hp o hnw
      obtain ⟨w', hww⟩ : ∃ w' : WT, w' = { w with r_hub := c' } := ⟨_, rfl⟩
      have k1 := several_sheets mini c.R c.hub c.shaft c.vert c.U0 c.Lambda c.Ground c.Model ho (h ++ [.position c']) pts hp { o with ground := some false, only_ind := true } hnw hlo hro hta rfl gt r
        hl1 hl3 hrp χ w' (hww.trans hw'.symm) (by rw [hww]; exact hgt) (by rw [hww]; exact hgl) (by rw [hww]; exact hr) rfl (by rw [hww]; exact hM)
        (by rw [computeU_state] at c1 ⊢; rw [hww]; exact c1) hsk hcos d (by rw [hww]; exact hdir) D hrD
      obtain ⟨u1, e1, H1⟩ := k1
      rw [hww] at e1 H1
      obtain ⟨g1, -, g3⟩ := kg (Or.inr ⟨hlo, gt.map .fin, r, hgt, by simpa using hl3, hr, by simpa using hl1, hgl⟩)
      obtain ⟨u, hu⟩ := g1.2 ⟨u0, e0⟩
      refine ⟨u, (ground_asked w pts o true hb).trans hu, fun i p hpi hcl => ?_⟩
      have hil : i < pts.length := by
        by_contra h
        rw [List.getElem?_eq_none (by omega)] at hpi; exact nomatch hpi
      obtain ⟨v0, v1, v2⟩ := H0 i p hpi fun x hx => by
        obtain ⟨y, h1, rfl⟩ := hr0 x hx
        exact hcl w.r_hub (by simp [wakeCentres]) y h1
      obtain ⟨v0', v1', v2'⟩ := H1 i p hpi fun x hx => by
        obtain ⟨y, h1, rfl⟩ := hr0 x hx
        exact hcl c' (by simp [wakeCentres, hc']) y h1
      obtain ⟨x, y, hx, hy, hxy⟩ := g3 u u0 u1 hu e0 (by
        rw [← e1, hc']
        rw [hc'] at hw'
        exact congrArg (fun a : WT => (a.computeU pts { o with ground := some false, only_ind := true }).1) hw') i hil
      rw [v1] at hx
      rw [v1'] at hy
      cases hx
      cases hy
      refine ⟨v0 + v0', hxy.trans (congrArg some (by ext <;> simp)), ?_⟩
      have e2 : ((wakeCentres true c.vert w.r_hub).map fun e => ((gt.zip r).map fun y => sheetFlow y.1 y.2 e c.vert s d p).sum).sum =
          ((gt.zip r).map fun y => sheetFlow y.1 y.2 w.r_hub c.vert w.e_shaft_g d p).sum + ((gt.zip r).map fun y => sheetFlow y.1 y.2 c' c.vert w.e_shaft_g d p).sum := by
        simp only [wakeCentres, if_true, List.map_cons, List.map_nil, List.sum_cons, List.sum_nil, add_zero, s, ← hc']
      rw [e2]
      have hsplit : ∀ a b x y : V3 ℝ, a + b - (x + y) = (a - x) + (b - y) := fun a b x y => by ext <;> simp <;> ring
      rw [hsplit]
      refine (norm_triangle _ _).trans (le_trans (add_le_add v2 v2') (le_of_eq ?_))
      simp [wakeCentres]
      ring

/-- C154: a farm.  The turbines are built from `args` and called with the histories `hist`, after which they have the stations `st` (one cylinder, or several), model "VC" and no remembered skew, in
horizontal winds of direction `d`.  Each faces its wind, or is misaligned by more than 1e-7 and by less than 90 degrees.  The velocity field of the farm is the free stream plus, for each turbine, each
image below the ground and each station, the Biot–Savart velocity of the sheet that leaves the circle of the station along the wind.  The error is at most 3.01% of the intensities for the turbines that
face the wind, at points off the edges of their sheets, and `√3(π²/(3·179²))x(x+2)(1+10x+18x²)`, `x` the radius of the station over the distance `D` to its sheet, of the intensities for the others. -/
theorem C154_farm (mini : (ℝ → Num) → ℝ) (args : ℕ → TurbineArgs) (hist : ℕ → List Op) (ts : List ℕ) (st : ℕ → List (ℝ × ℝ)) (D : ℕ → ℝ → ℝ)
    (pts : List (V3 ℝ)) (hp : pts ≠ []) (o : Opts) (hnw : o.no_wake = false) (hta : o.tang = true) (hlo : o.longi = false) (hro : o.root = false)
    (V : Option (V3 ℝ)) (w : ℕ → WT) (hw : ∀ t, w t = ((args t).build).run mini (hist t))
    (ho : ∀ t ∈ ts, Orthonormal (args t).shaft (args t).vert) (hpos : ∀ t ∈ ts, ∀ y ∈ st t, 0 < y.2 ∧ 0 < D t y.2) (hst : ∀ t ∈ ts, HasStations (w t) (st t))
    (hM : ∀ t ∈ ts, o.Model.getD (w t).Model = "VC") (hchi : ∀ t ∈ ts, (w t).chi = none)
    (d : ℕ → V3 ℝ) (hwind : ∀ t ∈ ts, V3.dot (d t) (d t) = 1 ∧ V3.dot (d t) (args t).vert = 0 ∧ ∃ U > 0, (w t).U0_g = V3.smul U (d t))
    (hfwd : ∀ t ∈ ts, 0 < V3.dot (d t) (w t).e_shaft_g)
    (hyaw : ∀ t ∈ ts, (d t = (w t).e_shaft_g ∧ -π < (w t).yaw_pos ∧ (w t).yaw_pos ≤ π) ∨ 1e-7 < |V3.dot (d t) (V3.cross (args t).vert (w t).e_shaft_g)|) :
    let q := frun mini (ts.map .turbine) w []
    let wakes := fun t => wakeCentres (o.ground.getD (w t).Ground) (args t).vert (w t).r_hub
    let s := fun t => (w t).e_shaft_g
    ∃ u, (farmVelocity q.1 q.2 pts o V).1 = .ok u ∧ ∀ (i : ℕ) (p : V3 ℝ), pts[i]? = some p →
      (∀ t ∈ ts, ∀ c ∈ wakes t, ∀ y ∈ st t, if d t = s t then OffEdge y.2 c (args t).vert (s t) p else Clear (D t y.2) y.2 c (args t).vert (s t) (d t) p) →
      ∃ v, u[i]? = some (V3.fin v) ∧
        V3.norm (v - (V.getD 0 + (ts.map fun t => ((wakes t).map fun c => ((st t).map fun y => sheetFlow y.1 y.2 c (args t).vert (s t) (d t) p).sum).sum).sum)) ≤
          (ts.map fun t => (wakes t).length * if d t = s t then 0.0301 * ((st t).map fun y => |y.1|).sum else
            √3 * ((st t).map fun y => |y.1| * (π^2/(3 * 179^2) * (y.2/D t y.2 * (y.2/D t y.2 + 2)) * (1 + 10 * (y.2/D t y.2) + 18 * (y.2/D t y.2)^2))).sum).sum := by
  intro q wakes s
  refine farm_assemble mini ts w pts o V
    (fun t p => ∀ c ∈ wakes t, ∀ y ∈ st t, if d t = s t then OffEdge y.2 c (args t).vert (s t) p else Clear (D t y.2) y.2 c (args t).vert (s t) (d t) p)
    (fun t p => ((wakes t).map fun c => ((st t).map fun y => sheetFlow y.1 y.2 c (args t).vert (s t) (d t) p).sum).sum)
    (fun t => (wakes t).length * if d t = s t then 0.0301 * ((st t).map fun y => |y.1|).sum else
            √3 * ((st t).map fun y => |y.1| * (π^2/(3 * 179^2) * (y.2/D t y.2 * (y.2/D t y.2 + 2)) * (1 + 10 * (y.2/D t y.2) + 18 * (y.2/D t y.2)^2))).sum) ?_
  intro t ht
  have ew : w t = (WT.new (args t).R (args t).hub (args t).shaft (args t).vert (args t).U0 (args t).Lambda (args t).Ground (args t).Model).run mini (hist t) := hw t
  obtain ⟨d1, d2, U, hU, hUd⟩ := hwind t ht
  obtain ⟨a1, a2, a3, a4, a5, a6⟩ := rotorAxes_run mini (args t).R (args t).hub (args t).shaft (args t).vert (args t).U0 (args t).Lambda (args t).Ground (args t).Model (ho t ht) (hist t)
  rw [← ew] at a1 a2 a3 a5 a6
  by_cases hal : d t = s t
  · rcases hyaw t ht with ⟨-, y1, y2⟩ | hbad
    · obtain ⟨χ, c1, c2, c3, c4⟩ := wind_chi mini (args t).R (args t).hub (args t).shaft (args t).vert (args t).U0 (args t).Lambda (args t).Ground (args t).Model
        (ho t ht) (hist t) (w t) ew (hchi t ht) U hU (d t) d1 d2 hUd pts { o with only_ind := true }
      obtain ⟨b1, b2⟩ := c4 y1 y2
      have hcos : cos χ = 1 := by rw [c3, hal]; exact a6
      have h0 : χ = 0 := (Real.cos_eq_one_iff_of_lt_of_lt b1 b2).1 hcos
      have key := C152_turbine mini (args t) (hist t) pts hp { o with only_ind := true } hnw hta hlo hro (ho t ht) (st t) (fun y hy => (hpos t ht y hy).1)
      rw [← hw t] at key
      obtain ⟨u, hu, hall⟩ := key (hst t ht) (hM t ht) ⟨.fin χ, c1, by rw [h0]; simp; norm_num⟩
      refine ⟨u, hu, fun i p hpi hP => ?_⟩
      simp only [if_pos hal] at hP ⊢
      obtain ⟨v, v1, v2⟩ := hall i p hpi hP
      refine ⟨v, v1, le_of_eq_of_le ?_ (v2.trans (le_of_eq ?_))⟩
      · have hsw : ((wakes t).map fun c => ((st t).map fun y => sheetFlow y.1 y.2 c (args t).vert (s t) (d t) p).sum) =
            (wakes t).map fun c => ((st t).map fun y => wakeFlow y.1 y.2 c (args t).vert (s t) p).sum := by
          apply List.map_congr_left
          intro c hc
          congr 1
          apply List.map_congr_left
          intro y hy
          rw [hal, wakeFlow_sheet _ _ (hpos t ht y hy).1 c _ _ p (ho t ht).vert a6 a5 (hP c hc y hy)]
        rw [hsw]
        congr 1
        simp only [if_true]
        ext <;> simp <;> rfl
      · simp only [wakes]; ring
    · exfalso
      rw [hal] at hbad
      change 1e-7 < |V3.dot (w t).e_shaft_g _| at hbad
      rw [dot_comm, a3, abs_zero] at hbad
      norm_num at hbad
  · rcases hyaw t ht with ⟨hbad, -⟩ | hy
    · exact absurd hbad hal
    · have key := C154_turbine mini (args t) (hist t) pts hp { o with only_ind := true } hnw hta hlo hro rfl (ho t ht) (st t) (fun y hy => (hpos t ht y hy).1) U hU (d t) d1 d2 (D t)
        (fun y hy => (hpos t ht y hy).2)
      rw [← hw t] at key
      obtain ⟨u, hu, hall⟩ := key (hst t ht) (hM t ht) (hchi t ht) hUd (hfwd t ht) hy
      refine ⟨u, hu, fun i p hpi hP => ?_⟩
      simp only [if_neg hal] at hP ⊢
      exact hall i p hpi hP

/-- C154: along the wind.  In a common wind direction `d`, the velocity of the farm along the wind is the free stream plus, for each turbine, each image and each station, the intensity times the fraction
`Ω/4π` of the sphere that the point loses to the disk of the station and its wake (`rotorAngle`: the solid angle of the disk upstream; `4π` minus it in the wake; minus it around the wake). -/
theorem C154_along (mini : (ℝ → Num) → ℝ) (args : ℕ → TurbineArgs) (hist : ℕ → List Op) (ts : List ℕ) (st : ℕ → List (ℝ × ℝ)) (D : ℕ → ℝ → ℝ)
    (pts : List (V3 ℝ)) (hp : pts ≠ []) (o : Opts) (hnw : o.no_wake = false) (hta : o.tang = true) (hlo : o.longi = false) (hro : o.root = false)
    (V : Option (V3 ℝ)) (w : ℕ → WT) (hw : ∀ t, w t = ((args t).build).run mini (hist t))
    (ho : ∀ t ∈ ts, Orthonormal (args t).shaft (args t).vert) (hpos : ∀ t ∈ ts, ∀ y ∈ st t, 0 < y.2 ∧ 0 < D t y.2) (hst : ∀ t ∈ ts, HasStations (w t) (st t))
    (hM : ∀ t ∈ ts, o.Model.getD (w t).Model = "VC") (hchi : ∀ t ∈ ts, (w t).chi = none)
    (d : V3 ℝ) (hd : V3.dot d d = 1) (hwind : ∀ t ∈ ts, V3.dot d (args t).vert = 0 ∧ ∃ U > 0, (w t).U0_g = V3.smul U d)
    (hfwd : ∀ t ∈ ts, 0 < V3.dot d (w t).e_shaft_g)
    (hyaw : ∀ t ∈ ts, (d = (w t).e_shaft_g ∧ -π < (w t).yaw_pos ∧ (w t).yaw_pos ≤ π) ∨ 1e-7 < |V3.dot d (V3.cross (args t).vert (w t).e_shaft_g)|) :
    let q := frun mini (ts.map .turbine) w []
    let wakes := fun t => wakeCentres (o.ground.getD (w t).Ground) (args t).vert (w t).r_hub
    let s := fun t => (w t).e_shaft_g
    ∃ u, (farmVelocity q.1 q.2 pts o V).1 = .ok u ∧ ∀ (i : ℕ) (p : V3 ℝ), pts[i]? = some p →
      (∀ t ∈ ts, ∀ c ∈ wakes t, ∀ y ∈ st t, if d = s t then OffEdge y.2 c (args t).vert (s t) p else Clear (D t y.2) y.2 c (args t).vert (s t) d p) →
      ∃ v, u[i]? = some (V3.fin v) ∧
        |V3.dot v d - (V3.dot (V.getD 0) d + (ts.map fun t => ((wakes t).map fun c => ((st t).map fun y => y.1/(4*π) * rotorAngle y.2 c (s t) d p).sum).sum).sum)| ≤
          (ts.map fun t => (wakes t).length * if d = s t then 0.0301 * ((st t).map fun y => |y.1|).sum else
            √3 * ((st t).map fun y => |y.1| * (π^2/(3 * 179^2) * (y.2/D t y.2 * (y.2/D t y.2 + 2)) * (1 + 10 * (y.2/D t y.2) + 18 * (y.2/D t y.2)^2))).sum).sum := by
  intro q wakes s
  obtain ⟨u, hu, hall⟩ := C154_farm mini args hist ts st D pts hp o hnw hta hlo hro V w hw ho hpos hst hM hchi (fun _ => d) (fun t ht => ⟨hd, (hwind t ht).1, (hwind t ht).2⟩) hfwd hyaw
  refine ⟨u, hu, fun i p hpi hoff => ?_⟩
  obtain ⟨v, v1, v2⟩ := hall i p hpi hoff
  refine ⟨v, v1, le_trans (le_of_eq ?_) ((dot_le_norm_unit _ d hd).trans v2)⟩
  congr 1
  rw [dot_sub_left, dot_add_left]
  congr 2
  symm
  refine sum_along _ _ _ _ fun t ht => sum_along _ _ _ _ fun c hc => sum_along _ _ _ _ fun y hy => ?_
  have ew : w t = (WT.new (args t).R (args t).hub (args t).shaft (args t).vert (args t).U0 (args t).Lambda (args t).Ground (args t).Model).run mini (hist t) := hw t
  obtain ⟨a1, a2, a3, a4, a5, a6⟩ := rotorAxes_run mini (args t).R (args t).hub (args t).shaft (args t).vert (args t).U0 (args t).Lambda (args t).Ground (args t).Model (ho t ht) (hist t)
  rw [← ew] at a1 a2 a3 a5 a6
  have hoft := hoff t ht c hc y hy
  refine sheet_along _ _ (hpos t ht y hy).1 c _ _ d p a4 a6 a5 hd (hwind t ht).1 (hfwd t ht) ?_
  split_ifs at hoft ⊢ with k1
  · exact hoft
  · exact ⟨_, (hpos t ht y hy).2, hoft⟩

/-- a farm of a turbine with two stations at 36.87 degrees to the wind and of a turbine with one cylinder that faces the wind, over the ground, seen from a point upstream of both, meets the hypotheses -/
example (mini : (ℝ → Num) → ℝ) : let d : V3 ℝ := ⟨0.6, 0, 0.8⟩
    let args : ℕ → TurbineArgs := fun t => ⟨50, ⟨200*t, 80, 0⟩, if t = 0 then ⟨0, 0, 1⟩ else d, ⟨0, 1, 0⟩, ⟨6, 0, 8⟩, some .pinf, true, "VC"⟩
    let hist : ℕ → List Op := fun t => if t = 0 then [.loading { r := some [20, 50], Ct := some [.fin (-3), .fin (-4)], nCyl := none, gamma_t_Ct := some fun c => c }] else
      [.loading { Ct := some [.fin (-5)], nCyl := none, gamma_t_Ct := some fun c => c }]
    let st : ℕ → List (ℝ × ℝ) := fun t => if t = 0 then [(-3, 20), (-4, 50)] else [(-5, 50)]
    let w := fun t => (args t).build.run mini (hist t)
    let p : V3 ℝ := ⟨-600, 80, -800⟩
    V3.dot d d = 1 ∧ (args 0).shaft ≠ d ∧ ∀ t ∈ [0, 1], Orthonormal (args t).shaft (args t).vert ∧ (∀ y ∈ st t, 0 < y.2) ∧ HasStations (w t) (st t) ∧ (w t).Model = "VC" ∧ (w t).chi = none ∧
      V3.dot d (args t).vert = 0 ∧ (w t).U0_g = V3.smul 10 d ∧ 0 < V3.dot d (w t).e_shaft_g ∧
      ((d = (w t).e_shaft_g ∧ -π < (w t).yaw_pos ∧ (w t).yaw_pos ≤ π) ∨ 1e-7 < |V3.dot d (V3.cross (args t).vert (w t).e_shaft_g)|) ∧
      ∀ c ∈ wakeCentres (w t).Ground (args t).vert (w t).r_hub, ∀ y ∈ st t,
        if d = (w t).e_shaft_g then OffEdge y.2 c (args t).vert (w t).e_shaft_g p else Clear 500 y.2 c (args t).vert (w t).e_shaft_g d p := by
  intro d args hist st w p
  have hpi := pi_pos
  refine ⟨by norm_num [V3.dot, d], ?_, fun t ht => ?_⟩
  · intro h
    have := congrArg V3.x h
    norm_num [args, d] at this
  have ht2 : t = 0 ∨ t = 1 := by simpa using ht
  have hsh : (w t).e_shaft_g = (args t).shaft := by
    have : (w t).e_shaft_g = M3.mulVec (rotMatAxisAngle (args t).vert 0) (args t).shaft := by
      simp only [w, hist]; split_ifs <;> rfl
    rw [this]
    unfold rotMatAxisAngle M3.mulVec; ext <;> simp [args]
  have hhub : (w t).r_hub = ⟨200*t, 80, 0⟩ := by simp only [w, hist]; split_ifs <;> rfl
  have hG : (w t).Ground = true := by simp only [w, hist]; split_ifs <;> rfl
  have hU : (w t).U0_g = ⟨6, 0, 8⟩ := by simp only [w, hist]; split_ifs <;> rfl
  have hy : (w t).yaw_pos = 0 := by simp only [w, hist]; split_ifs <;> rfl
  rw [hsh, hU, hhub, hG, hy]
  refine ⟨?_, ?_, ?_, ?_, ?_, ?_, ?_, ?_, ?_, ?_⟩
  · rcases ht2 with rfl | rfl <;> exact ⟨by norm_num [V3.dot, args, d], by norm_num [V3.dot, args, d], by norm_num [V3.dot, args, d]⟩
  · rcases ht2 with rfl | rfl <;> simp [st]
  · rcases ht2 with rfl | rfl
    · refine Or.inr ⟨[-3, -4], [20, 50], rfl, rfl, rfl, by simp, Or.inl rfl, rfl⟩
    · exact Or.inl ⟨-5, rfl, rfl⟩
  · simp only [w, hist]; split_ifs <;> rfl
  · simp only [w, hist]; split_ifs <;> rfl
  · simp [V3.dot, args, d]
  · ext <;> simp [d] <;> norm_num
  · rcases ht2 with rfl | rfl <;> norm_num [V3.dot, args, d]
  · rcases ht2 with rfl | rfl
    · right; norm_num [V3.dot, V3.cross, args, d]
    · left; exact ⟨by simp [args], by linarith, by linarith⟩
  · intro c hc y hyy
    have hcz : c.z = 0 := by
      simp [wakeCentres, groundImage, V3.dot, args] at hc
      rcases hc with rfl | rfl <;> simp
    have hcx : c.x = 200 * t := by
      simp [wakeCentres, groundImage, V3.dot, args] at hc
      rcases hc with rfl | rfl <;> simp
    rcases ht2 with rfl | rfl
    · rw [if_neg (by intro h; have := congrArg V3.x h; norm_num [args, d] at this)]
      refine upstream_clear (by norm_num [V3.dot, args]) (by norm_num [V3.dot, args]) (by norm_num [V3.dot, args, d]) ?_ (by norm_num)
      norm_num [V3.dot, args, p, hcz]
    · rw [if_pos (by simp [args])]
      simp [st] at hyy
      subst hyy
      have hcx' : c.x = 200 := by rw [hcx]; norm_num
      have e : inRotor c ⟨0,1,0⟩ d p = ⟨-160, p.y - c.y, -1120⟩ := by
        unfold inRotor; ext <;> norm_num [V3.dot, V3.cross, p, d, hcz, hcx']
      unfold OffEdge
      change √((inRotor c ⟨0,1,0⟩ d p).x^2 + (inRotor c ⟨0,1,0⟩ d p).y^2) ≠ 50 ∧ ¬ (|√((inRotor c ⟨0,1,0⟩ d p).x^2 + (inRotor c ⟨0,1,0⟩ d p).y^2) - 50| < 1e-8 * 50 ∧ |(inRotor c ⟨0,1,0⟩ d p).z| < 1e-8 * 50)
      rw [e]
      refine ⟨fun h' => ?_, fun h' => ?_⟩
      · have : 50^2 = (-160:ℝ)^2 + (p.y - c.y)^2 := by rw [← h', Real.sq_sqrt (by positivity)]
        nlinarith [sq_nonneg (p.y - c.y)]
      · have := h'.2
        norm_num at this

end
end Wiz
