import Verif.Props.YawedSolidAngle
import Verif.Props.AxialStations
/-! # C149: a yawed rotor with several stations -/
set_option autoImplicit false
namespace Wiz
open Spec Classical Real
noncomputable section

theorem skewTang_zero (R m : ℝ) (P : V3 ℝ) : skewTangField 0 R m P = 0 := by
  unfold skewTangField tangGenerator vint
  ext <;> simp

/-- error of a sum of vectors, component by component -/
theorem sum_abs_le {α : Type} (l : List α) (f g : α → V3 ℝ) (E : α → ℝ) (π' : V3 ℝ → ℝ) (h0 : π' 0 = 0) (hadd : ∀ x y : V3 ℝ, π' (x + y) = π' x + π' y)
    (h : ∀ y ∈ l, |π' (f y) - π' (g y)| ≤ E y) : |π' (l.map f).sum - π' (l.map g).sum| ≤ (l.map E).sum := by
  induction l with
  | nil => simp [h0]
  | cons y l ih =>
    simp only [List.map_cons, List.sum_cons, hadd]
    have h1 := h y List.mem_cons_self
    have h2 := ih fun z hz => h z (List.mem_cons_of_mem _ hz)
    calc _ = |(π' (f y) - π' (g y)) + (π' (l.map f).sum - π' (l.map g).sum)| := by congr 1; ring
      _ ≤ _ := (abs_add_le _ _).trans (add_le_add h1 h2)

/-- C149: a turbine with several stations, at any skew.  After any history, the velocity that it induces is the sum of the velocities of the skewed cylinders of its stations, up to the sum of
the errors of the azimuthal quadratures, each at the distance `D x` of the point to the wake of the station of radius `x`. -/
theorem C149_field (mini : (ℝ → Num) → ℝ) (R : ℝ) (hub shaft vert U0 : V3 ℝ) (L : Option Num) (G : Bool)
    (M : String) (ho : Orthonormal shaft vert) (h : List Op) (pts : List (V3 ℝ)) (hp : pts ≠ []) (o : Opts) (hnw : o.no_wake = false)
    (hlo : o.longi = false) (hro : o.root = false) (hta : o.tang = true) (gt r : List ℝ) (hl1 : gt.length = r.length) (hl3 : gt.length ≠ 1) (hpos : ∀ x ∈ r, 0 < x) (χ : ℝ) :
    let w := (WT.new R hub shaft vert U0 L G M).run mini h
    let s := w.e_shaft_g
    let a := V3.cross vert s
    w.gamma_t = some (gt.map .fin) → (w.gamma_l = none ∨ ∃ gl, w.gamma_l = some gl ∧ gl.length = r.length) → w.r = some r →
    o.ground.getD w.Ground = false → o.Model.getD w.Model = "VC" → (w.computeU pts o).2.chi = some (.fin χ) → 1e-7 < |χ| → cos χ ≠ 0 →
    ∃ u, (w.computeU pts o).1 = .ok u ∧ ∀ (i : ℕ) (p q : V3 ℝ) (D : ℝ → ℝ), pts[i]? = some p →
      q = ⟨V3.dot (p - w.r_hub) a, V3.dot (p - w.r_hub) vert, V3.dot (p - w.r_hub) s⟩ →
      (∀ x ∈ r, 0 < D x ∧ ∀ θ t, 0 ≤ t → D x ≤ V3.norm (q - wakePoint x (tan χ) θ t)) →
      ∃ v : V3 ℝ, u[i]? = some (V3.fin v) ∧ ∀ v0 F : V3 ℝ, v0 = v - (if o.only_ind then 0 else w.U0_g) →
        F = ((gt.zip r).map fun y => skewTangField y.1 y.2 (tan χ) q).sum →
        ∀ E, E = ((gt.zip r).map fun y => |y.1| * (π^2/(3 * 179^2) * (y.2/D y.2 * (y.2/D y.2 + 2)) * (1 + 10 * (y.2/D y.2) + 18 * (y.2/D y.2)^2))).sum →
        |V3.dot v0 a - F.x| ≤ E ∧ |V3.dot v0 vert - F.y| ≤ E ∧ |V3.dot v0 s - F.z| ≤ E := by
  intro w s a hgt hgl hr hg hM hchi hsk hcos
  have hw : w = (WT.new R hub shaft vert U0 L G M).run mini h := rfl
  obtain ⟨u, hu⟩ := (C16_multi w _ r hgt (by simpa using hl3) hr (by simpa using hl1) hgl pts hp o).mpr hM
  obtain ⟨a1, a2, a3, a4, a5, a6⟩ := rotorAxes_run mini R hub shaft vert U0 L G M ho h
  rw [← hw] at a1 a2 a3 a5 a6
  have hfield := C16_field_multi mini R hub shaft vert U0 L G M ho h pts o hnw hlo hro
  simp only [← hw] at hfield
  clear_value w
  obtain ⟨ul, uv⟩ := hfield _ r _ u hgt (by simpa using hl3) hr hchi hu
  clear hfield
  have hskN : Num.fin 1e-7 < Num.abs (.fin χ) := by rw [Num.abs_fin, Num.lt_fin]; exact hsk
  have htan : Num.tan (.fin χ) = .fin (tan χ) := by
    show (if cos χ = 0 then Num.nan else Num.fin (tan χ)) = _
    rw [if_neg hcos]
  refine ⟨u, hu, fun i p q D hpi hq hD => ?_⟩
  have hil : i < pts.length := by
    by_contra h
    rw [List.getElem?_eq_none (by omega)] at hpi; exact nomatch hpi
  have uv := uv i hil
  rw [hg, hta] at uv
  simp only [Bool.false_eq_true, if_false, List.map_cons, List.map_nil, List.sum_cons, List.sum_nil, add_zero, if_true] at uv
  generalize hY : rotorAxes (V3.cross vert w.e_shaft_g) vert w.e_shaft_g w.r_hub pts = Y at *
  have hYi : Y[i]? = some q := by
    rw [← hY, hq]
    simp only [rotorAxes, List.getElem?_map, hpi, Option.map_some]
    rfl
  have hT : ∀ y : ℝ × ℝ, ∃ g : V3 ℝ, y ∈ gt.zip r → (svcTang Y (.fin y.1) y.2 (.fin (tan χ)) (179+1) false).getD i 0 = V3.fin g ∧
      ∀ π' : V3 ℝ → ℝ, π' = V3.x ∨ π' = V3.y ∨ π' = V3.z → |π' g - π' (skewTangField y.1 y.2 (tan χ) q)| ≤
        |y.1| * (π^2/(3 * 179^2) * (y.2/D y.2 * (y.2/D y.2 + 2)) * (1 + 10 * (y.2/D y.2) + 18 * (y.2/D y.2)^2)) := by
    intro y
    by_cases hy : y ∈ gt.zip r
    · have hm := (List.of_mem_zip hy).2
      obtain ⟨d1, d2⟩ := hD _ hm
      obtain ⟨g, g1, g2, g3, g4⟩ := C114_tang Y y.1 y.2 (tan χ) (D y.2) (hpos _ hm) d1 179 i (by norm_num) q hYi d2 _ rfl
      refine ⟨g, fun _ => ⟨by rw [List.getD_eq_getElem?_getD, g1, Option.getD_some], ?_⟩⟩
      rintro π' (rfl | rfl | rfl)
      · exact_mod_cast g2
      · exact_mod_cast g3
      · exact_mod_cast g4
    · exact ⟨0, fun h => absurd h hy⟩
  choose g hg1 using hT
  obtain ⟨c, hc⟩ : ∃ c : V3 ℝ, c = ((gt.zip r).map fun y => if y.1 = 0 then 0 else g y).sum := ⟨_, rfl⟩
  have E : ((((gt.map Num.fin).zip r).filter fun y => decide (0 < Num.abs y.1)).map fun y => (wakeTang (.fin χ) "VC" y.1 y.2 o.R_far_field Y).getD i 0).sum = V3.fin c := by
    rw [hc]
    refine filter_zip_fin gt r _ _ (fun y hy h0 => ?_) (fun y _ h0 => if_pos h0)
    rw [if_neg h0, ← (hg1 y hy).1]
    unfold wakeTang
    rw [if_pos (show skewed (.fin χ) from hskN), htan]
  have uv : u.getD i 0 = V3.fin (fromAxes (V3.cross vert w.e_shaft_g) vert w.e_shaft_g c + if o.only_ind then 0 else w.U0_g) := by
    refine uv.trans ?_
    refine (congrArg (fun z => transform (M3.fin (M3.ofCols (V3.cross vert w.e_shaft_g) vert w.e_shaft_g)) z + _) E).trans ?_
    rw [transform_fin, mulVec_fromAxes]
    cases o.only_ind <;> ext <;> simp <;> rfl
  rw [List.getD_eq_getElem?_getD, List.getElem?_eq_getElem (by omega)] at uv
  have hcancel : ∀ x y : V3 ℝ, x + y - y = x := fun x y => by ext <;> simp
  refine ⟨fromAxes (V3.cross vert w.e_shaft_g) vert w.e_shaft_g c + (if o.only_ind then 0 else w.U0_g), ?_, ?_⟩
  · rw [List.getElem?_eq_getElem (by omega)]
    exact congrArg some uv
  · intro v0 F hv0 hF E' hE'
    rw [hcancel] at hv0
    have hdot : ∀ x : V3 ℝ, V3.dot v0 x = c.x * V3.dot (V3.cross vert w.e_shaft_g) x + c.y * V3.dot vert x + c.z * V3.dot w.e_shaft_g x := by
      intro x; rw [hv0]; simp [fromAxes, V3.dot]; ring
    have err : ∀ π' : V3 ℝ → ℝ, π' = V3.x ∨ π' = V3.y ∨ π' = V3.z → |π' c - π' F| ≤ E' := by
      intro π' hπ
      rw [hc, hF, hE']
      refine sum_abs_le _ _ _ _ π' (by rcases hπ with rfl | rfl | rfl <;> rfl) (by rcases hπ with rfl | rfl | rfl <;> intro x y <;> rfl) fun y hy => ?_
      by_cases h0 : y.1 = 0
      · rw [if_pos h0, h0, skewTang_zero]; simp
      · rw [if_neg h0]; exact (hg1 y hy).2 π' hπ
    have e1 : V3.dot v0 a = c.x := by
      rw [hdot]
      change c.x * V3.dot (V3.cross vert w.e_shaft_g) (V3.cross vert w.e_shaft_g) + c.y * V3.dot vert (V3.cross vert w.e_shaft_g) + c.z * V3.dot w.e_shaft_g (V3.cross vert w.e_shaft_g) = _
      rw [a1, dot_comm vert, a2, dot_comm w.e_shaft_g, a3]; ring
    have e2 : V3.dot v0 vert = c.y := by
      rw [hdot, a2, a4, dot_comm w.e_shaft_g, a5]; ring
    have e3 : V3.dot v0 s = c.z := by
      rw [hdot]
      change c.x * V3.dot (V3.cross vert w.e_shaft_g) w.e_shaft_g + c.y * V3.dot vert w.e_shaft_g + c.z * V3.dot w.e_shaft_g w.e_shaft_g = _
      rw [a3, a5, a6]; ring
    rw [e1, e2, e3]
    exact ⟨err _ (Or.inl rfl), err _ (Or.inr (Or.inl rfl)), err _ (Or.inr (Or.inr rfl))⟩

theorem sum_along {α : Type} (l : List α) (f : α → V3 ℝ) (g : α → ℝ) (d : V3 ℝ) (h : ∀ y ∈ l, V3.dot (f y) d = g y) : V3.dot (l.map f).sum d = (l.map g).sum := by
  induction l with
  | nil => simp [V3.dot]
  | cons y l ih =>
    rw [List.map_cons, List.sum_cons, List.map_cons, List.sum_cons, dot_add_left, ih fun y hy => h y (List.mem_cons_of_mem _ hy), h y List.mem_cons_self]

/-- C149: a yawed turbine with several stations.  After any history, a turbine with stations of intensities `gt` at the radii `r` in a horizontal wind of direction `d` (less than 90 degrees from the
shaft, skewed by more than 1e-7; no earlier evaluation), at a point at the axial coordinate `z` and at distance `ρ` from the shaft line, `rr` being its distance to the axis of the wake measured in
the rotor plane along the wind.  The induced velocity along the wind is the sum over the stations of `γΩ/4π` upstream of the rotor plane (`Ω`: solid angle of the disk of that station), of `γ/2` of
the stations outside of the point in the rotor plane, and downstream the sum of the `γ` of the stations whose wake contains the point minus the sum of the `γΩ/4π`; up to the error of the quadratures. -/
theorem C149_turbine (mini : (ℝ → Num) → ℝ) (R : ℝ) (hub shaft vert U0 : V3 ℝ) (L : Option Num) (G : Bool)
    (M : String) (ho : Orthonormal shaft vert) (h : List Op) (pts : List (V3 ℝ)) (hp : pts ≠ []) (o : Opts) (hnw : o.no_wake = false)
    (hlo : o.longi = false) (hro : o.root = false) (hta : o.tang = true) (gt r : List ℝ) (hl1 : gt.length = r.length) (hl3 : gt.length ≠ 1) (hpos : ∀ x ∈ r, 0 < x)
    (U : ℝ) (hU : 0 < U) (d : V3 ℝ) (hd : V3.dot d d = 1) (hdv : V3.dot d vert = 0)
    (E : (ℝ → ℝ) → ℝ) (hE : ∀ D, E D = ((gt.zip r).map fun y => |y.1| * (π^2/(3 * 179^2) * (y.2/D y.2 * (y.2/D y.2 + 2)) * (1 + 10 * (y.2/D y.2) + 18 * (y.2/D y.2)^2))).sum) :
    let w := (WT.new R hub shaft vert U0 L G M).run mini h
    let s := w.e_shaft_g
    w.gamma_t = some (gt.map .fin) → (w.gamma_l = none ∨ ∃ gl, w.gamma_l = some gl ∧ gl.length = r.length) → w.r = some r →
    o.ground.getD w.Ground = false → o.Model.getD w.Model = "VC" → w.chi = none → w.U0_g = V3.smul U d →
    0 < V3.dot d s → 1e-7 < |V3.dot d (V3.cross vert s)| →
    ∃ u, (w.computeU pts o).1 = .ok u ∧ ∀ (i : ℕ) (p : V3 ℝ) (z ρ rr : ℝ), pts[i]? = some p → z = V3.dot (p - w.r_hub) s → ρ = V3.norm (p - w.r_hub - V3.smul z s) →
      rr = V3.norm (p - w.r_hub - V3.smul (z / V3.dot d s) d) → (z < 0 ∨ ∀ x ∈ r, rr ≠ x) →
      ∃ v : V3 ℝ, u[i]? = some (V3.fin v) ∧ ∀ v0 : V3 ℝ, v0 = v - (if o.only_ind then 0 else w.U0_g) →
        (z < 0 → |V3.dot v0 d - ((gt.zip r).map fun y => y.1/(4*π) * diskSolidAngle y.2 ⟨ρ, 0, z⟩).sum| ≤ √2 * E fun _ => -z) ∧
        (z = 0 → |V3.dot v0 d - ((gt.zip r).map fun y => if rr < y.2 then y.1/2 else 0).sum| ≤ √2 * E fun x => |x - rr| * V3.dot d s) ∧
        (0 < z → |V3.dot v0 d - ((gt.zip r).map fun y => (if rr < y.2 then y.1 else 0) - y.1/(4*π) * diskSolidAngle y.2 ⟨ρ, 0, z⟩).sum| ≤ √2 * E fun x => |x - rr| * V3.dot d s) := by
  intro w s hgt hgl hr hg hM hc hwind hf hy
  have hw : w = (WT.new R hub shaft vert U0 L G M).run mini h := rfl
  obtain ⟨χ, c1, c2, c3, -⟩ := wind_chi mini R hub shaft vert U0 L G M ho h w hw hc U hU d hd hdv hwind pts o
  obtain ⟨a1, a2, a3, a4, a5, a6⟩ := rotorAxes_run mini R hub shaft vert U0 L G M ho h
  rw [← hw] at a1 a2 a3 a5 a6
  have hcos : 0 < cos χ := by rw [c3]; exact hf
  have hsk : 1e-7 < |χ| := by
    have hy : 1e-7 < |V3.dot d (V3.cross vert w.e_shaft_g)| := hy
    rw [← c2] at hy
    exact lt_of_lt_of_le hy (abs_sin_le_abs)
  have H := C149_field mini R hub shaft vert U0 L G M ho h pts hp o hnw hlo hro hta gt r hl1 hl3 hpos χ
  simp only [← hw] at H
  obtain ⟨u, hu, hall⟩ := H hgt hgl hr hg hM c1 hsk hcos.ne'
  clear_value w
  have hdd : d = V3.smul (sin χ) (V3.cross vert w.e_shaft_g) + V3.smul (cos χ) w.e_shaft_g := by
    have := axes_expand vert w.e_shaft_g a4 a6 a5 d
    rw [c2, c3]
    conv_lhs => rw [← this]
    unfold fromAxes
    simp only [hdv]
    ext <;> simp
  have b5 : V3.dot s s = 1 := a6
  have b6 : V3.dot s vert = 0 := by rw [dot_comm]; exact a5
  have ht : tan χ * cos χ = sin χ := tan_mul_cos hcos.ne'
  refine ⟨u, hu, fun i p z ρ rr hi hz hρ hrr hoff => ?_⟩
  obtain ⟨q, hq⟩ : ∃ q : V3 ℝ, q = ⟨V3.dot (p - w.r_hub) (V3.cross vert s), V3.dot (p - w.r_hub) vert, V3.dot (p - w.r_hub) s⟩ := ⟨_, rfl⟩
  have hqz : q.z = z := by rw [hq, hz]
  -- along the wind
  have along : ∀ D : ℝ → ℝ, (∀ x ∈ r, 0 < D x ∧ ∀ θ t, 0 ≤ t → D x ≤ V3.norm (q - wakePoint x (tan χ) θ t)) →
      ∃ v : V3 ℝ, u[i]? = some (V3.fin v) ∧ ∀ v0 : V3 ℝ, v0 = v - (if o.only_ind then 0 else w.U0_g) →
        ∀ g : ℝ × ℝ → ℝ, (∀ y ∈ gt.zip r, V3.dot (skewTangField y.1 y.2 (tan χ) q) ⟨sin χ, 0, cos χ⟩ = g y) → |V3.dot v0 d - ((gt.zip r).map g).sum| ≤ √2 * E D := by
    intro D hD
    obtain ⟨v, v1, v2⟩ := hall i p q D hi hq hD
    refine ⟨v, v1, fun v0 hv0 g hg => ?_⟩
    obtain ⟨b1, -, b3⟩ := v2 v0 _ hv0 rfl _ (hE D)
    rw [← sum_along _ _ g _ hg]
    have := along_le (χ := χ) b1 b3
    convert this using 2
    conv_lhs => rw [hdd]
    simp only [V3.dot, V3.add_x, V3.add_y, V3.add_z, V3.smul_x, V3.smul_y, V3.smul_z]
    ring
  have hΩ : ∀ x, 0 < x → z ≠ 0 → diskSolidAngle x q = diskSolidAngle x ⟨ρ, 0, z⟩ := fun x hx h0 => by
    rw [hq]; exact solid_frame hx vert s _ a4 b5 b6 z ρ hz hρ h0
  obtain ⟨e, he⟩ : ∃ e, e = p - w.r_hub - V3.smul (z / V3.dot d s) d := ⟨_, rfl⟩
  have hrs : V3.dot e s = 0 := by
    rw [he, dot_sub_left, dot_smul_left, ← hz, div_mul_cancel₀ _ hf.ne', sub_self]
  have hr2 : V3.dot e (V3.cross vert s)^2 + V3.dot e vert^2 = rr^2 := by
    have e' := expand_frame vert s e a4 b5 b6
    rw [hrs] at e'
    rw [hrr, ← he, norm_sq, e']; ring
  have hqr : q = ⟨V3.dot e (V3.cross vert s) + tan χ * z, V3.dot e vert, z⟩ := by
    rw [hq, he]
    ext
    · simp only
      generalize p - w.r_hub = p'
      rw [dot_sub_left, dot_smul_left, ← c2]
      change _ = _ - z / V3.dot d w.e_shaft_g * sin χ + _
      rw [← c3, ← ht]
      field_simp; ring
    · simp only
      generalize p - w.r_hub = p'
      rw [dot_sub_left, dot_smul_left, hdv]; ring
    · exact hz.symm
  have hx : q.x - tan χ * q.z = V3.dot e (V3.cross vert s) := by rw [hqr]; simp only; ring
  have hy' : q.y = V3.dot e vert := by rw [hqr]
  have hrr0 : 0 ≤ rr := by rw [hrr]; unfold V3.norm; positivity
  have hc3 : cos χ = V3.dot d s := c3
  rcases lt_or_ge z 0 with hz0 | hz0
  · obtain ⟨v, v1, v2⟩ := along (fun _ => -z) fun x _ => ⟨by linarith, upstream_dist x _ _ q (by rw [hqz]; linarith) (by linarith)⟩
    refine ⟨v, v1, fun v0 hv0 => ⟨fun _ => v2 v0 hv0 _ fun y hy => ?_, fun h => by linarith, fun h => by linarith⟩⟩
    have hy0 := hpos _ (List.of_mem_zip hy).2
    rw [← hΩ _ hy0 hz0.ne]
    exact (C147_field y.1 y.2 χ hy0 hcos q _ _ rfl rfl).1 (by rw [hqz]; exact hz0)
  · have hoff : ∀ x ∈ r, rr ≠ x := hoff.resolve_left (not_lt.mpr hz0)
    obtain ⟨v, v1, v2⟩ := along (fun x => |x - rr| * V3.dot d s) fun x hx => by
      refine ⟨mul_pos (abs_pos.mpr (sub_ne_zero.mpr (hoff x hx).symm)) hf, fun θ t _ => ?_⟩
      rw [hqr, ← hc3]
      rcases lt_or_gt_of_ne (hoff x hx) with h1 | h1
      · rw [abs_of_pos (by linarith)]; exact inside_dist hcos hr2.le hrr0 h1.le θ t
      · rw [abs_of_neg (by linarith), neg_sub]; exact outside_dist (hpos x hx).le hcos hr2 h1.le θ t
    refine ⟨v, v1, fun v0 hv0 => ⟨fun h => by linarith, fun h0 => v2 v0 hv0 _ fun y hy => ?_, fun h0 => v2 v0 hv0 _ fun y hy => ?_⟩⟩
    · have hm := (List.of_mem_zip hy).2
      obtain ⟨-, -, -, f4, f5⟩ := C147_field y.1 y.2 χ (hpos _ hm) hcos q _ _ rfl rfl
      have hqx : q.x^2 + q.y^2 = rr^2 := by
        have : q.x = V3.dot e (V3.cross vert s) := by rw [← hx, hqz, h0]; ring
        rw [this, hy', hr2]
      rw [hqx, hqz] at f4 f5
      split_ifs with h1
      · exact f4 h0 (pow_lt_pow_left₀ h1 hrr0 two_ne_zero)
      · exact f5 h0 (pow_lt_pow_left₀ (lt_of_le_of_ne (not_lt.mp h1) (hoff _ hm).symm) (hpos _ hm).le two_ne_zero)
    · have hm := (List.of_mem_zip hy).2
      obtain ⟨-, f2, f3, -, -⟩ := C147_field y.1 y.2 χ (hpos _ hm) hcos q _ _ rfl rfl
      rw [hx, hy', hr2, hqz, hΩ _ (hpos _ hm) h0.ne'] at f2 f3
      split_ifs with h1
      · exact f2 h0 (pow_lt_pow_left₀ h1 hrr0 two_ne_zero)
      · rw [f3 h0 (pow_lt_pow_left₀ (lt_of_le_of_ne (not_lt.mp h1) (hoff _ hm).symm) (hpos _ hm).le two_ne_zero)]; ring

/-- the rings that `update_loading` stores for the thrust coefficients `c` of several stations, and what they lose of the prescribed thrust -/
theorem thrust_rings (mini : (ℝ → Num) → ℝ) (R : ℝ) (hub shaft vert U0 : V3 ℝ) (L : Option Num) (gr : Bool)
    (M : String) (hR : 0 < R) (h : List Op)
    (n : ℕ) (r c K E : ℕ → ℝ) (lam : ℝ) (hl : 0 < lam) (hl20 : lam < 20) (hn : 2 ≤ n) (h0 : 0 < r 0) (hinc : ∀ i j, i < j → j < n → r i < r j)
    (hc : ∀ i < n, 0 < c i) (hK : ∀ i, K i = mini (fun k => .fin |k * (1 + k / (4 * (lam * r i / R)^2)) - c i|))
    (hmin : ∀ i < n, 0 ≤ K i ∧ K i * (1 + K i / (4 * (lam * r i / R)^2)) = c i)
    (hE : ∀ k < n, E k = c k - (K k)^2/4 * (1/(lam * r k / R)^2 - 1/(lam * rcyl n r R k / R)^2) -
      ∑ j ∈ Finset.Ico (k+1) (n-1), (K (j+1)/2)^2 * (1/(lam * rcyl n r R j / R)^2 - 1/(lam * rcyl n r R (j+1) / R)^2))
    (hist : List Op) (a : LoadArgs) (hre : reinterp R a = .ok (some ((List.range n).map r), some (farr n c), none)) (hla : a.Lambda = some (.fin lam)) (hf : a.gamma_t_Ct = none)
    (hh : hist = h ++ [.loading a]) (w : WT) (hw : w = (WT.new R hub shaft vert U0 L gr M).run mini hist) (V : ℝ) (hV : V = V3.norm w.U0_g) (hV0 : 0 < V) :
    w.gamma_t = some (((List.range n).map fun i => -2 * V * (aOfCt (E i) - (if i = n - 1 then 0 else aOfCt (E (i+1))))).map .fin) ∧
    (∃ gl, w.gamma_l = some gl ∧ gl.length = n) ∧ w.r = some ((List.range n).map r) ∧ ∀ k < n, E k < c k ∧ aOfCt (E k) < aOfCt (c k) := by
  obtain ⟨w0, hw0⟩ : ∃ w0, w0 = (WT.new R hub shaft vert U0 L gr M).run mini h := ⟨_, rfl⟩
  have hw : w = (w0.updateLoading mini a).2 := by
    rw [hw, hh, run_append, ← hw0]; rfl
  have hfr := frame_run mini shaft vert R h _ (frame_new R hub shaft vert U0 L gr M)
  rw [← hw0] at hfr
  have hU0 : w.U0_g = w0.U0_g := by
    rw [hw]
    unfold WT.updateLoading
    simp only
    repeat' split
    all_goals rfl
  have hRw : w0.R = R := hfr.R
  have hVw : V3.norm w0.U0_g = V := by rw [← hU0, ← hV]
  have hpos : ∀ i < n, 0 < r i := by
    intro i hi
    rcases Nat.eq_zero_or_pos i with rfl | h
    · exact h0
    · exact h0.trans (hinc 0 i h hi)
  obtain ⟨o1, o2⟩ := rcyl_outside n r R hn hinc
  have hsq : ∀ x y : ℝ, 0 < x → x < y → 1/(lam * y / R)^2 < 1/(lam * x / R)^2 := by
    intro x y hx hxy
    apply one_div_lt_one_div_of_lt
    · positivity
    · apply pow_lt_pow_left₀ _ (by positivity) two_ne_zero
      gcongr
  have hlt : ∀ k < n, E k < c k := by
    intro k hk
    rw [hE k hk]
    have t1 : 0 < (K k)^2/4 * (1/(lam * r k / R)^2 - 1/(lam * rcyl n r R k / R)^2) := by
      have hK0 : K k ≠ 0 := by
        intro h
        have := (hmin k hk).2
        rw [h, zero_mul] at this
        exact (hc k hk).ne this
      have := hsq _ _ (hpos k hk) (o1 k hk)
      apply mul_pos
      · positivity
      · linarith
    have t2 : 0 ≤ ∑ j ∈ Finset.Ico (k+1) (n-1), (K (j+1)/2)^2 * (1/(lam * rcyl n r R j / R)^2 - 1/(lam * rcyl n r R (j+1) / R)^2) := by
      apply Finset.sum_nonneg
      intro j hj
      have hj := Finset.mem_Ico.mp hj
      have := hsq _ _ ((hpos j (by omega)).trans (o1 j (by omega))) (o2 j (by omega))
      apply mul_nonneg
      · positivity
      · linarith
    linarith
  obtain ⟨G, hG⟩ : ∃ G : ℕ → ℝ, ∀ i, G i = K i * π * V^2 / (lam * V / R) := ⟨_, fun _ => rfl⟩
  have hGK : (fun j => G j * (lam * V / R) / (π * V^2)) = K := by
    funext j
    rw [hG]
    have := pi_pos
    field_simp
  have hlm : (fun j => lam * V / R * rcyl n r R j / V) = fun j => lam * rcyl n r R j / R := by
    funext j
    field_simp
  obtain ⟨v, v1, v2, l, v3, v4⟩ := fromGamma_axial n r G R V (lam * V / R) (by omega) h0 hinc (by omega) hV0 (by positivity) (by
    rw [div_mul_cancel₀ _ hR.ne', mul_div_assoc, div_self hV0.ne', mul_one]; exact hl20) (fun k => aOfCt (E k))
    (fun i hi => by rw [hGK, hlm, ctEff_of_thrust n r K c R lam i (hmin i hi).2, hE i hi])
  obtain ⟨g1, g2, g3⟩ := loading_rings mini w0 (by rw [hRw]; exact hR) n r lam a _ none v (by rw [hRw]; exact hre) hla hf (by
    rw [hRw, hVw]
    exact Or.inr ⟨_, rfl, (fromCt_fromGamma mini n r c G R V (lam * V / R) lam hR hV0 hl hl20 rfl hpos hc (fun i => by rw [hG, hK])).trans v1⟩)
  rw [← hw] at g1 g2 g3
  rw [v2, ← farr_map] at g1
  exact ⟨g1, ⟨l, by rw [g2, v3], v4⟩, g3, fun k hk => ⟨hlt k hk, C29_monotone_continuous.2.1 (hlt k hk)⟩⟩

/-- C149, whatever way the thrust coefficients reach the solver -/
theorem yawed_thrust (mini : (ℝ → Num) → ℝ) (R : ℝ) (hub shaft vert U0 : V3 ℝ) (L : Option Num) (gr : Bool)
    (M : String) (ho : Orthonormal shaft vert) (hR : 0 < R) (h : List Op) (pts : List (V3 ℝ)) (hp : pts ≠ []) (o : Opts) (hnw : o.no_wake = false)
    (hlo : o.longi = false) (hro : o.root = false) (hta : o.tang = true) (U : ℝ) (hU : 0 < U) (d : V3 ℝ) (hd : V3.dot d d = 1) (hdv : V3.dot d vert = 0)
    (n : ℕ) (r c K E : ℕ → ℝ) (lam : ℝ) (hl : 0 < lam) (hl20 : lam < 20) (hn : 2 ≤ n) (h0 : 0 < r 0) (hinc : ∀ i j, i < j → j < n → r i < r j)
    (hc : ∀ i < n, 0 < c i) (hK : ∀ i, K i = mini (fun k => .fin |k * (1 + k / (4 * (lam * r i / R)^2)) - c i|))
    (hmin : ∀ i < n, 0 ≤ K i ∧ K i * (1 + K i / (4 * (lam * r i / R)^2)) = c i)
    (hE : ∀ k < n, E k = c k - (K k)^2/4 * (1/(lam * r k / R)^2 - 1/(lam * rcyl n r R k / R)^2) -
      ∑ j ∈ Finset.Ico (k+1) (n-1), (K (j+1)/2)^2 * (1/(lam * rcyl n r R j / R)^2 - 1/(lam * rcyl n r R (j+1) / R)^2))
    (hist : List Op) (a : LoadArgs) (hre : reinterp R a = .ok (some ((List.range n).map r), some (farr n c), none)) (hla : a.Lambda = some (.fin lam)) (hf : a.gamma_t_Ct = none)
    (hh : hist = h ++ [.loading a]) (Q : ℝ → ℝ) (hQ : ∀ x, Q x = π^2/(3 * 179^2) * (x * (x + 2)) * (1 + 10 * x + 18 * x^2)) :
    let w := (WT.new R hub shaft vert U0 L gr M).run mini hist
    let s := w.e_shaft_g
    o.ground.getD w.Ground = false → o.Model.getD w.Model = "VC" → w.chi = none → w.U0_g = V3.smul U d → 0 < V3.dot d s → 1e-7 < |V3.dot d (V3.cross vert s)| →
    ∃ u, (w.computeU pts o).1 = .ok u ∧ (∀ k < n, E k < c k ∧ aOfCt (E k) < aOfCt (c k)) ∧
      ∀ (i : ℕ) (p : V3 ℝ) (k : ℕ) (ρ : ℝ), pts[i]? = some p → V3.dot (p - w.r_hub) s = 0 → ρ = V3.norm (p - w.r_hub) → k ≤ n → (∀ j < k, r j < ρ) → (∀ j < n, k ≤ j → ρ < r j) →
      ∃ v : V3 ℝ, u[i]? = some (V3.fin v) ∧
        |V3.dot (v - if o.only_ind then 0 else w.U0_g) d + (if k < n then U * aOfCt (E k) else 0)| ≤
          √2 * ∑ j ∈ Finset.range n, 2 * U * |aOfCt (E j) - (if j = n - 1 then 0 else aOfCt (E (j+1)))| * Q (r j / (|r j - ρ| * V3.dot d s)) := by
  intro w s hg hM hch hwind hf' hy
  have hnU : U = V3.norm w.U0_g := by rw [hwind, norm_smul_unit _ _ hd, abs_of_pos hU]
  obtain ⟨g1, ⟨gl, g2, g2'⟩, g3, g4⟩ := thrust_rings mini R hub shaft vert U0 L gr M hR h n r c K E lam hl hl20 hn h0 hinc hc hK hmin hE hist a hre hla hf hh w rfl U hnU hU
  have hpos : ∀ i < n, 0 < r i := by
    intro i hi
    rcases Nat.eq_zero_or_pos i with rfl | h
    · exact h0
    · exact h0.trans (hinc 0 i h hi)
  obtain ⟨u, hu, H⟩ := C149_turbine mini R hub shaft vert U0 L gr M ho hist pts hp o hnw hlo hro hta _ _ (by simp) (by simp; omega) (by
      intro x hx
      obtain ⟨j, hj, rfl⟩ := List.mem_map.mp hx
      exact hpos j (List.mem_range.mp hj)) U hU d hd hdv _ (fun _ => rfl) g1 (Or.inr ⟨gl, g2, by simpa using g2'⟩) g3 hg hM hch hwind hf' hy
  refine ⟨u, hu, g4, fun i p k ρ hi hz hρ hk hk1 hk2 => ?_⟩
  have e0 : ∀ y x : V3 ℝ, y - V3.smul 0 x = y := fun y x => by ext <;> simp
  have hne : ∀ x ∈ (List.range n).map r, ρ ≠ x := by
    intro x hx
    obtain ⟨j, hj, rfl⟩ := List.mem_map.mp hx
    rcases lt_or_ge j k with h1 | h1
    · exact (hk1 j h1).ne'
    · exact (hk2 j (List.mem_range.mp hj) h1).ne
  obtain ⟨v, v1, v2⟩ := H i p 0 ρ ρ hi hz.symm (by rw [e0]; exact hρ) (by rw [zero_div, e0]; exact hρ) (Or.inr hne)
  refine ⟨v, v1, ?_⟩
  have := (v2 _ rfl).2.1 rfl
  rw [outside_sum n k r (fun k => aOfCt (E k)) U ρ hk hk1 hk2, sub_neg_eq_add] at this
  refine this.trans (le_of_eq ?_)
  rw [zip_range, List.map_map, sum_range_list]
  congr 1
  apply Finset.sum_congr rfl
  intro j _
  simp only [Function.comp_apply, abs_mul, hQ, abs_neg, abs_two, abs_of_pos hU]
  ring

/-- C149, from the thrust: a yawed turbine loaded with positive thrust coefficients `c` of `n≥2` stations (tip-speed ratio below 20, exact minimiser).  Between the stations `k-1` and `k` of the rotor
disk the air is slowed down along the wind by `U a`, with the momentum-theory (Spera) induction `a` of the same `E_k` as for a rotor facing the wind (C143): the prescribed thrust coefficient minus the
thrust lost at the cylinder and in the rotation of the wake; outside of all stations the rotor plane is not slowed down.  The error is that of the azimuthal quadratures of the stations. -/
theorem C149_thrust (mini : (ℝ → Num) → ℝ) (R : ℝ) (hub shaft vert U0 : V3 ℝ) (L : Option Num) (gr : Bool)
    (M : String) (ho : Orthonormal shaft vert) (hR : 0 < R) (h : List Op) (pts : List (V3 ℝ)) (hp : pts ≠ []) (o : Opts) (hnw : o.no_wake = false)
    (hlo : o.longi = false) (hro : o.root = false) (hta : o.tang = true) (U : ℝ) (hU : 0 < U) (d : V3 ℝ) (hd : V3.dot d d = 1) (hdv : V3.dot d vert = 0)
    (n : ℕ) (r c K E : ℕ → ℝ) (lam : ℝ) (hl : 0 < lam) (hl20 : lam < 20) (hn : 2 ≤ n) (h0 : 0 < r 0) (hinc : ∀ i j, i < j → j < n → r i < r j)
    (hc : ∀ i < n, 0 < c i) (hK : ∀ i, K i = mini (fun k => .fin |k * (1 + k / (4 * (lam * r i / R)^2)) - c i|))
    (hmin : ∀ i < n, 0 ≤ K i ∧ K i * (1 + K i / (4 * (lam * r i / R)^2)) = c i)
    (hE : ∀ k < n, E k = c k - (K k)^2/4 * (1/(lam * r k / R)^2 - 1/(lam * rcyl n r R k / R)^2) -
      ∑ j ∈ Finset.Ico (k+1) (n-1), (K (j+1)/2)^2 * (1/(lam * rcyl n r R j / R)^2 - 1/(lam * rcyl n r R (j+1) / R)^2))
    (Q : ℝ → ℝ) (hQ : ∀ x, Q x = π^2/(3 * 179^2) * (x * (x + 2)) * (1 + 10 * x + 18 * x^2)) :
    let a : LoadArgs := { r := some ((List.range n).map r), Ct := some ((List.range n).map fun i => .fin (c i)), Lambda := some (.fin lam), nCyl := none }
    let w := (WT.new R hub shaft vert U0 L gr M).run mini (h ++ [.loading a])
    let s := w.e_shaft_g
    o.ground.getD w.Ground = false → o.Model.getD w.Model = "VC" → w.chi = none → w.U0_g = V3.smul U d → 0 < V3.dot d s → 1e-7 < |V3.dot d (V3.cross vert s)| →
    ∃ u, (w.computeU pts o).1 = .ok u ∧ (∀ k < n, E k < c k ∧ aOfCt (E k) < aOfCt (c k)) ∧
      ∀ (i : ℕ) (p : V3 ℝ) (k : ℕ) (ρ : ℝ), pts[i]? = some p → V3.dot (p - w.r_hub) s = 0 → ρ = V3.norm (p - w.r_hub) → k ≤ n → (∀ j < k, r j < ρ) → (∀ j < n, k ≤ j → ρ < r j) →
      ∃ v : V3 ℝ, u[i]? = some (V3.fin v) ∧
        |V3.dot (v - if o.only_ind then 0 else w.U0_g) d + (if k < n then U * aOfCt (E k) else 0)| ≤
          √2 * ∑ j ∈ Finset.range n, 2 * U * |aOfCt (E j) - (if j = n - 1 then 0 else aOfCt (E (j+1)))| * Q (r j / (|r j - ρ| * V3.dot d s)) :=
  yawed_thrust mini R hub shaft vert U0 L gr M ho hR h pts hp o hnw hlo hro hta U hU d hd hdv n r c K E lam hl hl20 hn h0 hinc hc hK hmin hE _ _ rfl rfl rfl rfl Q hQ

/-- a concrete case: two stations at 20 m and 40 m of a 50 m rotor, thrust coefficient 0.8, tip-speed ratio 5, exact minimiser, in a wind of 10 m/s at 36.87 degrees from its shaft; at the hub -/
example : ∃ mini : (ℝ → Num) → ℝ,
    let w := (WT.new 50 ⟨1,2,3⟩ ⟨0,0,1⟩ ⟨0,1,0⟩ ⟨6,0,8⟩ none false "VC").run mini
      ([] ++ [.loading { r := some ((List.range 2).map fun i : ℕ => 20 * ((i:ℝ) + 1)), Ct := some ((List.range 2).map fun _ : ℕ => Num.fin 0.8), Lambda := some (.fin 5), nCyl := none }])
    ∃ u v e0 e1, (w.computeU [⟨1,2,3⟩] {}).1 = .ok u ∧ u[0]? = some (V3.fin v) ∧ e0 < 0.8 ∧ e1 < 0.8 ∧
      |V3.dot v ⟨0.6,0,0.8⟩ - 10 * (1 - aOfCt e0)| ≤ √2 * (20 * (|aOfCt e0 - aOfCt e1| + |aOfCt e1|) * 0.02) := by
  have hroot : ∀ l : ℝ, 0 < l → ∃ K : ℝ, 0 ≤ K ∧ |K * (1 + K / (4*l^2)) - 0.8| = 0 := by
    intro l hl
    obtain ⟨K, ⟨a, _, e⟩, _⟩ := C26_unique_root l 0.8 hl (by norm_num)
    exact ⟨K, a.le, by rw [e]; simp⟩
  refine ⟨fun f => if h : ∃ K, 0 ≤ K ∧ f K = .fin 0 then h.choose else 0, ?_⟩
  intro w
  obtain ⟨mini, hmini⟩ : ∃ mini : (ℝ → Num) → ℝ, mini = fun f => if h : ∃ K, 0 ≤ K ∧ f K = .fin 0 then h.choose else 0 := ⟨_, rfl⟩
  obtain ⟨K, hK⟩ : ∃ K : ℕ → ℝ, ∀ i : ℕ, K i = mini (fun k => .fin |k * (1 + k / (4 * (5 * (20 * ((i:ℝ) + 1)) / 50)^2)) - 0.8|) := ⟨_, fun _ => rfl⟩
  have hm : ∀ i < 2, 0 ≤ K i ∧ K i * (1 + K i / (4 * (5 * (20 * ((i:ℝ) + 1)) / 50)^2)) = 0.8 := by
    intro i _
    rw [hK]
    have hl : 0 < (5 * (20 * ((i:ℝ) + 1)) / 50) := by positivity
    generalize (5 * (20 * ((i:ℝ) + 1)) / 50) = l at *
    obtain ⟨K, k1, k2⟩ := hroot l hl
    have hex : ∃ K, 0 ≤ K ∧ (fun k => Num.fin |k * (1 + k / (4 * l^2)) - 0.8|) K = .fin 0 := ⟨K, k1, by simp only [k2]⟩
    have e : mini (fun k => Num.fin |k * (1 + k / (4 * l^2)) - 0.8|) = hex.choose := by rw [hmini]; simp only; rw [dif_pos hex]
    rw [e]
    have := Num.fin.inj hex.choose_spec.2
    exact ⟨hex.choose_spec.1, sub_eq_zero.mp (abs_eq_zero.mp this)⟩
  obtain ⟨a, ha⟩ : ∃ a : LoadArgs, a = { r := some ((List.range 2).map fun i : ℕ => 20 * ((i:ℝ) + 1)), Ct := some ((List.range 2).map fun _ : ℕ => Num.fin 0.8), Lambda := some (.fin 5), nCyl := none } := ⟨_, rfl⟩
  have hw : w = (WT.new 50 ⟨1,2,3⟩ ⟨0,0,1⟩ ⟨0,1,0⟩ ⟨6,0,8⟩ none false "VC").run mini ([] ++ [.loading a]) := by rw [ha, hmini]
  clear_value w
  clear hmini
  obtain ⟨e1, e2, -, -, e5, -, -, -, -, -, e11, e12, e13, e14⟩ := loading_frame mini
    ((WT.new 50 ⟨1,2,3⟩ ⟨0,0,1⟩ ⟨0,1,0⟩ ⟨6,0,8⟩ none false "VC").run mini []) a
  have f2 : w.r_hub = ⟨1,2,3⟩ := by rw [hw]; exact e2
  have f5 : w.e_shaft_g = ⟨0,0,1⟩ := by
    rw [hw]
    refine e5.trans ?_
    have := (frame_run mini ⟨0,0,1⟩ ⟨0,1,0⟩ 50 [] _ (frame_new 50 ⟨1,2,3⟩ ⟨0,0,1⟩ ⟨0,1,0⟩ ⟨6,0,8⟩ none false "VC")).e_shaft_g
    rw [turn_eq] at this
    refine this.trans ?_
    change turn _ 0 _ = _
    unfold turn
    ext <;> simp
  have f11 : w.U0_g = ⟨6,0,8⟩ := by rw [hw]; exact e11
  have f12 : w.Ground = false := by rw [hw]; exact e12
  have f13 : w.chi = none := by rw [hw]; exact e13
  have f14 : w.Model = "VC" := by rw [hw]; exact e14
  obtain ⟨E, hE⟩ : ∃ E : ℕ → ℝ, ∀ k < 2, E k = 0.8 - (K k)^2/4 * (1/(5 * (20 * ((k:ℝ) + 1)) / 50)^2 - 1/(5 * rcyl 2 (fun i => 20 * ((i:ℝ) + 1)) 50 k / 50)^2) -
      ∑ j ∈ Finset.Ico (k+1) (2-1), (K (j+1)/2)^2 * (1/(5 * rcyl 2 (fun i => 20 * ((i:ℝ) + 1)) 50 j / 50)^2 - 1/(5 * rcyl 2 (fun i => 20 * ((i:ℝ) + 1)) 50 (j+1) / 50)^2) := ⟨_, fun _ _ => rfl⟩
  obtain ⟨Q, hQ⟩ : ∃ Q : ℝ → ℝ, ∀ x, Q x = π^2/(3 * 179^2) * (x * (x + 2)) * (1 + 10 * x + 18 * x^2) := ⟨_, fun _ => rfl⟩
  have H := C149_thrust mini 50 ⟨1,2,3⟩ ⟨0,0,1⟩ ⟨0,1,0⟩ ⟨6,0,8⟩ none false "VC" ⟨by simp [V3.dot], by simp [V3.dot], by simp [V3.dot]⟩ (by norm_num)
    [] [⟨1,2,3⟩] (by simp) {} rfl rfl rfl rfl 10 (by norm_num) ⟨0.6,0,0.8⟩ (by simp [V3.dot]; norm_num) (by simp [V3.dot]) 2 (fun i => 20 * ((i:ℝ) + 1)) (fun _ => 0.8) K E 5 (by norm_num) (by norm_num) le_rfl
    (by norm_num) (fun i j hij _ => by have : (i:ℝ) < j := by exact_mod_cast hij
                                       linarith) (fun _ _ => by norm_num) hK hm hE Q hQ
  rw [← ha] at H
  simp only [← hw] at H
  obtain ⟨u, hu, H1, H2⟩ := H (by rw [f12]; rfl) (by rw [f14]; rfl) f13 (by rw [f11]; ext <;> simp <;> norm_num)
    (by rw [f5]; simp [V3.dot]; norm_num) (by rw [f5]; simp [V3.dot, V3.cross]; norm_num)
  have z0 : (⟨1,2,3⟩ : V3 ℝ) - ⟨1,2,3⟩ = 0 := by ext <;> simp
  rw [f2, f5, f11] at H2
  obtain ⟨v, v1, v2⟩ := H2 0 ⟨1,2,3⟩ 0 0 rfl (by rw [z0]; simp [V3.dot]) (by rw [z0, norm_zero3]) (by norm_num) (by intro j hj; omega) (by intro j _ _; positivity)
  rw [if_pos (show (0:ℕ) < 2 by norm_num)] at v2
  refine ⟨u, v, _, _, hu, v1, (H1 0 (by norm_num)).1, (H1 1 (by norm_num)).1, ?_⟩
  have hd : V3.dot (v - if ({} : Opts).only_ind then 0 else ⟨6,0,8⟩) ⟨0.6,0,0.8⟩ = V3.dot v ⟨0.6,0,0.8⟩ - 10 := by
    simp [V3.dot]; ring
  rw [hd] at v2
  rw [Finset.sum_range_succ, Finset.sum_range_one] at v2
  have hq : Q 1.25 ≤ 0.02 := by
    rw [hQ]
    have hpi := pi_gt_three
    have hpi2 := pi_lt_d2
    norm_num at *
    nlinarith
  have x0 : (20 * (((0:ℕ):ℝ) + 1) / (|20 * (((0:ℕ):ℝ) + 1) - 0| * V3.dot ⟨0.6,0,0.8⟩ ⟨0,0,1⟩) : ℝ) = 1.25 := by simp [V3.dot]; norm_num
  have x1 : (20 * (((1:ℕ):ℝ) + 1) / (|20 * (((1:ℕ):ℝ) + 1) - 0| * V3.dot ⟨0.6,0,0.8⟩ ⟨0,0,1⟩) : ℝ) = 1.25 := by
    simp [V3.dot]; norm_num [abs_of_pos]
  rw [if_neg (show ¬ ((0:ℕ) = 2 - 1) by norm_num), if_pos (show (1:ℕ) = 2 - 1 by norm_num), x0, x1, sub_zero] at v2
  rw [show ∀ x y : ℝ, x - 10 * (1 - y) = x - 10 + 10 * y by intros; ring]
  refine v2.trans (mul_le_mul_of_nonneg_left ?_ (sqrt_nonneg _))
  have k0 := mul_le_mul_of_nonneg_left hq (abs_nonneg (aOfCt (E 0) - aOfCt (E 1)))
  have k1 := mul_le_mul_of_nonneg_left hq (abs_nonneg (aOfCt (E 1)))
  rw [zero_add]
  linarith

end
end Wiz
