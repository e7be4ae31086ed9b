import Verif.Lemmas.GlobalSheet
import Verif.Props.FarmAccuracy
import Verif.Props.ZeroSkew

/-! # C135: the velocity field of a farm of yawed turbines is that of wakes that leave along the wind -/
set_option autoImplicit false
namespace Wiz
open Spec Classical Real
noncomputable section

/-- the velocity of a turbine with one cylinder is the sum over its wake centres, whatever the model -/
theorem model_sum (mini : (ℝ → Num) → ℝ) (R : ℝ) (hub shaft vert U0 : V3 ℝ) (L : Option Num) (G : Bool)
    (M : String) (ho : Orthonormal shaft vert) (h : List Op) (pts : List (V3 ℝ)) (o : Opts) (hnw : o.no_wake = false)
    (hta : o.tang = true) (hlo : o.longi = false) (hro : o.root = false) (w : WT) (hw : w = (WT.new R hub shaft vert U0 L G M).run mini h)
    (γ : ℝ) (chi : Num) (hg : w.gamma_t = some [.fin γ]) (Mn : String) (hM : o.Model.getD w.Model = Mn) (hchi : (w.computeU pts o).2.chi = some chi)
    (u : List (V3 Num)) (hu : (w.computeU pts o).1 = .ok u) (i : ℕ) (p : V3 ℝ) (hpi : pts[i]? = some p) (val : V3 ℝ → V3 ℝ)
    (h1 : γ ≠ 0 → ∀ c ∈ wakeCentres (o.ground.getD w.Ground) vert w.r_hub,
        (wakeTang chi Mn (.fin γ) R o.R_far_field (rotorAxes (V3.cross vert w.e_shaft_g) vert w.e_shaft_g c pts)).getD i 0 = V3.fin (val c))
    (h2 : γ = 0 → ∀ c, val c = 0) :
      u[i]? = some (V3.fin (fromAxes (V3.cross vert w.e_shaft_g) vert w.e_shaft_g ((wakeCentres (o.ground.getD w.Ground) vert w.r_hub).map val).sum +
        if o.only_ind then 0 else w.U0_g)) := by
  have key := C16_field mini R hub shaft vert U0 L G M ho h pts o hnw (.fin γ) chi u
  rw [← hw] at key
  obtain ⟨ul, uv⟩ := key hg hchi hu
  have hil : i < pts.length := by
    by_contra h
    rw [List.getElem?_eq_none (by omega)] at hpi; exact nomatch hpi
  have uv := uv i hil
  have e2 : (if o.tang = true ∧ ¬ Num.Eqv (.fin γ) 0 then
      ((wakeCentres (o.ground.getD w.Ground) vert w.r_hub).map fun c => (wakeTang chi (o.Model.getD w.Model) (.fin γ) R o.R_far_field (rotorAxes (V3.cross vert w.e_shaft_g) vert w.e_shaft_g c pts)).getD i 0).sum else 0)
      = V3.fin ((wakeCentres (o.ground.getD w.Ground) vert w.r_hub).map val).sum := by
    by_cases h0 : γ = 0
    · rw [if_neg (by rw [h0]; simp)]
      have : ((wakeCentres (o.ground.getD w.Ground) vert w.r_hub).map val).sum = 0 := by
        apply List.sum_eq_zero
        intro x hx
        obtain ⟨c, -, rfl⟩ := List.mem_map.1 hx
        exact h2 h0 c
      rw [this]; rfl
    · rw [if_pos ⟨hta, by simpa using h0⟩, hM, ← sum_fin]
      congr 1
      exact List.map_congr_left fun c hc => h1 h0 c hc
  have e1 : (match w.Gamma_r with
      | some Gr => if o.root = true ∧ ¬ Num.Eqv Gr 0 then
          ((wakeCentres (o.ground.getD w.Ground) vert w.r_hub).map fun c => (wakeRoot chi Gr (rotorAxes (V3.cross vert w.e_shaft_g) vert w.e_shaft_g c pts)).getD i 0).sum else 0
      | none => 0) = V3.fin 0 := by
    rw [hro]
    split
    · rw [if_neg (fun h => Bool.false_ne_true h.1)]; rfl
    · rfl
  have e3 : (match w.gamma_l with
      | some [gl'] => if o.longi = true ∧ ¬ Num.Eqv gl' 0 then
          ((wakeCentres (o.ground.getD w.Ground) vert w.r_hub).map fun c => (wakeLongi chi gl' R (rotorAxes (V3.cross vert w.e_shaft_g) vert w.e_shaft_g c pts)).getD i 0).sum else 0
      | _ => 0) = V3.fin 0 := by
    rw [hlo]
    split
    · rw [if_neg (fun h => Bool.false_ne_true h.1)]; rfl
    · rfl
  have uv : u.getD i 0 = V3.fin (fromAxes (V3.cross vert w.e_shaft_g) vert w.e_shaft_g ((wakeCentres (o.ground.getD w.Ground) vert w.r_hub).map val).sum + if o.only_ind then 0 else w.U0_g) := by
    refine uv.trans ?_
    refine (congrArg (fun z => transform (M3.fin (M3.ofCols (V3.cross vert w.e_shaft_g) vert w.e_shaft_g)) z + _) (congrArg₂ (· + ·) (congrArg₂ (· + ·) e1 e2) e3)).trans ?_
    have e4 : ∀ x y : V3 ℝ, V3.fin x + V3.fin y = V3.fin (x + y) := fun x y => by ext <;> simp
    have e5 : ∀ v : V3 ℝ, (0 : V3 ℝ) + v + 0 = v := fun v => by ext <;> simp
    rw [e4, e4, e5, transform_fin, mulVec_fromAxes]
    cases o.only_ind <;> ext <;> simp <;> rfl
  rw [List.getD_eq_getElem?_getD, List.getElem?_eq_getElem (by omega)] at uv
  rw [List.getElem?_eq_getElem (by omega)]
  exact congrArg some uv

/-- the velocity of a turbine with one cylinder is the sum over its wake centres -/
theorem vc_sum (mini : (ℝ → Num) → ℝ) (R : ℝ) (hub shaft vert U0 : V3 ℝ) (L : Option Num) (G : Bool)
    (M : String) (ho : Orthonormal shaft vert) (h : List Op) (pts : List (V3 ℝ)) (o : Opts) (hnw : o.no_wake = false)
    (hta : o.tang = true) (hlo : o.longi = false) (hro : o.root = false) (w : WT) (hw : w = (WT.new R hub shaft vert U0 L G M).run mini h)
    (γ : ℝ) (chi : Num) (hg : w.gamma_t = some [.fin γ]) (hM : o.Model.getD w.Model = "VC") (hchi : (w.computeU pts o).2.chi = some chi) :
    ∃ u, (w.computeU pts o).1 = .ok u ∧ ∀ (i : ℕ) (p : V3 ℝ), pts[i]? = some p → ∀ val : V3 ℝ → V3 ℝ,
      (γ ≠ 0 → ∀ c ∈ wakeCentres (o.ground.getD w.Ground) vert w.r_hub,
        (wakeTang chi "VC" (.fin γ) R o.R_far_field (rotorAxes (V3.cross vert w.e_shaft_g) vert w.e_shaft_g c pts)).getD i 0 = V3.fin (val c)) →
      (γ = 0 → ∀ c, val c = 0) →
      u[i]? = some (V3.fin (fromAxes (V3.cross vert w.e_shaft_g) vert w.e_shaft_g ((wakeCentres (o.ground.getD w.Ground) vert w.r_hub).map val).sum +
        if o.only_ind then 0 else w.U0_g)) := by
  obtain ⟨u, hu⟩ : ∃ u, (w.computeU pts o).1 = .ok u := vc_ok w _ hg pts o hro hlo hM
  exact ⟨u, hu, fun i p hpi val h1 h2 => model_sum mini R hub shaft vert U0 L G M ho h pts o hnw hta hlo hro w hw γ chi hg "VC" hM hchi u hu i p hpi val h1 h2⟩

/-- if every turbine of a farm is within `b` of a flow, so is the farm -/
theorem farm_within (mini : (ℝ → Num) → ℝ) (ts : List ℕ) (w : ℕ → WT) (pts : List (V3 ℝ)) (o : Opts) (U0 : Option (V3 ℝ))
    (flow : ℕ → V3 ℝ → V3 ℝ) (b : ℕ → ℝ) (Good : ℕ → V3 ℝ → Prop)
    (one : ∀ t ∈ ts, ∃ u, inducedBy (frun mini (ts.map .turbine) w []).2 pts o t = .ok u ∧ ∀ (i : ℕ) (p : V3 ℝ), pts[i]? = some p →
      Good t p → ∃ v, u[i]? = some (V3.fin v) ∧ V3.norm (v - flow t p) ≤ b t) :
    let q := frun mini (ts.map .turbine) w []
    ∃ u, (farmVelocity q.1 q.2 pts o U0).1 = .ok u ∧ ∀ (i : ℕ) (p : V3 ℝ), pts[i]? = some p → (∀ t ∈ ts, Good t p) →
      ∃ v, u[i]? = some (V3.fin v) ∧ V3.norm (v - (U0.getD 0 + (ts.map fun t => flow t p).sum)) ≤ (ts.map b).sum := by
  intro q
  choose! u hu hall using one
  have hok : ∀ x ∈ ts.map PyObj.turbine, ∃ t v, x = .turbine t ∧ inducedBy q.2 pts o t = .ok v := by
    intro x hx
    obtain ⟨t, ht, rfl⟩ := List.mem_map.1 hx
    exact ⟨t, _, rfl, hu t ht⟩
  obtain ⟨r, hr⟩ := (C18_succeeds_iff (ts.map PyObj.turbine) q.2 pts o U0).2 hok
  refine ⟨r, hr, fun i p hpi hoff => ?_⟩
  have hil : i < pts.length := by
    by_contra h
    rw [List.getElem?_eq_none (by omega)] at hpi; exact nomatch hpi
  obtain ⟨l1, l2⟩ := C18_sum _ _ _ _ _ _ hr
  have hi := l2 i hil
  have hval : ∀ t ∈ ts, ∃ v, (u t)[i]? = some (V3.fin v) ∧ V3.norm (v - flow t p) ≤ b t := fun t ht => hall t ht i p hpi (hoff t ht)
  choose! v hv hb using hval
  have hs : ((ts.map PyObj.turbine).map (inducedAt q.2 pts o i)).sum = V3.fin (ts.map v).sum := by
    rw [← sum_fin, List.map_map]
    congr 1
    apply List.map_congr_left
    intro t ht
    simp only [Function.comp, inducedAt]
    rw [hu t ht]
    simp only
    rw [List.getD_eq_getElem?_getD, hv t ht, Option.getD_some]
  have hf : freeStream U0 = V3.fin (U0.getD 0) := by
    cases U0 with
    | none => rfl
    | some U => rfl
  rw [hs, hf] at hi
  refine ⟨(ts.map v).sum + U0.getD 0, ?_, ?_⟩
  · have hil' : i < r.length := by omega
    rw [List.getElem?_eq_getElem hil']
    rw [List.getD_eq_getElem?_getD, List.getElem?_eq_getElem hil', Option.getD_some] at hi
    rw [hi]
    rfl
  · have := norm_sum_le ts _ _ hb
    rw [← sum_map_sub] at this
    have e : (ts.map v).sum + U0.getD 0 - (U0.getD 0 + (ts.map fun t => flow t p).sum) = (ts.map v).sum - (ts.map fun t => flow t p).sum := by
      ext <;> simp <;> ring
    rw [e]
    exact this

/-- a turbine in a horizontal wind of direction `d` finds the skew of `d`, if it has not been evaluated before -/
theorem wind_chi (mini : (ℝ → Num) → ℝ) (R : ℝ) (hub shaft vert U0 : V3 ℝ) (L : Option Num) (G : Bool)
    (M : String) (ho : Orthonormal shaft vert) (h : List Op) (w : WT) (hw : w = (WT.new R hub shaft vert U0 L G M).run mini h) (hc : w.chi = none)
    (U : ℝ) (hU : 0 < U) (d : V3 ℝ) (hd : V3.dot d d = 1) (hdv : V3.dot d vert = 0) (hwind : w.U0_g = V3.smul U d) (pts : List (V3 ℝ)) (o : Opts) :
    ∃ χ, (w.computeU pts o).2.chi = some (.fin χ) ∧ sin χ = V3.dot d (V3.cross vert w.e_shaft_g) ∧ cos χ = V3.dot d w.e_shaft_g ∧
      (-π < w.yaw_pos → w.yaw_pos ≤ π → -(2*π) < χ ∧ χ < 2*π) := by
  have hfr : FrameInv shaft vert R w := by rw [hw]; exact frame_run mini shaft vert R h _ (frame_new R hub shaft vert U0 L G M)
  have hh : horizontal vert w.U0_g = V3.smul U d := by
    rw [hwind]
    have : V3.dot (V3.smul U d) vert = 0 := by rw [dot_smul_left, hdv, mul_zero]
    unfold horizontal
    rw [this]
    ext <;> simp
  have hn : V3.norm (V3.smul U d) = U := by rw [norm_smul_unit _ _ hd, abs_of_pos hU]
  have hne : horizontal vert w.U0_g ≠ 0 := by
    rw [hh]
    intro h
    rw [h, norm_zero3] at hn
    exact hU.ne hn
  obtain ⟨χ, θ, x1, x2, x3, x4⟩ := chiAuto_eq shaft vert R ho w hfr hne
  obtain ⟨θ', y1, y2, y3, -⟩ := yawWind_eq shaft vert R ho w hfr hne
  have hθ : θ' = θ := by rw [x2] at y1; exact (Num.fin.inj y1).symm
  subst hθ
  refine ⟨χ, ?_, ?_, ?_, ?_⟩
  · rw [computeU_state, hc]
    simp only
    rw [x1]
  all_goals
    obtain ⟨a', s', e1, -, e3, e4, e5, e6, e7, e8, e9⟩ := frame_cols shaft vert R ho w hfr
    have hs : s' = w.e_shaft_g := by
      have := hfr.e_shaft_g
      rw [turn_eq] at this
      rw [e3]; exact this.symm
    rw [hs] at e9
    rw [e1, transformT_cols, hh, hn, hwind, dot_smul_left, dot_smul_left, dot_smul_left, e9, hs] at x4
  · have := congrArg V3.x x4
    simp only at this
    exact (mul_left_cancel₀ hU.ne' this).symm
  · have := congrArg V3.z x4
    simp only at this
    exact (mul_left_cancel₀ hU.ne' this).symm
  · intro h1 h2
    rw [x3]
    constructor <;> linarith

theorem norm_le_three (e : V3 ℝ) (k : ℝ) (h1 : |e.x| ≤ k) (h2 : |e.y| ≤ k) (h3 : |e.z| ≤ k) : V3.norm e ≤ √3 * k := by
  have hk : 0 ≤ k := (abs_nonneg _).trans h1
  unfold V3.norm
  rw [Real.sqrt_le_left (by positivity), mul_pow, Real.sq_sqrt (by norm_num)]
  have := sq_le_sq' (by linarith [abs_le.1 h1]) (abs_le.1 h1).2
  have := sq_le_sq' (by linarith [abs_le.1 h2]) (abs_le.1 h2).2
  have := sq_le_sq' (by linarith [abs_le.1 h3]) (abs_le.1 h3).2
  linarith

/-- the wake of a rotor that faces the wind is a straight cylinder -/
theorem wakeFlow_sheet (γ R : ℝ) (hR : 0 < R) (c v s p : V3 ℝ) (hv : V3.dot v v = 1) (hs : V3.dot s s = 1) (ho : V3.dot v s = 0)
    (hoff : OffEdge R c v s p) : wakeFlow γ R c v s p = sheetFlow γ R c v s s p := by
  set q := inRotor c v s p with hq
  have hd : s = V3.smul (sin 0) (V3.cross v s) + V3.smul (cos 0) s := by rw [sin_zero, cos_zero]; ext <;> simp
  have hr := hoff.1
  rw [← hq] at hr
  have hD : 0 < |√(q.x^2 + q.y^2) - R| := abs_pos.2 (sub_ne_zero.2 hr)
  have far : ∀ θ t, |√(q.x^2 + q.y^2) - R| ≤ V3.norm (q - wakePoint R (tan 0) θ t) := by
    intro θ t
    rw [wake_norm, skewDir_tan (by rw [cos_zero]; exact one_pos), sin_zero, cos_zero]
    apply Real.abs_le_sqrt
    simp only [mul_zero, sub_zero, mul_one]
    have h1 := Real.sq_sqrt (show 0 ≤ q.x^2 + q.y^2 by positivity)
    have h2 : q.x * cos θ + q.y * sin θ ≤ √(q.x^2 + q.y^2) := by
      apply Real.le_sqrt_of_sq_le
      nlinarith [sq_nonneg (q.x * sin θ - q.y * cos θ), sin_sq_add_cos_sq θ]
    have h3 := mul_le_mul_of_nonneg_left h2 hR.le
    have h4 : (q.x - R * cos θ)^2 + (q.y - R * sin θ)^2 = q.x^2 + q.y^2 - 2*(R*(q.x * cos θ + q.y * sin θ)) + R^2 := by
      linear_combination R^2 * sin_sq_add_cos_sq θ
    nlinarith [sq_nonneg (q.z - t)]
  have hcl : Clear |√(q.x^2 + q.y^2) - R| R c v s s p := by
    intro θ t ht
    have hX : sheetPoint R c v s s θ t = c + fromAxes (V3.cross v s) v s (wakePoint R (tan 0) θ t) := by
      unfold sheetPoint wakePoint rim
      rw [skewDir_tan (by rw [cos_zero]; exact one_pos), sin_zero, cos_zero]
      unfold fromAxes
      ext <;> simp <;> ring
    have hE : p - (c + fromAxes (V3.cross v s) v s (wakePoint R (tan 0) θ t)) = fromAxes (V3.cross v s) v s (q - wakePoint R (tan 0) θ t) := by
      rw [fromAxes_sub]
      have := axes_expand v s hv hs ho (p - c)
      change fromAxes (V3.cross v s) v s (inRotor c v s p) = p - c at this
      rw [hq, this]
      ext <;> simp <;> ring
    rw [hX, hE, axes_norm v s hv hs ho]
    exact far θ t
  have h := (sheetFlow_axes γ R _ 0 hR.le hD c v s p hv hs ho (by rw [cos_zero]; exact one_pos) s hd hcl).2
  rw [h, tan_zero, (C78_fields γ R hR _ ?_).1]
  · rfl
  · have := off_of_dist hD (fun θ t _ => far θ t)
    rw [tan_zero] at this
    exact this

/-- one turbine: skewed -/
theorem yawed_one (mini : (ℝ → Num) → ℝ) (R : ℝ) (hub shaft vert U0 : V3 ℝ) (L : Option Num) (G : Bool)
    (M : String) (ho : Orthonormal shaft vert) (hR : 0 < R) (h : List Op) (pts : List (V3 ℝ)) (o : Opts) (hnw : o.no_wake = false)
    (hta : o.tang = true) (hlo : o.longi = false) (hro : o.root = false) (hoi : o.only_ind = true)
    (w : WT) (hw : w = (WT.new R hub shaft vert U0 L G M).run mini h)
    (γ χ : ℝ) (hg : w.gamma_t = some [.fin γ]) (hM : o.Model.getD w.Model = "VC") (hchi : (w.computeU pts o).2.chi = some (.fin χ))
    (hsk : 1e-7 < |χ|) (hcos : 0 < cos χ) (d : V3 ℝ) (hd : d = V3.smul (sin χ) (V3.cross vert w.e_shaft_g) + V3.smul (cos χ) w.e_shaft_g)
    (D : ℝ) (hD : 0 < D) :
    ∃ u, (w.computeU pts o).1 = .ok u ∧ ∀ (i : ℕ) (p : V3 ℝ), pts[i]? = some p →
      (∀ c ∈ wakeCentres (o.ground.getD w.Ground) vert w.r_hub, Clear D R c vert w.e_shaft_g d p) →
      ∃ v, u[i]? = some (V3.fin v) ∧
        V3.norm (v - ((wakeCentres (o.ground.getD w.Ground) vert w.r_hub).map fun c => sheetFlow γ R c vert w.e_shaft_g d p).sum) ≤
          (wakeCentres (o.ground.getD w.Ground) vert w.r_hub).length *
            (√3 * (|γ| * (π^2/(3 * 179^2) * (R/D * (R/D + 2)) * (1 + 10 * (R/D) + 18 * (R/D)^2)))) := by
  obtain ⟨u, hu, hall⟩ := vc_sum mini R hub shaft vert U0 L G M ho h pts o hnw hta hlo hro w hw γ (.fin χ) hg hM hchi
  refine ⟨u, hu, fun i p hpi hcl => ?_⟩
  obtain ⟨a1, a2, a3, a4, a5, a6⟩ := rotorAxes_run mini R hub shaft vert U0 L G M ho h
  rw [← hw] at a1 a2 a3 a5 a6
  generalize wakeCentres (o.ground.getD w.Ground) vert w.r_hub = cs at *
  generalize w.e_shaft_g = s at *
  have hskN : Num.fin 1e-7 < Num.abs (.fin χ) := by rw [Num.abs_fin, Num.lt_fin]; exact hsk
  have htan : Num.tan (.fin χ) = .fin (tan χ) := by
    show (if cos χ = 0 then Num.nan else Num.fin (tan χ)) = _
    rw [if_neg hcos.ne']
  have hwt : ∀ Y, wakeTang (.fin χ) "VC" (.fin γ) R o.R_far_field Y = svcTang Y (.fin γ) R (.fin (tan χ)) 180 false := by
    intro Y; unfold wakeTang; rw [if_pos (show skewed (.fin χ) from hskN), htan]
  have hax := fun c hc => sheetFlow_axes γ R D χ hR.le hD c vert s p ho.vert a6 a5 hcos d hd (hcl c hc)
  have hv := hall i p hpi (fun c => turnRuleV (π/2) 179 (tangGenerator γ R (tan χ) (inRotor c vert s p))) (by
    intro _ c hc
    rw [hwt]
    have hY : (rotorAxes (V3.cross vert s) vert s c pts)[i]? = some (inRotor c vert s p) := by
      simp only [rotorAxes, List.getElem?_map, hpi, Option.map_some, inRotor]
    exact getElem_getD (C65_cartesian _ γ R (tan χ) hR 179 i _ hY (off_of_dist hD (hax c hc).1)).1) (by
    intro h0 c
    have hz0 : ∀ θ, tangGenerator γ R (tan χ) (inRotor c vert s p) θ = 0 := by
      intro θ; unfold tangGenerator; rw [h0]; ext <;> simp
    ext <;> simp [turnRuleV, turnRule, hz0])
  rw [hoi, if_pos rfl] at hv
  refine ⟨_, hv, ?_⟩
  have e0 : ∀ x : V3 ℝ, x + 0 = x := fun x => by ext <;> simp
  rw [e0, fromAxes_sum, sum_map_sub]
  have hb := norm_sum_le cs (fun c => fromAxes (V3.cross vert s) vert s (turnRuleV (π/2) 179 (tangGenerator γ R (tan χ) (inRotor c vert s p))) -
    sheetFlow γ R c vert s d p) (fun _ => √3 * (|γ| * (π^2/(3 * 179^2) * (R/D * (R/D + 2)) * (1 + 10 * (R/D) + 18 * (R/D)^2)))) (by
      intro c hc
      rw [(hax c hc).2, ← fromAxes_sub, axes_norm vert s ho.vert a6 a5]
      have hr := tang_rule hR.le hD (hax c hc).1 (π/2) (n := 179) (by norm_num) γ
      have hr' := fun π' hπ => hr π' hπ
      push_cast at hr'
      exact norm_le_three _ _ (hr' _ (Or.inl rfl)) (hr' _ (Or.inr (Or.inl rfl))) (hr' _ (Or.inr (Or.inr rfl))))
  rw [List.map_const', List.sum_replicate, nsmul_eq_mul] at hb
  exact hb

/-- C135: the velocity field of a farm of turbines that may be yawed, over ground or not, is the free stream plus the Biot–Savart velocities
(in the axes of the farm) of vortex wakes that leave each rotor, and each image below the ground, in the direction `d` of the wind.  The
turbines are built from `args` and called with the histories `hist`, after which they have one cylinder of intensity `γ`, model "VC" and no
remembered skew.  The error is at most 3.01% of the intensity for each wake of a turbine that faces the wind, at points off the edge of the
wake, and `√3 (π²/(3·179²)) x(x+2)(1+10x+18x²)` of it with `x = R/D` for each wake of a yawed turbine, at points at distance `D` or more of the wake. -/
theorem C135_farm (mini : (ℝ → Num) → ℝ) (args : ℕ → TurbineArgs) (hist : ℕ → List Op) (ts : List ℕ) (γ D : ℕ → ℝ)
    (pts : List (V3 ℝ)) (o : Opts) (hnw : o.no_wake = false) (hta : o.tang = true) (hlo : o.longi = false) (hro : o.root = false)
    (V : Option (V3 ℝ)) (w : ℕ → WT) (hw : ∀ t, w t = ((args t).build).run mini (hist t))
    (ho : ∀ t ∈ ts, Orthonormal (args t).shaft (args t).vert) (hR : ∀ t ∈ ts, 0 < (args t).R) (hD : ∀ t ∈ ts, 0 < D t)
    (hg : ∀ t ∈ ts, (w t).gamma_t = some [.fin (γ t)]) (hM : ∀ t ∈ ts, o.Model.getD (w t).Model = "VC") (hchi : ∀ t ∈ ts, (w t).chi = none)
    (d : ℕ → V3 ℝ) (hwind : ∀ t ∈ ts, V3.dot (d t) (d t) = 1 ∧ V3.dot (d t) (args t).vert = 0 ∧ ∃ U > 0, (w t).U0_g = V3.smul U (d t))
    (hfwd : ∀ t ∈ ts, 0 < V3.dot (d t) (w t).e_shaft_g)
    (hyaw : ∀ t ∈ ts, (d t = (w t).e_shaft_g ∧ -π < (w t).yaw_pos ∧ (w t).yaw_pos ≤ π) ∨ 1e-7 < |V3.dot (d t) (V3.cross (args t).vert (w t).e_shaft_g)|) :
    let q := frun mini (ts.map .turbine) w []
    let wakes := fun t => wakeCentres (o.ground.getD (w t).Ground) (args t).vert (w t).r_hub
    let x := fun t => (args t).R / D t
    ∃ u, (farmVelocity q.1 q.2 pts o V).1 = .ok u ∧ ∀ (i : ℕ) (p : V3 ℝ), pts[i]? = some p →
      (∀ t ∈ ts, ∀ c ∈ wakes t, if d t = (w t).e_shaft_g then OffEdge (args t).R c (args t).vert (w t).e_shaft_g p else
        Clear (D t) (args t).R c (args t).vert (w t).e_shaft_g (d t) p) →
      ∃ v, u[i]? = some (V3.fin v) ∧
        V3.norm (v - (V.getD 0 + (ts.map fun t => ((wakes t).map fun c => sheetFlow (γ t) (args t).R c (args t).vert (w t).e_shaft_g (d t) p).sum).sum)) ≤
          (ts.map fun t => if d t = (w t).e_shaft_g then 0.0301 * ((wakes t).length * |γ t|) else
            (wakes t).length * (√3 * (|γ t| * (π^2/(3 * 179^2) * (x t * (x t + 2)) * (1 + 10 * x t + 18 * (x t)^2))))).sum := by
  intro q wakes x
  refine farm_within mini ts w pts o V (fun t p => ((wakes t).map fun c => sheetFlow (γ t) (args t).R c (args t).vert (w t).e_shaft_g (d t) p).sum) _
    (fun t p => ∀ c ∈ wakes t, if d t = (w t).e_shaft_g then OffEdge (args t).R c (args t).vert (w t).e_shaft_g p else
        Clear (D t) (args t).R c (args t).vert (w t).e_shaft_g (d t) p) ?_
  intro t ht
  have ew : w t = (WT.new (args t).R (args t).hub (args t).shaft (args t).vert (args t).U0 (args t).Lambda (args t).Ground (args t).Model).run mini (hist t) := hw t
  obtain ⟨d1, d2, U, hU, hUd⟩ := hwind t ht
  obtain ⟨χ, c1, c2, c3, c4⟩ := wind_chi mini (args t).R (args t).hub (args t).shaft (args t).vert (args t).U0 (args t).Lambda (args t).Ground (args t).Model
    (ho t ht) (hist t) (w t) ew (hchi t ht) U hU (d t) d1 d2 hUd pts { o with only_ind := true }
  obtain ⟨a1, a2, a3, a4, a5, a6⟩ := rotorAxes_run mini (args t).R (args t).hub (args t).shaft (args t).vert (args t).U0 (args t).Lambda (args t).Ground (args t).Model (ho t ht) (hist t)
  rw [← ew] at a1 a2 a3 a5 a6
  by_cases hal : d t = (w t).e_shaft_g
  · rcases hyaw t ht with ⟨-, y1, y2⟩ | hbad
    · obtain ⟨b1, b2⟩ := c4 y1 y2
      have hcos : cos χ = 1 := by rw [c3, hal]; exact a6
      have h0 : χ = 0 := (Real.cos_eq_one_iff_of_lt_of_lt b1 b2).1 hcos
      obtain ⟨u, hu, hall⟩ := C119_turbine_ground mini (args t).R (args t).hub (args t).shaft (args t).vert (args t).U0 (args t).Lambda (args t).Ground (args t).Model
        (ho t ht) (hR t ht) (hist t) pts { o with only_ind := true } hnw hta hlo hro (γ t) (.fin χ) (by rw [← ew]; exact hg t ht) (by rw [← ew]; exact hM t ht)
        (by rw [← ew]; exact c1) (by rw [h0]; simp; norm_num)
      rw [← ew] at hu hall
      refine ⟨u, hu, fun i p hpi hgood => ?_⟩
      simp only [if_pos hal] at hgood ⊢
      obtain ⟨F, e, v, hF, huv, hv, e1, e2, e3⟩ := hall i p hpi (fun c => inRotor c (args t).vert (w t).e_shaft_g p) (fun c => rfl) hgood
      refine ⟨v, huv, ?_⟩
      have hsw : ((wakes t).map fun c => sheetFlow (γ t) (args t).R c (args t).vert (w t).e_shaft_g (d t) p) =
          (wakes t).map fun c => wakeFlow (γ t) (args t).R c (args t).vert (w t).e_shaft_g p := by
        apply List.map_congr_left
        intro c hc
        rw [hal, wakeFlow_sheet _ _ (hR t ht) c _ _ p (ho t ht).vert a6 a5 (hgood c hc)]
      rw [hsw, wakes_sum (γ t) (args t).R _ _ p (wakes t) F hF, hv]
      have hd : ((if (true : Bool) = true then 0 else (w t).U0_g) + V3.smul (F.x + e.x) (V3.cross (args t).vert (w t).e_shaft_g) + V3.smul (F.y + e.y) (args t).vert +
          V3.smul (F.z + e.z) (w t).e_shaft_g) - (V3.smul F.x (V3.cross (args t).vert (w t).e_shaft_g) + V3.smul F.y (args t).vert + V3.smul F.z (w t).e_shaft_g) =
          V3.smul e.x (V3.cross (args t).vert (w t).e_shaft_g) + V3.smul e.y (args t).vert + V3.smul e.z (w t).e_shaft_g := by
        rw [if_pos rfl]; ext <;> simp <;> ring
      simp only at hd ⊢
      rw [hd]
      exact norm_frame _ _ (ho t ht).vert a6 a5 e _ (by positivity) e1 e2 e3
    · exfalso
      rw [hal, dot_comm, a3, abs_zero] at hbad
      norm_num at hbad
  · rcases hyaw t ht with ⟨hbad, -⟩ | hy
    · exact absurd hbad hal
    · have hsk : 1e-7 < |χ| := by
        rw [← c2] at hy
        exact lt_of_lt_of_le hy Real.abs_sin_le_abs
      have hcos : 0 < cos χ := by rw [c3]; exact hfwd t ht
      have hdir : d t = V3.smul (sin χ) (V3.cross (args t).vert (w t).e_shaft_g) + V3.smul (cos χ) (w t).e_shaft_g := by
        have := axes_expand (args t).vert (w t).e_shaft_g (ho t ht).vert a6 a5 (d t)
        rw [← c2, ← c3, d2] at this
        rw [← this]
        unfold fromAxes
        ext <;> simp
      obtain ⟨u, hu, hall⟩ := yawed_one mini (args t).R (args t).hub (args t).shaft (args t).vert (args t).U0 (args t).Lambda (args t).Ground (args t).Model
        (ho t ht) (hR t ht) (hist t) pts { o with only_ind := true } hnw hta hlo hro rfl (w t) ew (γ t) χ (hg t ht) (hM t ht) c1 hsk hcos (d t) hdir (D t) (hD t ht)
      refine ⟨u, hu, fun i p hpi hgood => ?_⟩
      simp only [if_neg hal] at hgood ⊢
      exact hall i p hpi hgood

theorem sqrt3_le : √3 ≤ 1.7321 := by
  rw [Real.sqrt_le_left (by norm_num)]; norm_num

theorem skew_unit_error (R : ℝ) (hR : 0 < R) : √3 * (π^2/(3 * 179^2) * (R/R * (R/R + 2)) * (1 + 10 * (R/R) + 18 * (R/R)^2)) ≤ 0.0301 := by
  rw [div_self hR.ne']
  have h1 := sqrt3_le
  have h2 := Real.sqrt_nonneg 3
  have h3 : π < 3.15 := pi_lt_d2
  have h4 := pi_pos
  have h5 : π^2/(3 * 179^2) * (1 * (1 + 2)) * (1 + 10 * 1 + 18 * 1^2) ≤ 0.01 := by norm_num at *; nlinarith
  have h6 : 0 ≤ π^2/(3 * 179^2) * (1 * (1 + 2)) * (1 + 10 * 1 + 18 * 1^2) := by positivity
  calc √3 * (π^2/(3 * 179^2) * (1 * (1 + 2)) * (1 + 10 * 1 + 18 * 1^2)) ≤ 1.7321 * 0.01 := by gcongr
    _ ≤ _ := by norm_num

/-- the shaft after `update_yaw_pos(ψ)`: the initial shaft turned by `ψ` about the vertical -/
theorem yaw_shaft (mini : (ℝ → Num) → ℝ) (c : TurbineArgs) (ψ : ℝ) (a : LoadArgs) :
    ((c.build).run mini [.yaw ψ, .loading a]).e_shaft_g = turn c.vert ψ c.shaft := by
  obtain ⟨b1, b2, b3, b4, b5, -⟩ := loading_frame mini (c.build.updateYawPos ψ) a
  rw [← turn_eq]
  exact b5

/-- C135 for the standard workflow: turbines built in a common horizontal wind `V = U d`, yawed with `update_yaw_pos(ψ)` and loaded with
`update_loading(Ct=C)` (no or little wake rotation, `C` below the high-thrust limit).  Each is turned into the wind exactly or misaligned by
more than 1e-7, and by less than 90 degrees.  `velocity_field` is the wind plus the Biot–Savart velocities of the wakes that leave the rotors (and their images) along the
wind with the intensities `-U(1-√(1-C(1+apc)))` of momentum theory, up to 3.01% of their sum, at every point at distance `R` or more of the
wakes of the yawed turbines and off the edge of the wakes of the others. -/
theorem C135_thrust (mini : (ℝ → Num) → ℝ) (args : ℕ → TurbineArgs) (C ψ Ω apc : ℕ → ℝ) (U : ℝ) (hU : 0 < U) (d : V3 ℝ) (ts : List ℕ)
    (ho : ∀ t ∈ ts, Orthonormal (args t).shaft (args t).vert) (hR : ∀ t ∈ ts, 0 < (args t).R)
    (hd : V3.dot d d = 1) (hwind : ∀ t ∈ ts, V3.dot d (args t).vert = 0 ∧ (args t).U0 = V3.smul U d) (hM : ∀ t ∈ ts, (args t).Model = "VC")
    (hψ : ∀ t ∈ ts, 0 < V3.dot d (turn (args t).vert (ψ t) (args t).shaft) ∧
      ((d = turn (args t).vert (ψ t) (args t).shaft ∧ -π < ψ t ∧ ψ t ≤ π) ∨
        1e-7 < |V3.dot d (V3.cross (args t).vert (turn (args t).vert (ψ t) (args t).shaft))|))
    (hΩ : ∀ t ∈ ts, ((∃ l : ℝ, (args t).Lambda = some (.fin l) ∧ Ω t = l * U / (args t).R) ∨ ((args t).Lambda = some .pinf ∧ Ω t = 800)) ∧
      20 ≤ Ω t * (args t).R / U)
    (hapc : ∀ t ∈ ts, apc t = C t * π * U^2 / Ω t / (4 * π * Ω t * (args t).R)^2)
    (hC : ∀ t ∈ ts, C t ≤ Ctc ∧ 0 ≤ 1 - C t * (1 + apc t))
    (pts : List (V3 ℝ)) :
    let w := fun t => ((args t).build).run mini [.yaw (ψ t), .loading { Ct := some [.fin (C t)] }]
    let q := frun mini (ts.map .turbine) w []
    let wakes := fun t => wakeCentres (args t).Ground (args t).vert (args t).hub
    let s := fun t => turn (args t).vert (ψ t) (args t).shaft
    let γ := fun t => -U * (1 - √(1 - C t * (1 + apc t)))
    ∃ u, (farmVelocity q.1 q.2 pts {} (some (V3.smul U d))).1 = .ok u ∧ ∀ (i : ℕ) (p : V3 ℝ), pts[i]? = some p →
      (∀ t ∈ ts, ∀ c ∈ wakes t, if d = s t then OffEdge (args t).R c (args t).vert (s t) p else Clear (args t).R (args t).R c (args t).vert (s t) d p) →
      ∃ v, u[i]? = some (V3.fin v) ∧
        V3.norm (v - (V3.smul U d + (ts.map fun t => ((wakes t).map fun c => sheetFlow (γ t) (args t).R c (args t).vert (s t) d p).sum).sum)) ≤
          0.0301 * (ts.map fun t => (wakes t).length * |γ t|).sum := by
  intro w q wakes s γ
  have hb : ∀ t, (w t).r_hub = (args t).hub ∧ (w t).Ground = (args t).Ground ∧ (w t).Model = (args t).Model ∧ (w t).U0_g = (args t).U0 ∧
      (w t).chi = none ∧ (w t).yaw_pos = ψ t := by
    intro t
    obtain ⟨b1, b2, b3, b4, b5, b6, b7, b8, b9, b10, b11, b12, b13, b14⟩ := loading_frame mini ((args t).build.updateYawPos (ψ t)) { Ct := some [.fin (C t)] }
    exact ⟨b2, b12, b14, b11, b13, b10⟩
  have hsh : ∀ t, (w t).e_shaft_g = s t := fun t => yaw_shaft mini (args t) (ψ t) _
  have hg : ∀ t ∈ ts, (w t).gamma_t = some [.fin (γ t)] := by
    intro t ht
    have hw := (hwind t ht).2
    have hn : V3.norm ((args t).build.updateYawPos (ψ t)).U0_g = U := by
      change V3.norm (args t).U0 = U
      rw [hw, norm_smul_unit _ _ hd, abs_of_pos hU]
    have hne : ((args t).build.updateYawPos (ψ t)).U0_g ≠ 0 := by
      intro h
      rw [h, norm_zero3] at hn
      exact hU.ne hn
    obtain ⟨o1, o2⟩ := hΩ t ht
    have key : ∀ L : Num, (args t).Lambda = some L → ((∃ l : ℝ, L = .fin l ∧ Ω t = l * U / (args t).R) ∨ (L = .pinf ∧ Ω t = 800)) →
        (w t).gamma_t = some [.fin (γ t)] := by
      intro L hL hLO
      have hdf := updateLoading_default mini ((args t).build.updateYawPos (ψ t)) L hL { Ct := some [.fin (C t)] } rfl
      obtain ⟨r1, r2, -⟩ := C34_update_loading mini ((args t).build.updateYawPos (ψ t)) (hR t ht) hne [C t] (by simp) L (Ω t) (by rw [hn]; exact hLO) (by rw [hn]; exact o2) none none
      simp only [List.map_cons, List.map_nil, List.sum_cons, List.sum_nil, add_zero, List.length_singleton, Nat.cast_one, div_one] at r2
      rw [hn] at r2
      have e := hapc t ht
      change apc t = C t * π * U^2 / Ω t / (4 * π * Ω t * ((args t).build.updateYawPos (ψ t)).R)^2 at e
      rw [← e] at r2
      have := r2 (hC t ht).1 (hC t ht).2
      change (((args t).build.updateYawPos (ψ t)).updateLoading mini { Ct := some [.fin (C t)] }).2.gamma_t = _
      rw [hdf]
      exact this
    rcases o1 with ⟨l, h1, h2⟩ | ⟨h1, h2⟩
    · exact key _ h1 (Or.inl ⟨l, rfl, h2⟩)
    · exact key _ h1 (Or.inr ⟨rfl, h2⟩)
  obtain ⟨u, h1, h2⟩ := C135_farm mini args (fun t => [.yaw (ψ t), .loading { Ct := some [.fin (C t)] }]) ts γ (fun t => (args t).R) pts {} rfl rfl rfl rfl
    (some (V3.smul U d)) w (fun _ => rfl) ho hR hR hg (fun t ht => (hb t).2.2.1.trans (hM t ht)) (fun t _ => (hb t).2.2.2.2.1) (fun _ => d)
    (fun t ht => ⟨hd, (hwind t ht).1, U, hU, (hb t).2.2.2.1.trans (hwind t ht).2⟩) (fun t ht => by rw [hsh]; exact (hψ t ht).1)
    (fun t ht => by rw [hsh, (hb t).2.2.2.2.2]; exact (hψ t ht).2)
  have hwk : ∀ t, wakeCentres ((w t).Ground) (args t).vert (w t).r_hub = wakes t := by
    intro t
    rw [(hb t).1, (hb t).2.1]
  refine ⟨u, h1, fun i p hpi hoff => ?_⟩
  have := h2 i p hpi
  simp only [Option.getD_none, hwk, hsh, Option.getD_some] at this
  obtain ⟨v, v1, v2⟩ := this hoff
  refine ⟨v, v1, v2.trans ?_⟩
  rw [← sum_map_const_mul]
  apply List.sum_le_sum
  intro t ht
  split_ifs
  · exact le_rfl
  · have h := skew_unit_error (args t).R (hR t ht)
    have hk : 0 ≤ ((wakes t).length : ℝ) * |γ t| := by positivity
    calc _ = (√3 * (π^2/(3 * 179^2) * ((args t).R/(args t).R * ((args t).R/(args t).R + 2)) * (1 + 10 * ((args t).R/(args t).R) + 18 * ((args t).R/(args t).R)^2))) * ((wakes t).length * |γ t|) := by ring
      _ ≤ _ := mul_le_mul_of_nonneg_right h hk

/-- a turbine yawed by 30 degrees and one that faces the wind, over the ground, seen from 200 upstream, meet the hypotheses -/
example : let args : ℕ → TurbineArgs := fun t => ⟨50, ⟨0, 80, 500*t⟩, ⟨0, 0, 1⟩, ⟨0, 1, 0⟩, ⟨0, 0, 10⟩, some .pinf, true, "VC"⟩
    let ψ : ℕ → ℝ := fun t => if t = 0 then π/6 else 0
    let d : V3 ℝ := ⟨0, 0, 1⟩
    let s := fun t => turn (args t).vert (ψ t) (args t).shaft
    s 0 = ⟨1/2, 0, √3/2⟩ ∧ s 1 = d ∧ 0 < V3.dot d (s 0) ∧ 1e-7 < |V3.dot d (V3.cross (args 0).vert (s 0))| ∧
    (∀ c ∈ wakeCentres true (args 0).vert (args 0).hub, Clear 50 50 c (args 0).vert (s 0) d ⟨0, 80, -200⟩) ∧
    ∀ c ∈ wakeCentres true (args 1).vert (args 1).hub, OffEdge 50 c (args 1).vert (s 1) ⟨0, 80, -200⟩ := by
  intro args ψ d s
  have h0 : s 0 = ⟨1/2, 0, √3/2⟩ := by
    simp only [s, args, ψ, turn, if_true]
    rw [cos_pi_div_six, sin_pi_div_six]
    ext <;> simp [V3.dot, V3.cross]
  have h1 : s 1 = d := by
    simp only [s, args, ψ, turn, d]
    norm_num
    ext <;> simp [V3.dot, V3.cross]
  have hs3 : 0 < √3 := Real.sqrt_pos.2 (by norm_num)
  refine ⟨h0, h1, ?_, ?_, ?_, ?_⟩
  · rw [h0]; simp [V3.dot, d]
  · rw [h0]; simp [V3.dot, V3.cross, d, args]; norm_num
  · intro c hc θ t ht
    rw [h0]
    have hcz : c.z = 0 := by
      simp only [wakeCentres, args, if_true, List.mem_cons, List.not_mem_nil, or_false] at hc
      rcases hc with h | h <;> rw [h] <;> simp [groundImage, V3.dot]
    refine le_trans ?_ (comp_le_norm _).2.2
    have e : ((⟨0, 80, -200⟩ : V3 ℝ) - sheetPoint 50 c (args 0).vert ⟨1/2, 0, √3/2⟩ d θ t).z = -200 - (-(25 * cos θ)) - t := by
      simp [sheetPoint, V3.cross, args, d, hcz]; ring
    rw [e, abs_of_neg (by linarith [cos_le_one θ])]
    linarith [cos_le_one θ]
  · intro c hc
    rw [h1]
    have : c = ⟨0, 80, 500⟩ ∨ c = ⟨0, -80, 500⟩ := by
      simp only [wakeCentres, args, if_true, List.mem_cons, List.not_mem_nil, or_false] at hc
      rcases hc with h | h
      · left; rw [h]; norm_num
      · right; rw [h]; ext <;> simp [groundImage, V3.dot]; norm_num
    rcases this with rfl | rfl
    · have e : √((inRotor ⟨0, 80, 500⟩ ⟨0, 1, 0⟩ ⟨0, 0, 1⟩ ⟨0, 80, -200⟩).x^2 + (inRotor ⟨0, 80, 500⟩ ⟨0, 1, 0⟩ ⟨0, 0, 1⟩ ⟨0, 80, -200⟩).y^2) = 0 := by
        simp [inRotor, V3.dot, V3.cross]
      unfold OffEdge
      simp only [args, d, e]
      norm_num
    · have e : √((inRotor ⟨0, -80, 500⟩ ⟨0, 1, 0⟩ ⟨0, 0, 1⟩ ⟨0, 80, -200⟩).x^2 + (inRotor ⟨0, -80, 500⟩ ⟨0, 1, 0⟩ ⟨0, 0, 1⟩ ⟨0, 80, -200⟩).y^2) = 160 := by
        rw [Real.sqrt_eq_iff_mul_self_eq (by positivity) (by norm_num)]
        simp [inRotor, V3.dot, V3.cross]; norm_num
      unfold OffEdge
      simp only [args, d, e]
      norm_num

end
end Wiz
