import Verif.Props.TurbineValue
import Verif.Props.TurbineLoading

/-! # C34, C81: momentum theory end to end -/
namespace Wiz
open Spec Real Classical

theorem npMean_fin (c : List ℝ) (hc : c ≠ []) : npMean (c.map Num.fin) = .fin (c.sum / c.length) := by
  have h1 : ∀ l : List ℝ, npSum (l.map Num.fin) = .fin l.sum := by
    intro l
    unfold npSum
    induction l with
    | nil => rfl
    | cons x l ih => rw [List.map_cons, List.foldr_cons, ih, Num.fin_add, List.sum_cons]
  have h2 : (c.length : ℝ) ≠ 0 := by
    have := List.length_pos_iff.mpr hc
    positivity
  unfold npMean
  rw [h1, List.length_map, Num.fin_div h2]

/-- C34: `update_loading` with a thrust coefficient and one cylinder, at a tip-speed ratio of at least 20
(in particular `Λ=∞`, for which the code takes `Ω=800`): it succeeds, and stores a single strength which is
`-U(1-√(1-C(1+a'_c)))` up to the high-thrust limit (`nan` if the root is not real), `-2U a(C)` beyond, for the
mean thrust coefficient `C`, the wind speed `U` and the correction `a'_c` as programmed.  The strength is never
positive for `C ≥ 0`. -/
theorem C34_update_loading (mini : (ℝ → Num) → ℝ) (w : WT) (hR : 0 < w.R) (hU : w.U0_g ≠ 0) (Cts : List ℝ) (hC : Cts ≠ [])
    (Lam : Num) (Ω : ℝ) (hΩ : (∃ l : ℝ, Lam = .fin l ∧ Ω = l * V3.norm w.U0_g / w.R) ∨ (Lam = .pinf ∧ Ω = 800))
    (h20 : 20 ≤ Ω * w.R / V3.norm w.U0_g) (rs : Option (List ℝ)) (Γ : Option (List Num)) :
    let res := w.updateLoading mini { r := rs, Ct := some (Cts.map .fin), Gamma := Γ, Lambda := some Lam, nCyl := some 1 }
    let C := Cts.sum / Cts.length
    let U := V3.norm w.U0_g
    let apc := C * π * U^2 / Ω / (4 * π * Ω * w.R)^2
    res.1 = .ok () ∧
    (C ≤ Ctc → 0 ≤ 1 - C * (1 + apc) → res.2.gamma_t = some [.fin (-U * (1 - √(1 - C * (1 + apc))))]) ∧
    (C ≤ Ctc → 1 - C * (1 + apc) < 0 → res.2.gamma_t = some [.nan]) ∧
    (Ctc < C → res.2.gamma_t = some [.fin (-2 * U * aOfCt C)]) ∧
    (0 ≤ C → ∀ g : ℝ, res.2.gamma_t = some [.fin g] → g ≤ 0) := by
  intro res C U apc
  have hUp : 0 < U := norm_pos hU
  have hΩ0 : 0 < Ω := by
    by_contra hn
    push Not at hn
    have : Ω * w.R / U ≤ 0 := div_nonpos_of_nonpos_of_nonneg (mul_nonpos_of_nonpos_of_nonneg hn hR.le) hUp.le
    have h20' : 20 ≤ Ω * w.R / U := h20
    linarith
  obtain ⟨v, hv, v1, v2, v3, v4⟩ := C34_single mini (0.995 * w.R) C w.R U Ω (by nlinarith) hR hUp hΩ0 h20 apc rfl
  have hcap : wakeVorticityFromCt mini [.fin (0.995 * w.R)] [.fin C] (.fin w.R) (.fin U) (Lam * .fin U / .fin w.R) = .ok v := by
    rw [← hv]
    rcases hΩ with ⟨l, h1, h2⟩ | ⟨h1, h2⟩
    · rw [h1, Num.fin_mul, Num.fin_div hR.ne', ← h2]
    · have e : (Num.pinf : Num) * .fin U / .fin w.R = .pinf := by
        have e1 : (Num.pinf : Num) * .fin U = .pinf := by
          show Num.infSign U = _
          simp only [Num.infSign, if_pos hUp]
        rw [e1]
        show (if w.R < 0 then Num.ninf else Num.pinf) = _
        rw [if_neg (not_lt.mpr hR.le)]
      rw [h1, e, h2]
      unfold wakeVorticityFromCt
      have c1 : capOmega .pinf = 800 := by unfold capOmega; rw [if_pos (by simp [Num.Eqv])]
      have c2 : capOmega (.fin 800) = 800 := by unfold capOmega; rw [if_neg (by simp)]; rfl
      rw [c1, c2]
  have hres : res = (.ok (), { w with gamma_t := some v.gamma_t, gamma_l := v.gamma_l, Gamma_r := v.Gamma_r, Lambda := some Lam, r := some [0.995 * w.R], Ct := some [.fin C] }) := by
    simp only [res]
    unfold WT.updateLoading reinterp loadingSolve
    simp only [if_true, Option.map_some, npMean_fin Cts hC, List.map_cons, List.map_nil]
    have : wakeVorticityFromCt mini [.fin (0.995 * w.R)] [.fin (Cts.sum / Cts.length)] (.fin w.R) (.fin (V3.norm w.U0_g)) (Lam * .fin (V3.norm w.U0_g) / .fin w.R) = .ok v := hcap
    rw [this]
  rw [hres]
  refine ⟨rfl, ?_, ?_, ?_, ?_⟩
  · intro a b; simp only [v1 a b]
  · intro a b; simp only [v2 a b]
  · intro a; simp only [v3 a]
  · intro a g hg; exact v4 a g (Option.some.inj hg)

/-- Pythagoras in rotor axes -/
theorem expand_frame (v s d : V3 ℝ) (hv : V3.dot v v = 1) (hs : V3.dot s s = 1) (hvs : V3.dot s v = 0) :
    V3.dot d d = (V3.dot d (V3.cross v s))^2 + (V3.dot d v)^2 + (V3.dot d s)^2 := by
  have h : (V3.dot d (V3.cross v s))^2 = V3.dot d d * (V3.dot v v * V3.dot s s - V3.dot s v^2)
      - V3.dot d v * (V3.dot d v * V3.dot s s - V3.dot s v * V3.dot d s) + V3.dot d s * (V3.dot d v * V3.dot s v - V3.dot v v * V3.dot d s) := by
    simp [V3.dot, V3.cross]; ring
  rw [h, hv, hs, hvs]; ring

/-- the options of a plain evaluation: tangential vorticity of the cylinder model, nothing else -/
structure PlainEval (w : WT) (o : Opts) : Prop where
  no_wake : o.no_wake = false
  longi : o.longi = false
  root : o.root = false
  tang : o.tang = true
  model : o.Model.getD w.Model = "VC"
  ground : o.ground.getD w.Ground = false

/-- the velocity of an unskewed plain evaluation with one cylinder of finite strength -/
theorem plain_value (mini : (ℝ → Num) → ℝ) (R : ℝ) (hub shaft vert U0 : V3 ℝ) (L : Option Num) (G : Bool)
    (M : String) (ho : Orthonormal shaft vert) (hR : 0 < R) (h : List Op) (pts : List (V3 ℝ)) (o : Opts) (γ : ℝ) (chi : Num) :
    let w := (WT.new R hub shaft vert U0 L G M).run mini h
    let s := w.e_shaft_g
    let a := V3.cross vert s
    PlainEval w o → w.gamma_t = some [.fin γ] → (w.computeU pts o).2.chi = some chi → ¬ (Num.fin 1e-7 < Num.abs chi) →
    ∃ u, (w.computeU pts o).1 = .ok u ∧ ∀ (i : ℕ) (p : V3 ℝ), pts[i]? = some p → ∃ c : V3 ℝ,
      (vcTang (rotorAxes a vert s w.r_hub pts) (.fin γ) R 0)[i]? = some (V3.fin c) ∧
      u[i]? = some (V3.fin (V3.smul c.x a + V3.smul c.y vert + V3.smul c.z s + (if o.only_ind then 0 else w.U0_g))) := by
  intro w s a hp hg hchi hsk
  have hRw : w.R = R := (frame_run mini shaft vert R h _ (frame_new R hub shaft vert U0 L G M)).R
  have hv : ∃ u, (w.computeU pts o).1 = .ok u := by
    have hc : chi = usedChi w := by rw [computeU_state] at hchi; exact (Option.some.inj hchi).symm
    have hy : ¬ yawed (usedChi w) := by rw [← hc]; exact hsk
    rw [computeU_val, hg]
    simp only
    have : w.inducedC (usedChi w) [.fin γ] pts o = if ¬ Num.Eqv (.fin γ) 0 then .ok (addFields (pts.map fun _ => 0) (vcTang (relC w pts) (.fin γ) w.R 0)) else .ok (pts.map fun _ => 0) := by
      rw [inducedC_single _ _ _ _ _ hp.root, hp.ground]
      simp only [Bool.false_eq_true, if_false, overY]
      rw [singleBody_noLongi _ _ _ _ _ _ _ hp.longi]
      simp only [hp.tang, true_and]
      by_cases hz : ¬ Num.Eqv (.fin γ) 0
      · rw [if_pos hz, if_pos hz]
        unfold tangPart
        rw [if_neg hy, if_pos hp.model]
        rfl
      · rw [if_neg hz, if_neg hz]
    rw [this]
    split_ifs <;> exact ⟨_, rfl⟩
  obtain ⟨u, hu⟩ := hv
  refine ⟨u, hu, ?_⟩
  obtain ⟨ul, hval⟩ := C16_field mini R hub shaft vert U0 L G M ho h pts o hp.no_wake (.fin γ) chi u hg hchi hu
  intro i p hpi
  have hi : i < pts.length := by
    by_contra hn
    rw [List.getElem?_eq_none (not_lt.mp hn)] at hpi
    exact nomatch hpi
  have hlen : (vcTang (rotorAxes a vert s w.r_hub pts) (.fin γ) R 0).length = pts.length := by
    rw [vcTang_length]; simp [rotorAxes]
  have hiv : i < (vcTang (rotorAxes a vert s w.r_hub pts) (.fin γ) R 0).length := by rw [hlen]; exact hi
  have hfin := (C40_finite (rotorAxes a vert s w.r_hub pts) γ R hR).2.2 _ (List.getElem_mem hiv)
  obtain ⟨c, hc⟩ : ∃ c : V3 ℝ, (vcTang (rotorAxes a vert s w.r_hub pts) (.fin γ) R 0)[i] = V3.fin c := by
    obtain ⟨⟨x, hx⟩, ⟨y, hy⟩, ⟨z, hz⟩⟩ := hfin
    exact ⟨⟨x, y, z⟩, by ext <;> simp [hx, hy, hz]⟩
  have hget : (vcTang (rotorAxes a vert s w.r_hub pts) (.fin γ) R 0)[i]? = some (V3.fin c) := by
    rw [List.getElem?_eq_getElem hiv, hc]
  have hgetD : (vcTang (rotorAxes a vert s w.r_hub pts) (.fin γ) R 0).getD i 0 = V3.fin c := getElem_getD hget
  refine ⟨c, hget, ?_⟩
  have h1 := hval i hi
  have hzero : (if o.tang = true ∧ ¬ Num.Eqv (.fin γ) 0 then
      ([w.r_hub].map fun c => (wakeTang chi (o.Model.getD w.Model) (.fin γ) R o.R_far_field (rotorAxes a vert s c pts)).getD i 0).sum else 0) = V3.fin c := by
    have hw : ∀ Y, wakeTang chi (o.Model.getD w.Model) (.fin γ) R o.R_far_field Y = vcTang Y (.fin γ) R 0 := by
      intro Y; unfold wakeTang; rw [if_neg (show ¬ skewed chi from hsk), if_pos hp.model]
    split_ifs with hz
    · rw [List.map_cons, List.map_nil, List.sum_cons, List.sum_nil, add_zero, hw, hgetD]
    · have hγ : γ = 0 := by
        by_contra hne
        exact hz ⟨hp.tang, by simpa [Num.Eqv] using hne⟩
      -- zero strength: the cylinder field is zero
      have hcan := C41_linear (rotorAxes a vert s w.r_hub pts) (-1) 0 0 R hR
      have : V3.fin c = V3.smul (.fin (-1)) (V3.fin c) + V3.fin c := by
        have h2 := congrArg (fun l => l[i]?) hcan.1
        simp only [List.getElem?_zipWith] at h2
        rw [hγ] at hget
        rw [show (-1 * (0:ℝ) + 0) = 0 by ring, hget] at h2
        exact Option.some.inj h2
      have h0 : c = 0 := by
        have hx := congrArg V3.x this
        have hy := congrArg V3.y this
        have hz := congrArg V3.z this
        simp at hx hy hz
        ext <;> simp [hx, hy, hz]
      rw [h0]; rfl
  rw [hp.ground] at h1
  simp only [Bool.false_eq_true, if_false, hp.root, hp.longi, false_and] at h1
  have hr0 : (match w.Gamma_r with | some _ => (0 : V3 Num) | none => 0) = 0 := by cases w.Gamma_r <;> rfl
  have hl0 : (match w.gamma_l with | some [_] => (0 : V3 Num) | _ => 0) = 0 := by split <;> rfl
  change u.getD i 0 = transform (M3.fin (M3.ofCols a vert s)) ((match w.Gamma_r with | some _ => (0 : V3 Num) | none => 0) +
    (if o.tang = true ∧ ¬ Num.Eqv (.fin γ) 0 then
      ([w.r_hub].map fun c => (wakeTang chi (o.Model.getD w.Model) (.fin γ) R o.R_far_field (rotorAxes a vert s c pts)).getD i 0).sum else 0) +
    (match w.gamma_l with | some [_] => (0 : V3 Num) | _ => 0)) + _ at h1
  rw [hr0, hl0, hzero, zero_add, add_zero, transform_fin] at h1
  have hui : u[i]? = some (u.getD i 0) := by
    have : i < u.length := by rw [ul]; exact hi
    rw [List.getElem?_eq_getElem this, List.getD_eq_getElem?_getD, List.getElem?_eq_getElem this, Option.getD_some]
  rw [hui, h1]
  congr 1
  have : M3.mulVec (M3.ofCols a vert s) c = V3.smul c.x a + V3.smul c.y vert + V3.smul c.z s := by
    ext <;> simp [M3.mulVec, M3.ofCols] <;> ring
  rw [this]
  cases o.only_ind
  · ext <;> simp <;> rfl
  · ext <;> simp

/-- C81: in the rotor plane the velocity induced along the shaft is half the strength at every point strictly
inside the rotor, and zero strictly outside. -/
theorem C81_rotor_plane (mini : (ℝ → Num) → ℝ) (R : ℝ) (hub shaft vert U0 : V3 ℝ) (L : Option Num) (G : Bool)
    (M : String) (ho : Orthonormal shaft vert) (hR : 0 < R) (h : List Op) (pts : List (V3 ℝ)) (o : Opts) (γ : ℝ) (chi : Num) :
    let w := (WT.new R hub shaft vert U0 L G M).run mini h
    PlainEval w o → o.only_ind = true → w.gamma_t = some [.fin γ] → (w.computeU pts o).2.chi = some chi → ¬ (Num.fin 1e-7 < Num.abs chi) →
    ∃ u, (w.computeU pts o).1 = .ok u ∧ ∀ (i : ℕ) (p : V3 ℝ), pts[i]? = some p → V3.dot (p - w.r_hub) w.e_shaft_g = 0 →
      ∃ v : V3 ℝ, u[i]? = some (V3.fin v) ∧
        (V3.norm (p - w.r_hub) ≤ (1 - 1e-8) * R → V3.dot v w.e_shaft_g = γ / 2) ∧
        ((1 + 1e-8) * R ≤ V3.norm (p - w.r_hub) → V3.dot v w.e_shaft_g = 0) := by
  intro w hp hoi hg hchi hsk
  obtain ⟨u, hu, hall⟩ := plain_value mini R hub shaft vert U0 L G M ho hR h pts o γ chi hp hg hchi hsk
  refine ⟨u, hu, fun i p hpi hpl => ?_⟩
  obtain ⟨c, hc, huc⟩ := hall i p hpi
  have hfr := frame_run mini shaft vert R h _ (frame_new R hub shaft vert U0 L G M)
  obtain ⟨a', s', e1, -, e3, e4, e5, e6, e7, e8, e9⟩ := frame_cols shaft vert R ho w hfr
  have hs : s' = w.e_shaft_g := by
    have := hfr.e_shaft_g
    rw [turn_eq] at this
    rw [e3]; exact this.symm
  subst hs
  rw [e9] at e4 e6 e7
  generalize hs : w.e_shaft_g = s at *
  generalize ha : V3.cross vert s = a at *
  refine ⟨_, huc, ?_⟩
  have hdot : V3.dot (V3.smul c.x a + V3.smul c.y vert + V3.smul c.z s + (if o.only_ind then 0 else w.U0_g)) s = c.z := by
    rw [hoi]
    simp only [if_true]
    have h1 : V3.dot (V3.smul c.x a + V3.smul c.y vert + V3.smul c.z s + 0) s = c.x * V3.dot a s + c.y * V3.dot s vert + c.z * V3.dot s s := by
      simp [V3.dot]; ring
    rw [h1, e7, e8, e5]; ring
  rw [hdot]
  -- the point in rotor axes
  let d := p - w.r_hub
  have hY : (rotorAxes a vert s w.r_hub pts)[i]? = some ⟨V3.dot d a, V3.dot d vert, V3.dot d s⟩ := by
    simp only [rotorAxes, List.getElem?_map, hpi, Option.map_some, d]
  have hn : √((V3.dot d a)^2 + (V3.dot d vert)^2) = V3.norm d := by
    have hexp := expand_frame vert s d ho.vert e5 e8
    have hpl' : V3.dot d s = 0 := hpl
    rw [ha, hpl'] at hexp
    have : V3.norm d = √(V3.dot d d) := by unfold V3.norm V3.dot; congr 1; ring
    rw [this, hexp]
    congr 1; ring
  obtain ⟨ur, hur⟩ := C43_rotor_plane (rotorAxes a vert s w.r_hub pts) γ R hR i _ hY hpl
  have hdir := C42_direction (rotorAxes a vert s w.r_hub pts) γ R hR
  have h2 := congrArg (fun l => l[i]?) hdir
  simp only [List.getElem?_zipWith, hY, hur] at h2
  rw [hc] at h2
  have hz := congrArg V3.z (Option.some.inj h2)
  simp only [hn] at hz
  have hz : c.z = if |V3.norm d - R| < 1e-8 * R then γ / 4 else if V3.norm d < R then γ / 2 else 0 := by
    have := Num.fin.inj hz; exact this
  constructor
  · intro hin
    have hin' : V3.norm d ≤ (1 - 1e-8) * R := hin
    rw [hz, if_neg, if_pos]
    · nlinarith
    · rw [abs_of_nonpos (by nlinarith)]; nlinarith
  · intro hout
    have hout' : (1 + 1e-8) * R ≤ V3.norm d := hout
    rw [hz, if_neg, if_neg]
    · nlinarith
    · rw [abs_of_nonneg (by nlinarith)]; nlinarith

/-- C81: along the shaft axis the induced velocity is along the shaft, with the classical profile: at the
signed distance `z` from the hub it is `γ g(z)`, where `g` increases from 0 (upstream) through 1/2 (rotor) to 1
(far wake). -/
theorem C81_axis (mini : (ℝ → Num) → ℝ) (R : ℝ) (hub shaft vert U0 : V3 ℝ) (L : Option Num) (G : Bool)
    (M : String) (ho : Orthonormal shaft vert) (hR : 0 < R) :
    ∃ g : ℝ → ℝ, StrictMono g ∧ Filter.Tendsto g Filter.atBot (nhds 0) ∧ g 0 = 1/2 ∧ Filter.Tendsto g Filter.atTop (nhds 1) ∧
    ∀ (h : List Op) (pts : List (V3 ℝ)) (o : Opts) (γ : ℝ) (chi : Num),
    let w := (WT.new R hub shaft vert U0 L G M).run mini h
    PlainEval w o → w.gamma_t = some [.fin γ] → (w.computeU pts o).2.chi = some chi → ¬ (Num.fin 1e-7 < Num.abs chi) →
    ∃ u, (w.computeU pts o).1 = .ok u ∧ ∀ (i : ℕ) (z : ℝ), pts[i]? = some (w.r_hub + V3.smul z w.e_shaft_g) →
      u[i]? = some (V3.fin (V3.smul (γ * g z) w.e_shaft_g + (if o.only_ind then 0 else w.U0_g))) := by
  obtain ⟨g, g1, g2, g3, g4, g5⟩ := C48_profile R hR
  refine ⟨g, g1, g2, g3, g4, ?_⟩
  intro h pts o γ chi w hp hg hchi hsk
  obtain ⟨u, hu, hall⟩ := plain_value mini R hub shaft vert U0 L G M ho hR h pts o γ chi hp hg hchi hsk
  refine ⟨u, hu, fun i z hpi => ?_⟩
  obtain ⟨c, hc, huc⟩ := hall i _ hpi
  have hfr := frame_run mini shaft vert R h _ (frame_new R hub shaft vert U0 L G M)
  obtain ⟨a', s', e1, -, e3, e4, e5, e6, e7, e8, e9⟩ := frame_cols shaft vert R ho w hfr
  have hs : s' = w.e_shaft_g := by
    have := hfr.e_shaft_g
    rw [turn_eq] at this
    rw [e3]; exact this.symm
  subst hs
  rw [e9] at e4 e6 e7
  have hd : ∀ x, V3.dot (w.r_hub + V3.smul z w.e_shaft_g - w.r_hub) x = z * V3.dot w.e_shaft_g x := by
    intro x; simp [V3.dot]; ring
  have hY : (rotorAxes (V3.cross vert w.e_shaft_g) vert w.e_shaft_g w.r_hub pts)[i]? = some ⟨0, 0, z⟩ := by
    simp only [rotorAxes, List.getElem?_map]
    change (pts[i]?).map _ = _
    rw [hpi, Option.map_some, hd, hd, hd, e8, e5, dot_comm, e7]
    simp
  have := g5 _ γ i _ hY (by simp; positivity)
  have hc' : (vcTang (rotorAxes (V3.cross vert w.e_shaft_g) vert w.e_shaft_g w.r_hub pts) (.fin γ) R 0)[i]? = some (V3.fin c) := hc
  rw [hc'] at this
  have hc0 := fin_inj3 _ _ (Option.some.inj this)
  rw [hc0] at huc
  rw [huc]
  congr 2
  ext <;> simp <;> rfl

/-- C81: momentum theory.  After any history followed by a call of `update_loading` with a mean thrust
coefficient `C` up to the high-thrust limit and one cylinder (tip-speed ratio at least 20), the velocity on the
shaft axis at distance `z` from the hub of an unskewed turbine whose shaft is along the wind is `|U0|(1-2a g(z))` along the shaft, with `4a(1-a)=C(1+a'_c)`, `a ≤ 1/2`: `|U0|(1-a)` at the
rotor, `|U0|(1-2a)` in the far wake. -/
theorem C81_momentum (mini : (ℝ → Num) → ℝ) (R : ℝ) (hub shaft vert U0 : V3 ℝ) (L : Option Num) (G : Bool)
    (M : String) (ho : Orthonormal shaft vert) (hR : 0 < R) (h : List Op) (U : ℝ) (hU : 0 < U)
    (Cts : List ℝ) (hC : Cts ≠ []) (Lam : Num) (Ω : ℝ) (hΩ : (∃ l : ℝ, Lam = .fin l ∧ Ω = l * U / R) ∨ (Lam = .pinf ∧ Ω = 800))
    (h20 : 20 ≤ Ω * R / U) (C : ℝ) (hC' : C = Cts.sum / Cts.length) (hC1 : C ≤ Ctc)
    (apc : ℝ) (hap : apc = C * π * U^2 / Ω / (4 * π * Ω * R)^2) (hsq : C * (1 + apc) ≤ 1) (pts : List (V3 ℝ)) (o : Opts) (chi : Num) :
    let w0 := (WT.new R hub shaft vert U0 L G M).run mini h
    let w := w0.step mini (.loading { Ct := some (Cts.map .fin), Lambda := some Lam, nCyl := some 1 })
    w0.U0_g = V3.smul U w0.e_shaft_g → PlainEval w o → o.only_ind = false → (w.computeU pts o).2.chi = some chi →
    ¬ (Num.fin 1e-7 < Num.abs chi) →
    ∃ (a : ℝ) (g : ℝ → ℝ) (u : List (V3 Num)), 4 * a * (1 - a) = C * (1 + apc) ∧ a ≤ 1/2 ∧
      StrictMono g ∧ Filter.Tendsto g Filter.atBot (nhds 0) ∧ g 0 = 1/2 ∧ Filter.Tendsto g Filter.atTop (nhds 1) ∧
      (w.computeU pts o).1 = .ok u ∧
      ∀ (i : ℕ) (z : ℝ), pts[i]? = some (w.r_hub + V3.smul z w.e_shaft_g) →
        u[i]? = some (V3.fin (V3.smul (U * (1 - 2 * a * g z)) w.e_shaft_g)) := by
  intro w0 w hw0 hp hoi hchi hsk
  have hfr0 := frame_run mini shaft vert R h _ (frame_new R hub shaft vert U0 L G M)
  have hR0 : w0.R = R := hfr0.R
  have hs1 : V3.dot w0.e_shaft_g w0.e_shaft_g = 1 := (C05_unit_horizontal mini R hub shaft vert U0 L G M ho h).1
  have hn : V3.norm w0.U0_g = U := by
    have e : V3.norm w0.U0_g = √(U^2 * V3.dot w0.e_shaft_g w0.e_shaft_g) := by
      rw [hw0]; unfold V3.norm V3.dot; congr 1; simp; ring
    rw [e, hs1, mul_one, Real.sqrt_sq hU.le]
  have hne : w0.U0_g ≠ 0 := by
    intro h0
    rw [h0] at hn
    simp [V3.norm] at hn
    exact hU.ne' hn.symm
  have hl := C34_update_loading mini w0 (by rw [hR0]; exact hR) hne Cts hC Lam Ω (by rw [hn, hR0]; exact hΩ) (by rw [hn, hR0]; exact h20) none none
  simp only [hn, hR0, ← hC', ← hap] at hl
  obtain ⟨-, l2, -, -, -⟩ := hl
  have hgam : w.gamma_t = some [.fin (-U * (1 - √(1 - C * (1 + apc))))] := l2 hC1 (by linarith)
  obtain ⟨b1, b2, b3, b4, b5, b6, b7, b8, b9, b10, b11, b12, b13, b14⟩ := loading_frame mini w0 { Ct := some (Cts.map .fin), Lambda := some Lam, nCyl := some 1 }
  have hwrun : w = (WT.new R hub shaft vert U0 L G M).run mini (h ++ [.loading { Ct := some (Cts.map .fin), Lambda := some Lam, nCyl := some 1 }]) := by
    simp only [w, w0, WT.run, List.foldl_append, List.foldl_cons, List.foldl_nil]
  obtain ⟨g, g1, g2, g3, g4, g5⟩ := C81_axis mini R hub shaft vert U0 L G M ho hR
  have h5 := g5 (h ++ [.loading { Ct := some (Cts.map .fin), Lambda := some Lam, nCyl := some 1 }]) pts o (-U * (1 - √(1 - C * (1 + apc)))) chi
  rw [← hwrun] at h5
  obtain ⟨u, hu, hall⟩ := h5 hp hgam hchi hsk
  have hsq' : √(1 - C * (1 + apc))^2 = 1 - C * (1 + apc) := Real.sq_sqrt (by linarith)
  have hnn := Real.sqrt_nonneg (1 - C * (1 + apc))
  refine ⟨(1 - √(1 - C * (1 + apc))) / 2, g, u, by nlinarith, by linarith, g1, g2, g3, g4, hu, ?_⟩
  intro i z hz
  rw [hall i z hz, hoi]
  have hUg : w.U0_g = V3.smul U w.e_shaft_g := by
    have k1 : w.U0_g = w0.U0_g := by first | exact b11 | exact b2 | exact b13
    have k2 : w.e_shaft_g = w0.e_shaft_g := by first | exact b3 | exact b4 | exact b5 | exact b6 | exact b7 | exact b8 | exact b9
    rw [k1, k2, hw0]
  simp only [Bool.false_eq_true, if_false, hUg]
  congr 2
  ext <;> simp <;> ring

/-- a 50 m rotor facing 10 m/s, Ct=8/9 at infinite tip-speed ratio -/
example (mini : (ℝ → Num) → ℝ) (o : Opts) (ho : o = {}) (pts : List (V3 ℝ)) :
    let w0 := (WT.new 50 ⟨1,2,3⟩ ⟨0,0,1⟩ ⟨0,1,0⟩ ⟨0,0,10⟩ none false "VC").run mini [.chi (some 0)]
    let w := w0.step mini (.loading { Ct := some ([8/9, 8/9].map .fin), Lambda := some .pinf, nCyl := some 1 })
    ∃ (a : ℝ) (u : List (V3 Num)), 0 ≤ a ∧ (w.computeU pts o).1 = .ok u ∧ ∀ i : ℕ, pts[i]? = some w.r_hub →
      u[i]? = some (V3.fin (V3.smul (10 * (1 - a)) w.e_shaft_g)) := by
  intro w0 w
  have hsh : w0.e_shaft_g = ⟨0,0,1⟩ := by
    have := (C05_last_yaw mini 50 ⟨1,2,3⟩ ⟨0,0,1⟩ ⟨0,1,0⟩ ⟨0,0,10⟩ none false "VC" [.chi (some 0)]).2.1
    rw [show w0.e_shaft_g = _ from this]
    ext <;> simp [turn, lastYaw, V3.cross, V3.dot]
  obtain ⟨b1, b2, b3, b4, b5, b6, b7, b8, b9, b10, b11, b12, b13, b14⟩ := loading_frame mini w0 { Ct := some ([8/9, 8/9].map .fin), Lambda := some .pinf, nCyl := some 1 }
  have hpi := Real.pi_gt_three
  have hap : (8:ℝ)/9 * π * 10^2 / 800 / (4 * π * 800 * 50)^2 ≤ 1/8 := by
    have e : (8:ℝ)/9 * π * 10^2 / 800 / (4 * π * 800 * 50)^2 = (1/9) / (π * (4 * 800 * 50)^2) := by field_simp; norm_num
    rw [e, div_le_iff₀ (by positivity)]
    nlinarith
  have hap0 : 0 ≤ (8:ℝ)/9 * π * 10^2 / 800 / (4 * π * 800 * 50)^2 := by positivity
  obtain ⟨a, g, u, h1, h2, h3, h4, h5, h6, h7, h8⟩ := C81_momentum mini 50 ⟨1,2,3⟩ ⟨0,0,1⟩ ⟨0,1,0⟩ ⟨0,0,10⟩ none false "VC" default_orthonormal (by norm_num)
    [.chi (some 0)] 10 (by norm_num) [8/9, 8/9] (by simp) .pinf 800 (Or.inr ⟨rfl, rfl⟩) (by norm_num) (8/9) (by norm_num) (by unfold Ctc ac; norm_num)
    _ rfl (by nlinarith) pts o 0 (by
      change w0.U0_g = V3.smul 10 w0.e_shaft_g
      rw [hsh]
      ext <;> simp [w0, WT.run, WT.step, WT.setChi, WT.new, WT.updateYawPos]) (by
      subst ho
      refine ⟨rfl, rfl, rfl, rfl, ?_, ?_⟩
      · change w.Model = "VC"
        exact b14.trans rfl
      · change w.Ground = false
        exact b12.trans rfl) (by rw [ho]) (by
      rw [computeU_state]
      have : w.chi = some 0 := b13.trans rfl
      change some (usedChi w) = _
      unfold usedChi
      rw [this]) (by
      rw [show (0 : Num) = Num.fin 0 from rfl, Num.abs_fin, Num.lt_fin]; norm_num)
  refine ⟨a, u, ?_, h7, fun i hi => ?_⟩
  · by_contra hneg
    push Not at hneg
    nlinarith
  · have := h8 i 0 (by
      rw [show V3.smul 0 w.e_shaft_g = 0 by ext <;> simp]
      rw [show w.r_hub + 0 = w.r_hub by ext <;> simp]; exact hi)
    rw [this, h5]
    congr 3
    ring

end Wiz
