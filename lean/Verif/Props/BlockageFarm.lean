import Verif.Model.Blockage
import Verif.Props.Momentum
import Verif.Props.WindFarm
import Verif.Props.WindFarmGrid

/-! # C92, C93: the farms built for comparisons -/
namespace Wiz
open Spec Real Classical

/-- what the loop of the farm functions does to one turbine, as a history of method calls -/
def farmCalls (f : Option (List Num → List Num)) (CT : Num) : List Op :=
  [.yaw 0, .wind ⟨1, 0, 0⟩, .loading { Ct := some [CT], gamma_t_Ct := f }]

theorem setTurbine_spec (mini : (ℝ → Num) → ℝ) (f : Option (List Num → List Num)) (w : WT) (CT : Num) (w' : WT)
    (h : setTurbine mini f w CT = .ok w') : w' = w.run mini (farmCalls f CT) := by
  unfold setTurbine at h
  simp only at h
  cases hr : (((w.updateYawPos 0).updateWind ⟨1, 0, 0⟩).updateLoading mini { Ct := some [CT], gamma_t_Ct := f }).1 with
  | error e => rw [hr] at h; exact nomatch h
  | ok u =>
    rw [hr] at h
    exact (Except.ok.inj h).symm

theorem setTurbines_ok (mini : (ℝ → Num) → ℝ) (f : Option (List Num → List Num)) : ∀ (ws : List WT) (cs : List Num),
    (∀ w ∈ ws, ∀ c ∈ cs, ∃ w', setTurbine mini f w c = .ok w') → ws.length ≤ cs.length →
    setTurbines mini f ws cs = .ok (List.zipWith (fun w c => w.run mini (farmCalls f c)) ws cs) := by
  intro ws
  induction ws with
  | nil => intro cs _ _; rfl
  | cons w ws ih =>
    intro cs h hl
    cases cs with
    | nil => simp at hl
    | cons c cs =>
      obtain ⟨w', hw'⟩ := h w (by simp) c (by simp)
      have hr := ih cs (fun w hw c hc => h w (by simp [hw]) c (by simp [hc])) (by simpa using hl)
      unfold setTurbines
      rw [hw']
      simp only
      rw [hr]
      simp only [List.zipWith_cons_cons]
      rw [setTurbine_spec mini f w c w' hw']

theorem updateLoading_default (mini : (ℝ → Num) → ℝ) (w : WT) (L : Num) (hL : w.Lambda = some L) (a : LoadArgs) (ha : a.Lambda = none) :
    w.updateLoading mini a = w.updateLoading mini { a with Lambda := some L } := by
  unfold WT.updateLoading
  simp only [ha, hL]
  rfl

/-- a turbine of the comparison farms: radius 1/2, shaft along `x`, `z` up, unlimited tip-speed ratio -/
theorem farm_load (mini : (ℝ → Num) → ℝ) (p : V3 ℝ) (G : Bool) (M : String) (f : Option (List Num → List Num)) (CT : ℝ) :
    (∃ w', setTurbine mini f (blockageWT p G M) (.fin CT) = .ok w') ∧
    let w := (blockageWT p G M).run mini (farmCalls f (.fin CT))
    (∀ φ, f = some φ → w.gamma_t = some (φ [.fin CT])) ∧
    (f = none → ∃ g, w.gamma_t = some [g]) ∧
    (f = none → CT ≤ Ctc → 0 ≤ 1 - CT * (1 + CT * π / 800 / (1600 * π)^2) →
      w.gamma_t = some [.fin (-(1 - √(1 - CT * (1 + CT * π / 800 / (1600 * π)^2))))]) := by
  let w0 := ((blockageWT p G M).updateYawPos 0).updateWind ⟨1, 0, 0⟩
  have hn : V3.norm w0.U0_g = 1 := by show √((1:ℝ)^2 + 0^2 + 0^2) = 1; simp
  have hU : w0.U0_g ≠ 0 := by
    intro h
    rw [h] at hn
    simp [V3.norm] at hn
  have hR : w0.R = 0.5 := rfl
  cases f with
  | none =>
    have hd := updateLoading_default mini w0 .pinf rfl { Ct := some [.fin CT] } rfl
    obtain ⟨r1, r2, r3, r4, -⟩ := C34_update_loading mini w0 (by rw [hR]; norm_num) hU [CT] (by simp) .pinf 800 (Or.inr ⟨rfl, rfl⟩)
      (by rw [hn, hR]; norm_num) none none
    simp only [List.map_cons, List.map_nil] at r1 r2 r3 r4
    rw [← hd] at r1 r2 r3 r4
    have hrun : (blockageWT p G M).run mini (farmCalls none (.fin CT)) = (w0.updateLoading mini { Ct := some [.fin CT] }).2 := rfl
    have hok : ∃ w', setTurbine mini none (blockageWT p G M) (.fin CT) = .ok w' := by
      refine ⟨(w0.updateLoading mini { Ct := some [.fin CT] }).2, ?_⟩
      unfold setTurbine
      change (match (w0.updateLoading mini { Ct := some [.fin CT] }).1 with | .error e => _ | .ok () => _ : Except String WT) = _
      rw [r1]
    refine ⟨hok, (fun _ h => by cases h), ?_, ?_⟩
    · intro _
      rw [hrun]
      rcases le_or_gt ([CT].sum / ([CT].length : ℝ)) Ctc with h | h
      · rcases le_or_gt 0 (1 - [CT].sum / ([CT].length : ℝ) * (1 + [CT].sum / ([CT].length : ℝ) * π * V3.norm w0.U0_g^2 / 800 / (4 * π * 800 * w0.R)^2)) with h' | h'
        · exact ⟨_, r2 h h'⟩
        · exact ⟨_, r3 h h'⟩
      · exact ⟨_, r4 h⟩
    · intro _ h1 h2
      rw [hrun]
      have e : [CT].sum / ([CT].length : ℝ) = CT := by simp
      have e2 : CT * π * (1:ℝ)^2 / 800 / (4 * π * 800 * 0.5)^2 = CT * π / 800 / (1600 * π)^2 := by
        congr 1
        · ring
        · ring
      rw [e, hn, hR, e2] at r2
      rw [r2 h1 h2]
      congr 3; ring
  | some φ =>
    have hv : w0.updateLoading mini { Ct := some [.fin CT], gamma_t_Ct := some φ } = (.ok (), { w0 with gamma_t := some (φ [npMean [.fin CT]]), gamma_l := none, Gamma_r := none, Lambda := some .pinf, r := some [0.995 * w0.R], Ct := some [npMean [.fin CT]] }) := rfl
    have hm : npMean [Num.fin CT] = .fin CT := by
      have := npMean_fin [CT] (by simp)
      simpa using this
    have hrun : (blockageWT p G M).run mini (farmCalls (some φ) (.fin CT)) = (w0.updateLoading mini { Ct := some [.fin CT], gamma_t_Ct := some φ }).2 := rfl
    refine ⟨?_, ?_, (fun h => by cases h), (fun h => by cases h)⟩
    · refine ⟨(w0.updateLoading mini { Ct := some [.fin CT], gamma_t_Ct := some φ }).2, ?_⟩
      unfold setTurbine
      change (match (w0.updateLoading mini { Ct := some [.fin CT], gamma_t_Ct := some φ }).1 with | .error e => .error e | .ok () => .ok _ : Except String WT) = _
      rw [hv]
    · intro φ' h
      obtain rfl := Option.some.inj h
      rw [hrun, hv]
      show some (φ [npMean [.fin CT]]) = _
      rw [hm]

theorem ravel_get (nx ny i j : ℕ) (hi : i < ny) (hj : j < nx) (CTs : ℕ → ℕ → Num) :
    ((List.range ny).flatMap fun i => (List.range nx).map fun j => CTs j i)[i * nx + j]? = some (CTs j i) := by
  have : ((List.range ny).flatMap fun i => (List.range nx).map fun j => CTs j i) = (cells nx ny).map fun q => CTs q.2 q.1 := by
    unfold cells
    simp only [List.map_flatMap, List.map_map, Function.comp_def]
  rw [this, List.getElem?_map, cells_get nx ny i j hi hj]
  rfl

theorem ravel_length (nx ny : ℕ) (CTs : ℕ → ℕ → Num) :
    ((List.range ny).flatMap fun i => (List.range nx).map fun j => CTs j i).length = ny * nx := by
  simp [List.length_flatMap]

/-- C92: `VCFarmFromFloris` for an array of `nx × ny` (real) thrust coefficients, both positive: the farm has `ny·nx`
turbines of radius 1/2; number `i·nx+j` stands at `(i·S, (j-⌊nx/2⌋)·S, HH)`, faces the wind `(1,0,0)`, has ground
effect if the hub height is below 10, and is what a new turbine becomes when it is given yaw 0, that wind and the
thrust coefficient in row `j`, column `i` of the array.  Its strength is that of momentum theory, or the given function
of the thrust coefficient. -/
theorem C92_floris (mini : (ℝ → Num) → ℝ) (nx ny : ℕ) (hx : 0 < nx) (hy : 0 < ny) (CT : ℕ → ℕ → ℝ) (HH S : ℝ)
    (f : Option (List Num → List Num)) (M : String) :
    ∃ ws, vcFarmFromFloris mini nx ny (fun j i => .fin (CT j i)) HH S f M = .ok ws ∧ ws.length = ny * nx ∧
      ∀ i j : ℕ, i < ny → j < nx → ∃ w, ws[i * nx + j]? = some w ∧
        w = (WT.new 0.5 ⟨i * S, ((j : ℝ) - ((nx / 2 : ℕ) : ℝ)) * S, HH⟩ ⟨1, 0, 0⟩ ⟨0, 0, 1⟩ ⟨0, 0, 10⟩ (some .pinf) (decide (HH < 10)) M).run mini
          [.yaw 0, .wind ⟨1, 0, 0⟩, .loading { Ct := some [.fin (CT j i)], gamma_t_Ct := f }] ∧
        (∀ φ, f = some φ → w.gamma_t = some (φ [.fin (CT j i)])) ∧
        (f = none → CT j i ≤ Ctc → 0 ≤ 1 - CT j i * (1 + CT j i * π / 800 / (1600 * π)^2) →
          w.gamma_t = some [.fin (-(1 - √(1 - CT j i * (1 + CT j i * π / 800 / (1600 * π)^2))))]) := by
  obtain ⟨x, y, z, hg, hlx, hly, hlz, hpos⟩ := C22_positions nx ny S S HH false
  simp only [Bool.false_eq_true, if_false] at hlx
  have hp : 0 < ny * nx := Nat.mul_pos hy hx
  unfold vcFarmFromFloris
  rw [hg]
  simp only
  cases y with
  | nil => rw [hlx] at hly; simp at hly; omega
  | cons y0 ys =>
    have hy0 : y0 = HH := by
      have := (hpos 0 0 hy hx).1.2.1
      simpa using this
    subst hy0
    simp only
    generalize hWF : List.zipWith (fun a (yz : ℝ × ℝ) => blockageWT ⟨a, yz.1, yz.2⟩ (decide (y0 < 10)) M) z (List.zip x (y0 :: ys)) = WF
    have hWl : WF.length = ny * nx := by
      rw [← hWF, List.length_zipWith, List.length_zip, hlz, hly, hlx]; simp
    have hall : ∀ w ∈ WF, ∃ p, w = blockageWT p (decide (y0 < 10)) M := by
      intro w hw
      rw [← hWF] at hw
      obtain ⟨i, hi, rfl⟩ := List.mem_iff_getElem.mp hw
      rw [List.getElem_zipWith]
      exact ⟨_, rfl⟩
    generalize hC : ((List.range ny).flatMap fun i => (List.range nx).map fun j => Num.fin (CT j i)) = C
    have hCl : C.length = ny * nx := by rw [← hC]; exact ravel_length nx ny (fun j i => .fin (CT j i))
    have hCf : ∀ c ∈ C, ∃ a, c = Num.fin a := by
      intro c hc
      rw [← hC] at hc
      obtain ⟨i, -, hc⟩ := List.mem_flatMap.mp hc
      obtain ⟨j, -, rfl⟩ := List.mem_map.mp hc
      exact ⟨_, rfl⟩
    rw [setTurbines_ok mini f WF C (by
      intro w hw c hc
      obtain ⟨p, rfl⟩ := hall w hw
      obtain ⟨a, rfl⟩ := hCf c hc
      exact (farm_load mini p _ M f a).1) (by rw [hWl, hCl])]
    refine ⟨_, rfl, by rw [List.length_zipWith, hWl, hCl]; simp, ?_⟩
    intro i j hi hj
    obtain ⟨⟨px, py, pz⟩, -⟩ := hpos i j hi hj
    have hw : WF[i * nx + j]? = some (blockageWT ⟨i * S, ((j : ℝ) - ((nx / 2 : ℕ) : ℝ)) * S, y0⟩ (decide (y0 < 10)) M) := by
      rw [← hWF, List.getElem?_zipWith, pz]
      have hz : (List.zip x (y0 :: ys))[i * nx + j]? = some (((j : ℝ) - ((nx / 2 : ℕ) : ℝ)) * S, y0) := by
        rw [List.getElem?_zip_eq_some]; exact ⟨px, py⟩
      rw [hz]
    have hc : C[i * nx + j]? = some (.fin (CT j i)) := by
      rw [← hC]; exact ravel_get nx ny i j hi hj (fun j i => .fin (CT j i))
    obtain ⟨-, g1, -, g2⟩ := farm_load mini ⟨i * S, ((j : ℝ) - ((nx / 2 : ℕ) : ℝ)) * S, y0⟩ (decide (y0 < 10)) M f (CT j i)
    refine ⟨_, ?_, rfl, g1, g2⟩
    rw [List.getElem?_zipWith, hw, hc]
    rfl

/-- C92: without turbines (`nx` or `ny` zero) it raises an `IndexError`. -/
theorem C92_empty (mini : (ℝ → Num) → ℝ) (nx ny : ℕ) (h : nx * ny = 0) (CTs : ℕ → ℕ → Num) (HH S : ℝ)
    (f : Option (List Num → List Num)) (M : String) : vcFarmFromFloris mini nx ny CTs HH S f M = .error "IndexError" := by
  obtain ⟨x, y, z, hg, hlx, hly, hlz, -⟩ := C22_positions nx ny S S HH false
  simp only [Bool.false_eq_true, if_false] at hlx
  unfold vcFarmFromFloris
  rw [hg]
  have hy : y = [] := by
    apply List.eq_nil_of_length_eq_zero
    rw [hly, hlx, Nat.mul_comm]; exact h
  subst hy
  rfl

/-- reading a turbine of a fresh farm -/
theorem fresh_get (l : List WT) (d : WT) (t : ℕ) (w : WT) (h : l[t]? = some w) : (freshFarm l d).2.get t = w := by
  unfold freshFarm World.get World.hub
  simp only [List.getD_eq_getElem?_getD, h, Option.getD_some]

/-- C92: the velocity field of the farm is the sum over its turbines of what each induces on its own, plus the free
stream: for a farm of `n` turbines that share nothing. -/
theorem C92_field (ws : List WT) (d : WT) (pts : List (V3 ℝ)) (o : Opts) (U : V3 ℝ) (u : List (V3 Num))
    (h : (farmVelocity (freshFarm ws d).1 (freshFarm ws d).2 pts o (some U)).1 = .ok u) :
    u.length = pts.length ∧ ∀ i < pts.length,
      u.getD i 0 = (ws.map fun w => match (w.computeU pts { o with only_ind := true }).1 with
        | .ok v => v.getD i 0
        | .error _ => 0).sum + V3.fin U := by
  obtain ⟨h1, h2⟩ := C18_sum _ _ pts o (some U) u h
  refine ⟨h1, fun i hi => ?_⟩
  rw [h2 i hi]
  congr 2
  show ((List.range ws.length).map PyObj.turbine).map _ = _
  rw [List.map_map]
  apply List.ext_getElem?
  intro t
  rw [List.getElem?_map, List.getElem?_map]
  by_cases ht : t < ws.length
  · rw [List.getElem?_eq_getElem ht, List.getElem?_range ht, Option.map_some, Option.map_some]
    show some (inducedAt _ pts o i (.turbine t)) = _
    unfold inducedAt inducedBy
    simp only
    rw [fresh_get ws d t ws[t] (List.getElem?_eq_getElem ht)]
    rfl
  · rw [List.getElem?_eq_none (by simpa using ht), List.getElem?_eq_none (by simpa using ht)]; rfl

/-- a 2×3 farm with Ct=0.8 everywhere has 6 turbines, the last one downstream -/
example (mini : (ℝ → Num) → ℝ) : ∃ ws w, vcFarmFromFloris mini 2 3 (fun _ _ => .fin 0.8) 1 5 none "VC" = .ok ws ∧ ws[5]? = some w := by
  obtain ⟨ws, h, -, h2⟩ := C92_floris mini 2 3 (by norm_num) (by norm_num) (fun _ _ => 0.8) 1 5 none "VC"
  obtain ⟨w, hw, -⟩ := h2 2 1 (by norm_num) (by norm_num)
  exact ⟨ws, w, h, hw⟩

/-- a turbine with one strength and the cylinder model, tangential vorticity only, can be evaluated -/
theorem vc_ok (w : WT) (g : Num) (hg : w.gamma_t = some [g]) (pts : List (V3 ℝ)) (o : Opts) (hr : o.root = false) (hl : o.longi = false)
    (hM : o.Model.getD w.Model = "VC") : ∃ u, (w.computeU pts o).1 = .ok u := by
  rw [computeU_val, hg]
  simp only
  rw [inducedC_single _ _ _ _ _ hr, hM]
  have hb : ∀ Y u, ∃ u', singleBody (usedChi w) (usedChi w).tan "VC" g w.gamma_l w.R o Y u = .ok u' := by
    intro Y u
    rw [singleBody_noLongi _ _ _ _ _ _ _ hl]
    by_cases h : o.tang = true ∧ ¬ Num.Eqv g 0
    · rw [if_pos h]
      unfold tangPart
      by_cases hy : yawed (usedChi w)
      · rw [if_pos hy, if_pos rfl]; exact ⟨_, rfl⟩
      · rw [if_neg hy, if_pos rfl]; exact ⟨_, rfl⟩
    · rw [if_neg h]; exact ⟨_, rfl⟩
  have ho : ∀ L u, ∃ u', overY (singleBody (usedChi w) (usedChi w).tan "VC" g w.gamma_l w.R o) u L = .ok u' := by
    intro L
    induction L with
    | nil => intro u; exact ⟨u, rfl⟩
    | cons Y L ih =>
      intro u
      obtain ⟨u', hu'⟩ := hb Y u
      unfold overY
      rw [hu']
      exact ih u'
  obtain ⟨u', hu'⟩ := ho (if o.ground.getD w.Ground then [relC w pts, mirrorPts (pts.map (transformT w.T_c2g)) (transformT w.T_c2g w.r_hub)] else [relC w pts])
    (pts.map fun _ => 0)
  rw [hu']
  exact ⟨_, rfl⟩

/-- C93: `ADFarm2VCFarm` for turbines at the given places and as many (real) thrust coefficients: it succeeds; along the
first probe line it returns 1 plus the sum, over the turbines, of the axial velocities each induces on its own once set to
yaw 0, wind `(1,0,0)` and its thrust coefficient, with ground effect for all of them exactly when the *last* turbine's hub
is lower than 10; along the second line the same if there are at least two turbines. -/
theorem C93_ad_farm (mini : (ℝ → Num) → ℝ) (pos : List (V3 ℝ)) (last : V3 ℝ) (hlast : pos.getLast? = some last) (CT : List ℝ)
    (hlen : CT.length = pos.length) (mid top : List (V3 ℝ)) :
    let turbines := List.zipWith (fun p c => (WT.new 0.5 p ⟨1, 0, 0⟩ ⟨0, 0, 1⟩ ⟨0, 0, 10⟩ (some .pinf) false "VC").run mini
      [.yaw 0, .wind ⟨1, 0, 0⟩, .loading { Ct := some [.fin c] }]) pos CT
    let o : Opts := { only_ind := true, ground := some (decide (last.z < 10)), Model := some "VC" }
    let axial := fun (pts : List (V3 ℝ)) (i : ℕ) => (turbines.map fun w => match (w.computeU pts o).1 with | .ok v => (v.getD i 0).x | .error _ => .nan).sum + .fin 1
    ∃ um ut, adFarm2VCFarm mini pos (CT.map .fin) mid top none = .ok (um, ut) ∧
      um.length = mid.length ∧ (∀ i < mid.length, um.getD i 0 = axial mid i) ∧
      (2 ≤ pos.length → ut.length = top.length ∧ ∀ i < top.length, ut.getD i 0 = axial top i) ∧
      (pos.length = 1 → ut = um.map fun u => u * 0) := by
  intro turbines o axial
  unfold adFarm2VCFarm
  simp only [hlast]
  have hset : setTurbines mini none (pos.map fun p => blockageWT p false "VC") (CT.map .fin) = .ok turbines := by
    rw [setTurbines_ok mini none _ _ (by
      intro w hw c hc
      obtain ⟨p, -, rfl⟩ := List.mem_map.mp hw
      obtain ⟨a, -, rfl⟩ := List.mem_map.mp hc
      exact (farm_load mini p _ "VC" none a).1) (by simp [hlen])]
    rw [List.zipWith_map]
    rfl
  rw [hset]
  simp only
  have hturb : ∀ w ∈ turbines, ∃ g, w.gamma_t = some [g] := by
    intro w hw
    obtain ⟨i, hi, rfl⟩ := List.mem_iff_getElem.mp hw
    simp only [turbines, List.getElem_zipWith]
    exact (farm_load mini _ false "VC" none _).2.2.1 rfl
  generalize hd : blockageWT 0 false "VC" = d
  generalize hoo : ({ ground := some (decide (last.z < 10)), Model := some "VC" } : Opts) = oo
  have ho : ({ oo with only_ind := true } : Opts) = o := by rw [← hoo]
  have hev : ∀ w ∈ turbines, ∀ pts, ∃ v, (w.computeU pts o).1 = .ok v := by
    intro w hw pts
    obtain ⟨g, hg⟩ := hturb w hw
    exact vc_ok w g hg pts o rfl rfl rfl
  have hsum : ∀ (s : World), (∀ t w, turbines[t]? = some w → ∀ pts, ((s.get t).computeU pts o).1 = (w.computeU pts o).1) → ∀ pts : List (V3 ℝ),
      ∃ u, (farmVelocity (freshFarm turbines d).1 s pts oo (some ⟨1, 0, 0⟩)).1 = .ok u ∧ u.length = pts.length ∧
        ∀ i < pts.length, (u.getD i 0).x = axial pts i := by
    intro s hs pts
    have hok : ∀ x ∈ (freshFarm turbines d).1, ∃ t v, x = .turbine t ∧ inducedBy s pts oo t = .ok v := by
      intro x hx
      obtain ⟨t, ht, rfl⟩ := List.mem_map.mp hx
      have ht : t < turbines.length := List.mem_range.mp ht
      obtain ⟨v, hv⟩ := hev turbines[t] (List.getElem_mem ht) pts
      refine ⟨t, v, rfl, ?_⟩
      unfold inducedBy
      rw [ho, hs t turbines[t] (List.getElem?_eq_getElem ht), hv]
    obtain ⟨u, hu⟩ := (C18_succeeds_iff _ s pts oo (some ⟨1, 0, 0⟩)).mpr hok
    obtain ⟨hl, hv⟩ := C18_sum _ s pts oo (some ⟨1, 0, 0⟩) u hu
    refine ⟨u, hu, hl, fun i hi => ?_⟩
    rw [hv i hi]
    show (((List.range turbines.length).map PyObj.turbine).map (inducedAt s pts oo i)).sum.x + .fin 1 = _
    show _ = (turbines.map fun w => match (w.computeU pts o).1 with | .ok v => (v.getD i 0).x | .error _ => .nan).sum + .fin 1
    congr 1
    have hx : ∀ l : List (V3 Num), l.sum.x = (l.map V3.x).sum := by
      intro l
      induction l with
      | nil => rfl
      | cons a l ih => rw [List.sum_cons, List.map_cons, List.sum_cons, ← ih]; rfl
    rw [hx, List.map_map, List.map_map]
    congr 1
    apply List.ext_getElem?
    intro t
    rw [List.getElem?_map, List.getElem?_map]
    by_cases ht : t < turbines.length
    · rw [List.getElem?_eq_getElem ht, List.getElem?_range ht, Option.map_some, Option.map_some]
      obtain ⟨v, hv⟩ := hev turbines[t] (List.getElem_mem ht) pts
      show some (inducedAt s pts oo i (.turbine t)).x = _
      unfold inducedAt inducedBy
      simp only
      rw [ho, hs t turbines[t] (List.getElem?_eq_getElem ht), hv]
    · rw [List.getElem?_eq_none (by simpa using ht), List.getElem?_eq_none (by simpa using ht)]; rfl
  have hs0 : ∀ t w, turbines[t]? = some w → ∀ pts, (((freshFarm turbines d).2.get t).computeU pts o).1 = (w.computeU pts o).1 := by
    intro t w hw pts
    rw [fresh_get turbines d t w hw]
  obtain ⟨um, hum, hml, hmv⟩ := hsum (freshFarm turbines d).2 hs0 mid
  rw [hum]
  simp only [List.length_map, hlen]
  have hmap : ∀ (u : List (V3 Num)) (i : ℕ), (u.map V3.x).getD i 0 = (u.getD i 0).x := by
    intro u i
    simp only [List.getD_eq_getElem?_getD, List.getElem?_map]
    cases u[i]? <;> rfl
  have hlt : turbines.length = pos.length := by simp [turbines, hlen]
  by_cases h2 : 1 < pos.length
  · rw [if_pos h2]
    -- the first evaluation only stores skew angles
    have hs1 : ∀ t w, turbines[t]? = some w → ∀ pts,
        (((farmVelocity (freshFarm turbines d).1 (freshFarm turbines d).2 mid oo (some ⟨1, 0, 0⟩)).2.get t).computeU pts o).1 = (w.computeU pts o).1 := by
      intro t w hw pts
      have hok : ∀ x ∈ (freshFarm turbines d).1, ∃ t v, x = .turbine t ∧ inducedBy (freshFarm turbines d).2 mid oo t = .ok v :=
        (C18_succeeds_iff _ _ mid oo (some ⟨1, 0, 0⟩)).mp ⟨um, hum⟩
      obtain ⟨u', hu', -⟩ := farmVelocity_ok _ _ mid oo (some ⟨1, 0, 0⟩) hok
      rw [hu']
      have := latch_induced (freshFarm turbines d).2 (freshFarm turbines d).1 pts oo t
      unfold inducedBy at this
      rw [ho] at this
      rw [this, hs0 t w hw]
    obtain ⟨ut, hut, htl, htv⟩ := hsum _ hs1 top
    rw [hut]
    refine ⟨_, _, rfl, by rw [List.length_map, hml], fun i hi => by rw [hmap, hmv i hi], fun _ => ⟨by rw [List.length_map, htl], fun i hi => by rw [hmap, htv i hi]⟩, ?_⟩
    intro h1; omega
  · rw [if_neg h2]
    refine ⟨_, _, rfl, by rw [List.length_map, hml], fun i hi => by rw [hmap, hmv i hi], ?_, ?_⟩
    · intro h; omega
    · intro _; rfl

/-- the loop leaves the turbines beyond the last thrust coefficient alone -/
theorem setTurbines_tail (mini : (ℝ → Num) → ℝ) (f : Option (List Num → List Num)) : ∀ (ws : List WT) (cs : List Num) (ws' : List WT),
    setTurbines mini f ws cs = .ok ws' → ws'.length = ws.length ∧ ∀ t, cs.length ≤ t → ws'[t]? = ws[t]? := by
  intro ws
  induction ws with
  | nil => intro cs ws' h; obtain rfl := Except.ok.inj h; simp
  | cons w ws ih =>
    intro cs ws' h
    cases cs with
    | nil => obtain rfl := Except.ok.inj h; simp
    | cons c cs =>
      unfold setTurbines at h
      cases h1 : setTurbine mini f w c with
      | error e => rw [h1] at h; exact nomatch h
      | ok w1 =>
        rw [h1] at h
        simp only at h
        cases h2 : setTurbines mini f ws cs with
        | error e => rw [h2] at h; exact nomatch h
        | ok ws1 =>
          rw [h2] at h
          obtain rfl := Except.ok.inj h
          obtain ⟨hl, ht⟩ := ih cs ws1 h2
          refine ⟨by simp [hl], fun t h => ?_⟩
          cases t with
          | zero => simp at h
          | succ t => simpa using ht t (by simpa using h)

/-- C93: with fewer thrust coefficients than turbines (or no turbine at all) `ADFarm2VCFarm` raises: the turbines left over
have no loading.  Nothing is returned for part of the farm. -/
theorem C93_missing (mini : (ℝ → Num) → ℝ) (pos : List (V3 ℝ)) (CTs : List Num) (h : pos = [] ∨ CTs.length < pos.length)
    (mid top : List (V3 ℝ)) (f : Option (List Num → List Num)) : ∃ e, adFarm2VCFarm mini pos CTs mid top f = .error e := by
  unfold adFarm2VCFarm
  simp only
  cases hl : pos.getLast? with
  | none => exact ⟨_, rfl⟩
  | some last =>
    have hne : pos ≠ [] := by rintro rfl; exact nomatch hl
    have h := h.resolve_left hne
    simp only
    cases hs : setTurbines mini f (pos.map fun p => blockageWT p false "VC") CTs with
    | error e => exact ⟨e, rfl⟩
    | ok ws =>
      obtain ⟨hlen, htail⟩ := setTurbines_tail mini f _ _ _ hs
      rw [List.length_map] at hlen
      simp only
      generalize hd : blockageWT 0 false "VC" = d
      generalize ({ ground := some (decide (last.z < 10)), Model := some "VC" } : Opts) = oo
      cases hv : (farmVelocity (freshFarm ws d).1 (freshFarm ws d).2 mid oo (some ⟨1, 0, 0⟩)).1 with
      | error e => exact ⟨e, rfl⟩
      | ok u =>
        exfalso
        have hok := (C18_succeeds_iff _ _ mid oo (some ⟨1, 0, 0⟩)).mp ⟨u, hv⟩
        obtain ⟨t, v, ht, hi⟩ := hok (.turbine CTs.length) (List.mem_map.mpr ⟨_, List.mem_range.mpr (by omega), rfl⟩)
        obtain rfl := PyObj.turbine.inj ht
        have hw : ws[CTs.length]? = some (blockageWT pos[CTs.length] false "VC") := by
          rw [htail _ le_rfl, List.getElem?_map, List.getElem?_eq_getElem h]; rfl
        unfold inducedBy at hi
        rw [fresh_get ws d _ _ hw, computeU_val] at hi
        exact nomatch hi

/-- two turbines 5 apart, the second near the ground: the evaluation succeeds; with a single thrust coefficient it does not -/
example (mini : (ℝ → Num) → ℝ) : (∃ um ut, adFarm2VCFarm mini [⟨0, 0, 20⟩, ⟨5, 0, 1⟩] [.fin 0.8, .fin 0.4] [⟨-1, 0, 1⟩] [⟨-1, 0, 2⟩] none = .ok (um, ut)) ∧
    ∃ e, adFarm2VCFarm mini [⟨0, 0, 20⟩, ⟨5, 0, 1⟩] [.fin 0.8] [⟨-1, 0, 1⟩] [⟨-1, 0, 2⟩] none = .error e := by
  refine ⟨?_, C93_missing mini _ _ (Or.inr (by simp)) _ _ _⟩
  obtain ⟨um, ut, h, -⟩ := C93_ad_farm mini [⟨0, 0, 20⟩, ⟨5, 0, 1⟩] ⟨5, 0, 1⟩ rfl [0.8, 0.4] rfl [⟨-1, 0, 1⟩] [⟨-1, 0, 2⟩]
  exact ⟨um, ut, h⟩

end Wiz
