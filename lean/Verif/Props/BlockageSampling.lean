import Verif.Props.BlockageSetup
import Verif.Props.TurbineState

/-! # C90, C91: success of `setupModel`, the doublet model, sampling functions -/
namespace Wiz
open Spec Real Classical

/-- C90: with the doublet model the matching does nothing: at the rotor centre of an unyawed rotor the velocity
is the free stream, whatever the data. -/
theorem C90_doublet_free_stream (mini : (ℝ → Num) → ℝ) (ad : OutputAD) (c : BlockageCase) (U0 : ℝ) (vc : OutputVC)
    (h : setupModel mini (some ad) c true U0 none "VD" = .ok vc) (hH : 9 ≤ ad.case.HH) (hY : ad.case.Yaw = 0) :
    vc.fU [⟨0, 0, 0⟩] = .ok [V3.fin ⟨0, 0, U0⟩] := by
  obtain ⟨uc, -, h2⟩ := hub_unyawed mini ad c U0 "VD" vc h hH hY
  have := h2 0 0 (fun _ => rfl) (by
    intro chi hchi
    unfold tangPart
    rw [if_neg hchi, if_neg (by decide), if_neg (by decide), if_pos rfl, List.map_cons, List.map_nil]
    unfold doubletLineU
    simp only
    rw [if_pos (by simp; norm_num)]
    rfl)
  rw [this]
  congr 3
  ext <;> simp

theorem linspace_nonneg (n : ℕ) : ∀ r ∈ linspace 0 1 n, 0 ≤ r := by
  intro r hr
  unfold linspace at hr
  obtain ⟨k, -, rfl⟩ := List.mem_map.mp hr
  have h1 : (0:ℝ) ≤ (k:ℝ) := Nat.cast_nonneg k
  have h2 : (0:ℝ) ≤ ((n - 1 : ℕ) : ℝ) := Nat.cast_nonneg _
  have h3 : (0:ℝ) ≤ 1 - 0 := by norm_num
  by_cases hn : n = 0
  · subst hn; simp at hr
  · have : (1:ℝ) ≤ n := by exact_mod_cast Nat.one_le_iff_ne_zero.mpr hn
    have : (0:ℝ) ≤ n - 1 := by linarith
    positivity

/-- C90: at a tip-speed ratio of at least 30 the set-up without matching always succeeds and its strength is that
of momentum theory for the thrust coefficient of the case (up to the high-thrust limit, with the small swirl
correction of the code); with matching it succeeds if and only if the centre velocity can be read. -/
theorem C90_setup (mini : (ℝ → Num) → ℝ) (AD : Option OutputAD) (c : BlockageCase) (U0 : ℝ) (M : String) (hU : U0 ≠ 0) (l : ℝ) :
    let k := match AD with | some ad => ad.case | none => c
    k.Lambda = .fin l → 30 ≤ l →
    let apc := k.CT * π * U0^2 / (l * |U0|) / (4 * π * (l * |U0|))^2
    (∃ vc, setupModel mini AD c false U0 none M = .ok vc ∧
      (k.CT ≤ Ctc → 0 ≤ 1 - k.CT * (1 + apc) → vc.WT.gamma_t = some [.fin (-|U0| * (1 - √(1 - k.CT * (1 + apc))))])) ∧
    ((∃ vc, setupModel mini AD c true U0 none M = .ok vc) ↔ ∃ ad uc, AD = some ad ∧ ad.fCenter = .ok uc) := by
  intro k hl h30 apc
  have hk : theCase AD c = k := rfl
  -- the loading
  let w0 : WT := ((WT.new 1 ⟨0, k.HH * 1, 0⟩ ⟨0, 0, 1⟩ ⟨0, 1, 0⟩ ⟨0, 0, 10⟩ (some .pinf) (decide (k.HH < 9)) M).updateWind
    ⟨U0 * sin (k.Yaw * π / 180), 0, U0 * cos (k.Yaw * π / 180)⟩).setChi (some (blockageChi k.Yaw k.CT))
  have hnorm : V3.norm w0.U0_g = |U0| := by
    show √((U0 * sin (k.Yaw * π / 180))^2 + 0^2 + (U0 * cos (k.Yaw * π / 180))^2) = _
    rw [show (U0 * sin (k.Yaw * π / 180))^2 + 0^2 + (U0 * cos (k.Yaw * π / 180))^2 = U0^2 * (sin (k.Yaw * π / 180)^2 + cos (k.Yaw * π / 180)^2) by ring,
      sin_sq_add_cos_sq, mul_one, sqrt_sq_eq_abs]
  have hUp : 0 < |U0| := abs_pos.mpr hU
  have hw0 : w0.U0_g ≠ 0 := by
    intro h
    rw [h] at hnorm
    have : V3.norm (0 : V3 ℝ) = 0 := by simp [V3.norm]
    rw [this] at hnorm
    linarith
  have hlt : ¬ ((Num.fin l) < .fin 30) := by rw [Num.lt_fin]; linarith
  have hCt : ctConstCutoff k.CT 0 (linspace 0 1 100) none = ((linspace 0 1 100).map fun _ => k.CT).map .fin := by
    unfold ctConstCutoff
    rw [List.map_map]
    apply List.map_congr_left
    intro r hr
    have := linspace_nonneg 100 r hr
    unfold ctConstCutoff1
    simp only [if_neg (not_lt.mpr this), Function.comp]
  have hne : ((linspace 0 1 100).map fun _ => k.CT) ≠ [] := by
    intro h
    have := congrArg List.length h
    rw [List.length_map, linspace_length] at this
    simp at this
  have hmean : ((linspace 0 1 100).map fun _ => k.CT).sum / (((linspace 0 1 100).map fun _ => k.CT).length : ℝ) = k.CT := by
    rw [List.map_const', List.sum_replicate, List.length_replicate, linspace_length]
    norm_num
  obtain ⟨r1, r2, -⟩ := C34_update_loading mini w0 one_pos hw0 _ hne (.fin l) (l * V3.norm w0.U0_g / w0.R)
    (Or.inl ⟨l, rfl, rfl⟩) (by
      have : w0.R = 1 := rfl
      rw [this, hnorm]
      have : l * |U0| / 1 * 1 / |U0| = l := by field_simp
      rw [this]; linarith) (some ((linspace 0 1 100).map fun r => r * 1)) none
  rw [hmean, hnorm, show w0.R = 1 from rfl] at r2
  have hb : ∃ w, blockageTurbine mini k U0 M = .ok w ∧
      (k.CT ≤ Ctc → 0 ≤ 1 - k.CT * (1 + apc) → w.gamma_t = some [.fin (-|U0| * (1 - √(1 - k.CT * (1 + apc))))]) := by
    unfold blockageTurbine
    simp only [hl, if_neg hlt, hCt]
    change ∃ w, (match (w0.updateLoading mini _).1 with | .error e => _ | .ok () => .ok (w0.updateLoading mini _).2 : Except String WT) = .ok w ∧ _
    rw [r1]
    refine ⟨_, rfl, ?_⟩
    have : k.CT * π * |U0|^2 / (l * |U0| / 1) / (4 * π * (l * |U0| / 1) * 1)^2 = apc := by
      simp only [apc, div_one, mul_one, sq_abs]
    rw [this] at r2
    exact r2
  obtain ⟨w, hw, hg⟩ := hb
  constructor
  · refine ⟨⟨w, k.HH * 1, k.Horizontal⟩, ?_, hg⟩
    unfold setupModel
    simp only
    change (match blockageTurbine mini k U0 M with | .error e => _ | .ok w => _ : Except String OutputVC) = _
    rw [hw]
    rfl
  · constructor
    · rintro ⟨vc, h⟩
      obtain ⟨-, -, -, -, hm, -⟩ := setup_spec mini AD c true U0 none M vc h
      obtain ⟨ad, uc, h1, h2, -⟩ := hm rfl rfl
      exact ⟨ad, uc, h1, h2⟩
    · rintro ⟨ad, uc, rfl, h2⟩
      unfold setupModel
      simp only
      change ∃ vc, (match blockageTurbine mini k U0 M with | .error e => _ | .ok w => _ : Except String OutputVC) = .ok vc
      rw [hw]
      simp only [if_true, h2]
      exact ⟨_, rfl⟩

/-- C90: the matching claim for every model is false: the doublet model returns 1 at the centre of `exampleAD`,
where the data says 0.7. -/
theorem C90_doublet_refuted (mini : (ℝ → Num) → ℝ) : ¬ ∀ (ad : OutputAD) (c : BlockageCase) (vc : OutputVC),
    setupModel mini (some ad) c true 1 none "VD" = .ok vc → 9 ≤ ad.case.HH → ad.case.Yaw = 0 →
    ∃ (uc : ℝ) (v : V3 Num), ad.fCenter = .ok uc ∧ vc.fU [⟨0, 0, 0⟩] = .ok [v] ∧ v.z = .fin uc := by
  intro hall
  have hc : exampleAD.fCenter = .ok 0.7 :=
    C89_center exampleAD 1 1 0.7 [0.8, 0.7, 0.8] (by simp [exampleAD]; norm_num) (by simp [exampleAD]) (by simp [exampleAD]) (by simp [exampleAD]) rfl rfl
  obtain ⟨vc, hvc⟩ := (C90_setup mini (some exampleAD) exampleAD.case 1 "VD" one_ne_zero 9999 rfl (by norm_num)).2.mpr ⟨_, _, rfl, hc⟩
  obtain ⟨uc, v, h1, h2, h3⟩ := hall exampleAD exampleAD.case vc hvc (by simp [exampleAD]; norm_num) rfl
  rw [C90_doublet_free_stream mini exampleAD exampleAD.case 1 vc hvc (by simp [exampleAD]; norm_num) rfl] at h2
  have h2 := Except.ok.inj h2
  simp only [List.cons.injEq, and_true] at h2
  rw [← h2] at h3
  rw [hc] at h1
  have h1 := Except.ok.inj h1
  have h3 : (1:ℝ) = uc := Num.fin.inj h3
  rw [← h3] at h1
  norm_num at h1

/-- the hypotheses of `C90_match` on the plane `exampleAD` -/
example (mini : (ℝ → Num) → ℝ) : ∃ vc v, setupModel mini (some exampleAD) exampleAD.case true 1 none "VC" = .ok vc ∧
    vc.fU [⟨0, 0, 0⟩] = .ok [v] ∧ v.z = .fin 0.7 := by
  have hc : exampleAD.fCenter = .ok 0.7 :=
    C89_center exampleAD 1 1 0.7 [0.8, 0.7, 0.8] (by simp [exampleAD]; norm_num) (by simp [exampleAD]) (by simp [exampleAD]) (by simp [exampleAD]) rfl rfl
  obtain ⟨vc, hvc⟩ := (C90_setup mini (some exampleAD) exampleAD.case 1 "VC" one_ne_zero 9999 rfl (by norm_num)).2.mpr ⟨_, _, rfl, hc⟩
  obtain ⟨uc, v, h1, h2, h3⟩ := C90_match mini exampleAD exampleAD.case 1 vc hvc (Or.inl (by simp [exampleAD]; norm_num)) (by simp [exampleAD])
  refine ⟨vc, v, hvc, h2, ?_⟩
  rw [hc] at h1
  rw [h3, ← Except.ok.inj h1]

/-! ### C91 -/

/-- C91: the sampling functions of the model are `fU` at the hub-relative points of the plane, line or radius:
`fHorz` at `(x,0,z)` (components along `x` and `z`), `fVert` at `(0,y,z)` (along `y` and `z`), `fAxial` at `(0,0,z)`,
`fRadial` at `(r,0,z0)` on a horizontal and `(0,r,z0)` on a vertical plane. -/
theorem C91_sampling (vc : OutputVC) :
    (∀ vx vz, vc.fHorz vx vz = (vc.fU (vz.flatMap fun z => vx.map fun x => ⟨x, 0, z⟩)).map fun u =>
      List.zipWith (fun (q : V3 ℝ) (v : V3 Num) => (q.x, q.z, v.x, v.z)) (vz.flatMap fun z => vx.map fun x => ⟨x, 0, z⟩) u) ∧
    (∀ vy vz, vc.fVert vy vz = (vc.fU (vz.flatMap fun z => vy.map fun y => ⟨0, y, z⟩)).map fun u =>
      List.zipWith (fun (q : V3 ℝ) (v : V3 Num) => (q.y, q.z, v.y, v.z)) (vz.flatMap fun z => vy.map fun y => ⟨0, y, z⟩) u) ∧
    (∀ vz, vc.fAxial vz = vc.fU (vz.map fun z => ⟨0, 0, z⟩)) ∧
    (∀ vr z0, vc.fRadial vr z0 = vc.fU (vr.map fun r => if vc.Horizontal then ⟨r, 0, z0⟩ else ⟨0, r, z0⟩)) := by
  refine ⟨?_, ?_, ?_, ?_⟩
  · intro vx vz
    unfold OutputVC.fHorz OutputVC.fU meshgrid
    simp only [List.map_flatMap, List.map_map, Function.comp_def, mul_zero, zero_add]
    generalize (vc.WT.computeU _ plainOpts).1 = e
    cases e with
    | error e => rfl
    | ok u =>
      simp only [Except.map]
      congr 1
      have : (vz.flatMap fun z => vx.map fun x => (⟨x, 0, z⟩ : V3 ℝ)) = (vz.flatMap fun b => vx.map fun a => (a, b)).map fun q => ⟨q.1, 0, q.2⟩ := by
        simp only [List.map_flatMap, List.map_map, Function.comp_def]
      rw [this, List.zipWith_map_left]
  · intro vy vz
    unfold OutputVC.fVert OutputVC.fU meshgrid
    simp only [List.map_flatMap, List.map_map, Function.comp_def, mul_zero]
    generalize (vc.WT.computeU _ plainOpts).1 = e
    cases e with
    | error e => rfl
    | ok u =>
      simp only [Except.map]
      congr 1
      have : (vz.flatMap fun z => vy.map fun y => (⟨0, y, z⟩ : V3 ℝ)) = (vz.flatMap fun b => vy.map fun a => (a, b)).map fun q => ⟨0, q.1, q.2⟩ := by
        simp only [List.map_flatMap, List.map_map, Function.comp_def]
      rw [this, List.zipWith_map_left]
  · intro vz
    unfold OutputVC.fAxial OutputVC.fU
    simp only [List.map_map, Function.comp_def, mul_zero]
  · intro vr z0
    unfold OutputVC.fRadial OutputVC.fU
    cases vc.Horizontal <;> simp only [Bool.false_eq_true, if_false, if_true, List.map_map, Function.comp_def, mul_zero, zero_add]

theorem updateLoading_position (mini : (ℝ → Num) → ℝ) (w : WT) (p : V3 ℝ) (a : LoadArgs) :
    ((w.updatePosition p).updateLoading mini a).1 = (w.updateLoading mini a).1 ∧
    ((w.updatePosition p).updateLoading mini a).2 = (w.updateLoading mini a).2.updatePosition p := by
  unfold WT.updateLoading
  have e1 : (w.updatePosition p).R = w.R := rfl
  have e2 : (w.updatePosition p).U0_g = w.U0_g := rfl
  have e3 : (w.updatePosition p).Lambda = w.Lambda := rfl
  simp only [e1, e2, e3]
  cases reinterp w.R a with
  | error e => exact ⟨rfl, rfl⟩
  | ok q =>
    obtain ⟨r, Ct, Gamma⟩ := q
    simp only
    have key : ∀ Lam : Num, let f := fun w : WT => (match loadingSolve mini w.R (.fin (V3.norm w.U0_g)) (Lam * .fin (V3.norm w.U0_g) / .fin w.R) r Ct Gamma a.gamma_t_Ct with
        | .error e => (.error e, w)
        | .ok (gt, gl, Gr) => (.ok (), { w with gamma_t := some gt, gamma_l := gl, Gamma_r := Gr, Lambda := some Lam, r := r, Ct := Ct }) : Except String Unit × WT)
        (f (w.updatePosition p)).1 = (f w).1 ∧ (f (w.updatePosition p)).2 = (f w).2.updatePosition p := by
      intro Lam f
      simp only [f, e1, e2]
      cases loadingSolve mini w.R (.fin (V3.norm w.U0_g)) (Lam * .fin (V3.norm w.U0_g) / .fin w.R) r Ct Gamma a.gamma_t_Ct with
      | error e => exact ⟨rfl, rfl⟩
      | ok v => exact ⟨rfl, rfl⟩
    cases hL : a.Lambda with
    | some l => exact key l
    | none =>
      cases hW : w.Lambda with
      | none => exact ⟨rfl, rfl⟩
      | some l => exact key l

/-- C91: without ground effect (hub at 9 radii or more) the velocities sampled by the model do not depend on the hub
height of the case, for every option of the set-up and every hub-relative point. -/
theorem C91_height (mini : (ℝ → Num) → ℝ) (AD : Option OutputAD) (c : BlockageCase) (mt : Bool) (U0 : ℝ) (g : Option Num) (M : String) (H : ℝ)
    (hH : 9 ≤ H) (h9 : 9 ≤ (match AD with | some ad => ad.case | none => c).HH) (pts : List (V3 ℝ)) :
    (setupModel mini (AD.map fun ad => { ad with case := { ad.case with HH := H } }) { c with HH := H } mt U0 g M).map (fun vc => vc.fU pts) =
      (setupModel mini AD c mt U0 g M).map (fun vc => vc.fU pts) := by
  have hk : theCase (AD.map fun ad => { ad with case := { ad.case with HH := H } }) { c with HH := H } = { theCase AD c with HH := H } := by
    cases AD <;> rfl
  have hb : blockageTurbine mini { theCase AD c with HH := H } U0 M = (blockageTurbine mini (theCase AD c) U0 M).map fun w => w.updatePosition ⟨0, H * 1, 0⟩ := by
    unfold blockageTurbine
    simp only
    have hg1 : (decide (H < 9)) = false := by simp [hH]
    have hg2 : (decide ((theCase AD c).HH < 9)) = false := decide_eq_false (not_lt.mpr h9)
    rw [hg1, hg2]
    have hw : ((WT.new 1 ⟨0, H * 1, 0⟩ ⟨0, 0, 1⟩ ⟨0, 1, 0⟩ ⟨0, 0, 10⟩ (some .pinf) false M).updateWind
        ⟨U0 * sin ((theCase AD c).Yaw * π / 180), 0, U0 * cos ((theCase AD c).Yaw * π / 180)⟩).setChi (some (blockageChi (theCase AD c).Yaw (theCase AD c).CT)) =
        (((WT.new 1 ⟨0, (theCase AD c).HH * 1, 0⟩ ⟨0, 0, 1⟩ ⟨0, 1, 0⟩ ⟨0, 0, 10⟩ (some .pinf) false M).updateWind
        ⟨U0 * sin ((theCase AD c).Yaw * π / 180), 0, U0 * cos ((theCase AD c).Yaw * π / 180)⟩).setChi (some (blockageChi (theCase AD c).Yaw (theCase AD c).CT))).updatePosition ⟨0, H * 1, 0⟩ := rfl
    rw [hw, (updateLoading_position mini _ _ _).1, (updateLoading_position mini _ _ _).2]
    generalize (WT.updateLoading mini _ _) = e
    obtain ⟨e1, e2⟩ := e
    cases e1 <;> rfl
  have hfU : ∀ (w : WT), w.Ground = false → ∀ (h : ℝ) (hz : Bool), w.r_hub = ⟨0, h, 0⟩ →
      (⟨w.updatePosition ⟨0, H * 1, 0⟩, H * 1, hz⟩ : OutputVC).fU pts = (⟨w, h, hz⟩ : OutputVC).fU pts := by
    intro w hG h hz hr
    unfold OutputVC.fU
    have := C12_translation w (pts.map fun p => ⟨p.x, p.y + h, p.z⟩) plainOpts ⟨0, H * 1 - h, 0⟩ hG
    rw [← this, hr, List.map_map]
    have e1 : (⟨0, h, 0⟩ : V3 ℝ) + ⟨0, H * 1 - h, 0⟩ = ⟨0, H * 1, 0⟩ := by ext <;> simp
    have e2 : (pts.map ((fun p : V3 ℝ => p + ⟨0, H * 1 - h, 0⟩) ∘ fun p => (⟨p.x, p.y + h, p.z⟩ : V3 ℝ))) = pts.map fun p => ⟨p.x, p.y + H * 1, p.z⟩ := by
      apply List.map_congr_left
      intro p _
      ext <;> simp
    rw [e1, e2]
  have hset : ∀ (w : WT) (x : Option (List Num)), ({ w.updatePosition ⟨0, H * 1, 0⟩ with gamma_t := x } : WT) = ({ w with gamma_t := x } : WT).updatePosition ⟨0, H * 1, 0⟩ := fun _ _ => rfl
  unfold setupModel
  simp only
  change (match blockageTurbine mini (theCase (AD.map fun ad => { ad with case := { ad.case with HH := H } }) { c with HH := H }) U0 M with | .error e => _ | .ok w => _ : Except String OutputVC).map _
    = (match blockageTurbine mini (theCase AD c) U0 M with | .error e => _ | .ok w => _ : Except String OutputVC).map _
  rw [hk, hb]
  cases hbt : blockageTurbine mini (theCase AD c) U0 M with
  | error e => rfl
  | ok w =>
    obtain ⟨hw, -⟩ := blockageTurbine_spec mini _ U0 M w hbt
    have hG : w.Ground = false := by rw [hw.ground]; exact decide_eq_false (not_lt.mpr h9)
    have hr : w.r_hub = ⟨0, (theCase AD c).HH * 1, 0⟩ := by rw [hw.hub, mul_one]
    have key : ∀ x : Option (List Num), (⟨{ w.updatePosition ⟨0, H * 1, 0⟩ with gamma_t := x }, H * 1, (theCase AD c).Horizontal⟩ : OutputVC).fU pts
        = (⟨{ w with gamma_t := x }, (theCase AD c).HH * 1, (theCase AD c).Horizontal⟩ : OutputVC).fU pts := by
      intro x; rw [hset]; exact hfU { w with gamma_t := x } hG _ _ hr
    simp only [Except.map]
    cases mt with
    | false =>
      simp only [Bool.false_eq_true, if_false]
      cases g with
      | none => cases AD <;> exact congrArg Except.ok (hfU w hG _ _ hr)
      | some x => cases AD <;> exact congrArg Except.ok (key _)
    | true =>
      simp only [if_true]
      cases AD with
      | none => rfl
      | some ad =>
        have hf : OutputAD.fCenter { ad with case := { ad.case with HH := H } } = ad.fCenter := rfl
        simp only [Option.map_some, hf]
        cases ad.fCenter with
        | error e => rfl
        | ok uc =>
          cases g with
          | none => exact congrArg Except.ok (key _)
          | some x => exact congrArg Except.ok (key _)

/-- C91: a case with a thrust coefficient above 1 is given an undefined skew angle, and the wake of the yawed rotor is
then the straight one: the velocities are those of a right cylinder, whatever the yaw angle (without ground effect, one
strength).  The same holds, as it should, without yaw. -/
theorem C91_straight (mini : (ℝ → Num) → ℝ) (AD : Option OutputAD) (c : BlockageCase) (mt : Bool) (U0 : ℝ) (g : Option Num) (vc : OutputVC)
    (h : setupModel mini AD c mt U0 g "VC" = .ok vc) (γ : ℝ) (hγ : vc.WT.gamma_t = some [.fin γ]) (pts : List (V3 ℝ)) :
    let k := match AD with | some ad => ad.case | none => c
    9 ≤ k.HH → (k.Yaw = 0 ∨ 1 < k.CT) →
    ∃ cs : List (V3 ℝ), vcTang pts (.fin γ) 1 0 = cs.map V3.fin ∧
      vc.fU pts = .ok (cs.map fun u => V3.fin ⟨u.x + U0 * sin (k.Yaw * π / 180), u.y, u.z + U0 * cos (k.Yaw * π / 180)⟩) := by
  intro k hH hY
  obtain ⟨hb, hhub, -⟩ := setup_spec mini AD c mt U0 g "VC" vc h
  have hk : theCase AD c = k := rfl
  rw [hk] at hb hhub
  have hG : vc.WT.Ground = false := by rw [hb.ground]; simpa using hH
  have hst : ¬ yawed (usedChi vc.WT) := by rw [usedChi_blockage hb]; exact blockage_straight _ _ hY
  obtain ⟨cs, hcs⟩ : ∃ cs : List (V3 ℝ), vcTang pts (.fin γ) 1 0 = cs.map V3.fin := by
    have := (C40_finite pts γ 1 one_pos).2.2
    generalize vcTang pts (.fin γ) 1 0 = l at this
    induction l with
    | nil => exact ⟨[], rfl⟩
    | cons v l ih =>
      obtain ⟨cs, h⟩ := ih (fun u hu => this u (by simp [hu]))
      obtain ⟨⟨x, hx⟩, ⟨y, hy⟩, ⟨z, hz⟩⟩ := this v (by simp)
      refine ⟨⟨x, y, z⟩ :: cs, ?_⟩
      rw [List.map_cons, ← h]
      congr 1
      ext <;> simp [hx, hy, hz]
  refine ⟨cs, hcs, ?_⟩
  have hid : ∀ v : V3 ℝ, transformT vc.WT.T_c2g v = v := by
    intro v; rw [hb.axes]; ext <;> simp [transformT, M3.ofCols]
  unfold OutputVC.fU
  rw [computeU_val, hγ]
  simp only
  rw [inducedC_single _ _ _ _ _ rfl]
  have hrel : relC vc.WT (pts.map fun p => ⟨p.x, p.y + vc.h_hub, p.z⟩) = pts := by
    simp only [relC, relPts, List.map_map, Function.comp_def, hid, hb.hub, hhub]
    conv_rhs => rw [← List.map_id pts]
    apply List.map_congr_left
    intro p _
    ext <;> simp
  have hgr : (plainOpts.ground.getD vc.WT.Ground) = false := hG
  rw [hrel, hgr]
  simp only [Bool.false_eq_true, if_false, overY]
  rw [singleBody_noLongi _ _ _ _ _ _ _ rfl]
  have hl : cs.length = pts.length := by
    have := congrArg List.length hcs
    rw [(C40_finite pts γ 1 one_pos).2.1, List.length_map] at this
    exact this.symm
  have hout : ∀ L : List (V3 ℝ), vc.WT.toGlobal false (L.map V3.fin) =
      L.map fun u => V3.fin ⟨u.x + U0 * sin (k.Yaw * π / 180), u.y, u.z + U0 * cos (k.Yaw * π / 180)⟩ := by
    intro L
    unfold WT.toGlobal
    rw [List.map_map]
    apply List.map_congr_left
    intro u _
    simp only [Function.comp, Bool.false_eq_true, if_false, transform_fin, hb.wind, hb.axes]
    ext <;> simp [M3.mulVec, M3.ofCols]
  have hnw : plainOpts.no_wake = false := rfl
  have hoi : plainOpts.only_ind = false := rfl
  have hta : plainOpts.tang = true := rfl
  simp only [hnw, hoi, hta, true_and, Bool.false_eq_true, if_false]
  by_cases h0 : γ = 0
  · rw [if_neg (by rw [h0]; simp [Num.Eqv])]
    simp only
    have hz := vcTang_zero pts 1 one_pos
    rw [h0] at hcs
    rw [hcs] at hz
    have : ((pts.map fun p => (⟨p.x, p.y + vc.h_hub, p.z⟩ : V3 ℝ)).map fun _ => (0 : V3 Num)) = cs.map V3.fin := by
      rw [hz, List.map_map]; rfl
    rw [this, hout]
  · rw [if_pos (by simpa [Num.Eqv] using h0)]
    have : tangPart (usedChi vc.WT) (usedChi vc.WT).tan (plainOpts.Model.getD vc.WT.Model) (.fin γ) vc.WT.R plainOpts.R_far_field pts = .ok (cs.map V3.fin) := by
      have hm : plainOpts.Model.getD vc.WT.Model = "VC" := hb.model
      unfold tangPart
      rw [if_neg hst, hm, if_pos rfl, hb.R, hcs]
    rw [this]
    simp only [accum]
    have hadd : addFields ((pts.map fun p => (⟨p.x, p.y + vc.h_hub, p.z⟩ : V3 ℝ)).map fun _ => (0 : V3 Num)) (cs.map V3.fin) = cs.map V3.fin := by
      unfold addFields
      apply List.ext_getElem?
      intro i
      rw [List.getElem?_zipWith]
      by_cases hi : i < pts.length
      · have hi' : i < cs.length := by rw [hl]; exact hi
        simp only [List.getElem?_map, List.getElem?_eq_getElem hi, List.getElem?_eq_getElem hi', Option.map_some]
        congr 1
        ext <;> simp
      · have hi' : cs.length ≤ i := by rw [hl]; exact not_lt.mp hi
        simp [List.getElem?_eq_none hi']
    rw [hadd, hout]

/-- a yawed overloaded case: the hypotheses hold -/
example (mini : (ℝ → Num) → ℝ) : ∃ vc γ, setupModel mini none ⟨1.2, 100, .fin 40, 30, true⟩ false 1 (some (.fin (-1))) "VC" = .ok vc ∧ vc.WT.gamma_t = some [.fin γ] := by
  obtain ⟨⟨vc, hvc, -⟩, -⟩ := C90_setup mini none ⟨1.2, 100, .fin 40, 30, true⟩ 1 "VC" one_ne_zero 40 rfl (by norm_num)
  obtain ⟨-, -, -, -, -, w, hw, -⟩ := setup_spec mini none _ false 1 none "VC" vc hvc
  refine ⟨⟨{ w with gamma_t := some [.fin (-1)] }, 100 * 1, true⟩, -1, ?_, rfl⟩
  · unfold setupModel
    simp only
    change (match blockageTurbine mini (theCase none _) 1 "VC" with | .error e => _ | .ok w => _ : Except String OutputVC) = _
    rw [hw]
    rfl

end Wiz
