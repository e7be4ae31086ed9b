import Verif.Props.Nearest
import Verif.Props.Momentum
import Verif.Props.VortexCylinder2
import Verif.Props.VortexCylinderSkewed
import Verif.Props.SelfSimilar

/-! # C90, C91: the turbine set up for a comparison with an actuator disk, and the sampling functions -/
namespace Wiz
open Spec Real Classical

/-- the axes of the turbine of `setupModel` are the global axes -/
theorem blockage_axes (w : WT) (hv : w.e_vert_g = ⟨0, 1, 0⟩) (h1 : w.T_wt2g = rotMatAxisAngle ⟨0, 1, 0⟩ 0)
    (h2 : w.T_c2wt = M3.ofCols (V3.cross ⟨0, 1, 0⟩ ⟨0, 0, 1⟩) ⟨0, 1, 0⟩ ⟨0, 0, 1⟩) :
    w.T_c2g = M3.ofCols ⟨1, 0, 0⟩ ⟨0, 1, 0⟩ ⟨0, 0, 1⟩ := by
  unfold WT.T_c2g
  rw [h1, h2]
  ext <;> simp [M3.mul, M3.ofCols, rotMatAxisAngle, V3.cross]

/-- what is common to all the turbines `setupModel` returns -/
structure BlockageTurbine (c : BlockageCase) (U0 : ℝ) (M : String) (w : WT) : Prop where
  R : w.R = 1
  hub : w.r_hub = ⟨0, c.HH, 0⟩
  axes : w.T_c2g = M3.ofCols ⟨1, 0, 0⟩ ⟨0, 1, 0⟩ ⟨0, 0, 1⟩
  wind : w.U0_g = ⟨U0 * sin (c.Yaw * π / 180), 0, U0 * cos (c.Yaw * π / 180)⟩
  chi : w.chi = some (blockageChi c.Yaw c.CT)
  ground : w.Ground = decide (c.HH < 9)
  model : w.Model = M

theorem blockageTurbine_spec (mini : (ℝ → Num) → ℝ) (c : BlockageCase) (U0 : ℝ) (M : String) (w : WT)
    (h : blockageTurbine mini c U0 M = .ok w) : BlockageTurbine c U0 M w ∧ ∃ g, w.gamma_t = some g := by
  unfold blockageTurbine at h
  simp only at h
  generalize hw0 : ((WT.new 1 ⟨0, c.HH * 1, 0⟩ ⟨0, 0, 1⟩ ⟨0, 1, 0⟩ ⟨0, 0, 10⟩ (some .pinf) (decide (c.HH < 9)) M).updateWind
    ⟨U0 * sin (c.Yaw * π / 180), 0, U0 * cos (c.Yaw * π / 180)⟩).setChi (some (blockageChi c.Yaw c.CT)) = w0 at h
  generalize ha : ({ r := _, Ct := _, Lambda := _, nCyl := _ } : LoadArgs) = a at h
  obtain ⟨b1, b2, b3, b4, b5, b6, b7, b8, b9, b10, b11, b12, b13, b14⟩ := loading_frame mini w0 a
  cases hr : (w0.updateLoading mini a).1 with
  | error e => rw [hr] at h; exact nomatch h
  | ok u =>
    rw [hr] at h
    have h := Except.ok.inj h
    subst h
    refine ⟨?_, updateLoading_ok mini w0 a hr⟩
    subst hw0
    constructor
    · rw [b1]; rfl
    · rw [b2]; simp [WT.setChi, WT.updateWind, WT.new, WT.updateYawPos]
    · apply blockage_axes
      · rw [b4]; rfl
      · rw [b9]; rfl
      · rw [b8]; rfl
    · rw [b11]; rfl
    · rw [b13]; rfl
    · rw [b12]; rfl
    · rw [b14]; rfl

/-- the case of a call of `setupModel` -/
def theCase (AD : Option OutputAD) (c : BlockageCase) : BlockageCase := match AD with | some ad => ad.case | none => c

theorem setup_spec (mini : (ℝ → Num) → ℝ) (AD : Option OutputAD) (c : BlockageCase) (mt : Bool) (U0 : ℝ) (g : Option Num) (M : String)
    (vc : OutputVC) (h : setupModel mini AD c mt U0 g M = .ok vc) :
    BlockageTurbine (theCase AD c) U0 M vc.WT ∧ vc.h_hub = (theCase AD c).HH ∧ vc.Horizontal = (theCase AD c).Horizontal ∧
    (∀ x, g = some x → vc.WT.gamma_t = some [x]) ∧
    (g = none → mt = true → ∃ ad uc, AD = some ad ∧ ad.fCenter = .ok uc ∧
      vc.WT.gamma_t = some [.fin (-(U0 * cos (ad.case.Yaw * π / 180) - uc) * 2)]) ∧
    ∃ w, blockageTurbine mini (theCase AD c) U0 M = .ok w ∧ (g = none → mt = false → vc.WT = w) := by
  unfold setupModel at h
  simp only at h
  change (match blockageTurbine mini (theCase AD c) U0 M with | .error e => _ | .ok w => _ : Except String OutputVC) = _ at h
  cases hb : blockageTurbine mini (theCase AD c) U0 M with
  | error e => rw [hb] at h; exact nomatch h
  | ok w =>
    rw [hb] at h
    simp only at h
    obtain ⟨hw, -⟩ := blockageTurbine_spec mini _ U0 M w hb
    have hset : ∀ g', BlockageTurbine (theCase AD c) U0 M { w with gamma_t := g' } := fun g' =>
      ⟨hw.R, hw.hub, hw.axes, hw.wind, hw.chi, hw.ground, hw.model⟩
    cases mt with
    | false =>
      simp only [Bool.false_eq_true, if_false] at h
      have h := Except.ok.inj h
      subst h
      refine ⟨?_, mul_one _, rfl, ?_, ?_, w, rfl, ?_⟩
      · cases g with
        | none => exact hw
        | some x => exact hset _
      · intro x hx; subst hx; rfl
      · intro _ h; cases h
      · intro hg _; subst hg; rfl
    | true =>
      simp only [if_true] at h
      cases AD with
      | none => exact nomatch h
      | some ad =>
        simp only at h
        cases hc : ad.fCenter with
        | error e => rw [hc] at h; exact nomatch h
        | ok uc =>
          rw [hc] at h
          have h := Except.ok.inj h
          subst h
          refine ⟨?_, mul_one _, rfl, ?_, ?_, w, rfl, ?_⟩
          · cases g with
            | none => exact hset _
            | some x => exact hset _
          · intro x hx; subst hx; rfl
          · intro hg _; subst hg
            refine ⟨ad, uc, rfl, hc, ?_⟩
            show some [_] = some [_]
            simp only [Num.fin_mul, Num.fin_sub, Num.fin_neg, Num.ofNat_def]
          · intro _ h; cases h

/-- `compute_u` at the hub for a single strength, in terms of the kernels at the hub and at its mirror image -/
theorem hub_eval (w : WT) (hT : w.T_c2g = M3.ofCols ⟨1, 0, 0⟩ ⟨0, 1, 0⟩ ⟨0, 0, 1⟩) (g : ℝ) (hg : w.gamma_t = some [.fin g])
    (a b : V3 ℝ) (ha : g ≠ 0 → tangPart (usedChi w) (Num.tan (usedChi w)) w.Model (.fin g) w.R 6 [0] = .ok [V3.fin a])
    (hb : g ≠ 0 → w.Ground = true → tangPart (usedChi w) (Num.tan (usedChi w)) w.Model (.fin g) w.R 6 [⟨0, 2 * w.r_hub.y, 0⟩] = .ok [V3.fin b])
    (hz : g = 0 → a = 0 ∧ b = 0) :
    (w.computeU [w.r_hub] plainOpts).1 = .ok [V3.fin (a + (if w.Ground then b else 0) + w.U0_g)] := by
  have hid : ∀ v : V3 ℝ, transformT w.T_c2g v = v := by
    intro v; rw [hT]; ext <;> simp [transformT, M3.ofCols]
  have hout : ∀ v : V3 ℝ, w.toGlobal false [V3.fin v] = [V3.fin (v + w.U0_g)] := by
    intro v
    unfold WT.toGlobal
    simp only [List.map_cons, List.map_nil, Bool.false_eq_true, if_false, transform_fin]
    congr 1
    rw [hT]
    ext <;> simp [M3.mulVec, M3.ofCols]
  have hrel : relC w [w.r_hub] = [0] := by
    simp only [relC, relPts, List.map_cons, List.map_nil, hid]
    congr 1; ext <;> simp
  have hmir : mirrorPts ([w.r_hub].map (transformT w.T_c2g)) (transformT w.T_c2g w.r_hub) = [⟨0, 2 * w.r_hub.y, 0⟩] := by
    simp only [mirrorPts, List.map_cons, List.map_nil, hid]
    congr 1; ext <;> simp
  rw [computeU_val, hg]
  simp only
  rw [inducedC_single _ _ _ _ _ rfl, hrel, hmir]
  have hgr : (plainOpts.ground.getD w.Ground) = w.Ground := rfl
  have hmo : (plainOpts.Model.getD w.Model) = w.Model := rfl
  have hst : ∀ Y u, singleBody (usedChi w) (Num.tan (usedChi w)) w.Model (.fin g) w.gamma_l w.R plainOpts Y u =
      if g ≠ 0 then accum u (tangPart (usedChi w) (Num.tan (usedChi w)) w.Model (.fin g) w.R 6 Y) else .ok u := by
    intro Y u
    rw [singleBody_noLongi _ _ _ _ _ _ _ rfl]
    have : (plainOpts.tang = true ∧ ¬ Num.Eqv (.fin g) 0) ↔ g ≠ 0 := by simp [plainOpts, Num.Eqv]
    by_cases h0 : g ≠ 0
    · rw [if_pos (this.mpr h0), if_pos h0]; rfl
    · rw [if_neg (fun h => h0 (this.mp h)), if_neg h0]
  have hnw : plainOpts.no_wake = false := rfl
  have hoi : plainOpts.only_ind = false := rfl
  rw [hgr, hmo, hnw, hoi]
  have hadd : ∀ x y : V3 ℝ, addFields [V3.fin x] [V3.fin y] = [V3.fin (x + y)] := by
    intro x y
    simp only [addFields, List.zipWith_cons_cons, List.zipWith_nil_left]
    congr 1
  have h0f : (0 : V3 Num) = V3.fin 0 := rfl
  cases hG : w.Ground with
  | false =>
    simp only [Bool.false_eq_true, if_false, overY, List.map_cons, List.map_nil]
    rw [hst]
    by_cases h0 : g ≠ 0
    · rw [if_pos h0, ha h0]
      simp only [accum]
      rw [h0f, hadd, hout]
      congr 3; ext <;> simp
    · rw [if_neg h0]
      simp only
      rw [h0f, hout, (hz (not_not.mp h0)).1]
      congr 3; ext <;> simp
  | true =>
    simp only [Bool.false_eq_true, if_true, if_false, overY, List.map_cons, List.map_nil]
    rw [hst]
    by_cases h0 : g ≠ 0
    · rw [if_pos h0, ha h0]
      simp only [accum]
      rw [hst, if_pos h0, hb h0 hG]
      simp only [accum]
      rw [h0f, hadd, hadd, hout]
      congr 3; ext <;> simp
    · rw [if_neg h0]
      simp only
      rw [hst, if_neg h0]
      simp only
      rw [h0f, hout, (hz (not_not.mp h0)).1, (hz (not_not.mp h0)).2]
      congr 3; ext <;> simp

theorem hub_straight (γ R : ℝ) (hR : 0 < R) : vcTang [0] (.fin γ) R 0 = [V3.fin ⟨0, 0, γ / 2⟩] := by
  obtain ⟨g, -, -, g0, -, hg⟩ := C48_profile R hR
  have h1 := hg [0] γ 0 0 rfl (by simp; positivity)
  have hl := (C40_finite [0] γ R hR).2.1
  have : vcTang [0] (.fin γ) R 0 = [V3.fin ⟨0, 0, γ * g 0⟩] := by
    apply List.ext_getElem?
    intro i
    cases i with
    | zero => rw [h1]; rfl
    | succ i => rw [List.getElem?_eq_none (by rw [hl]; simp), List.getElem?_eq_none (by simp)]
  rw [this, g0]
  congr 3; ring

theorem image_straight (γ R y : ℝ) (hR : 0 < R) (hy : (1 + 1e-8) * R ≤ y) :
    ∃ b : V3 ℝ, vcTang [⟨0, y, 0⟩] (.fin γ) R 0 = [V3.fin b] ∧ b.z = 0 := by
  obtain ⟨ur, hur⟩ := C43_rotor_plane [⟨0, y, 0⟩] γ R hR 0 _ rfl rfl
  have hdir := C42_direction [⟨0, y, 0⟩] γ R hR
  obtain ⟨u, hu⟩ : ∃ u, vcTangPolar [⟨0, y, 0⟩] (.fin γ) R 0 = [u] := by
    have := (C40_finite [⟨0, y, 0⟩] γ R hR).1.1
    exact List.length_eq_one_iff.mp this
  rw [hu] at hdir hur
  simp only [List.getElem?_cons_zero, Option.some.injEq] at hur
  have hy0 : 0 < y := by nlinarith
  have hs : √((0:ℝ)^2 + y^2) = y := by rw [zero_pow two_ne_zero, zero_add, sqrt_sq hy0.le]
  rw [hs, if_neg, if_neg] at hur
  · subst hur
    refine ⟨⟨ur * (0 / √((0:ℝ)^2 + y^2)), ur * (y / √((0:ℝ)^2 + y^2)), 0⟩, ?_, rfl⟩
    rw [hdir]; rfl
  · nlinarith
  · rw [abs_of_nonneg (by nlinarith)]; nlinarith

theorem hub_skewed (γ R m : ℝ) (hR : 0 < R) : ∃ a : V3 ℝ, svcTang [0] (.fin γ) R (.fin m) 180 false = [V3.fin a] ∧ a.z = γ / 2 := by
  have hp : toPolarPt 0 = ⟨0, arctan2 0 0, 0⟩ := by
    unfold toPolarPt polarR; simp
  have hP : Spec.polarPoint 0 (arctan2 0 0) 0 = ⟨m*0, 0, 0⟩ := by simp [Spec.polarPoint]
  have hoff : Spec.OffWake R m (Spec.polarPoint 0 (arctan2 0 0) 0) := by rw [hP]; exact offWake_axis R m 0 hR
  have h1 := svcTang_cart ⟨0, arctan2 0 0, 0⟩ γ R m 179 hoff
  have h2 := C66_rotor_centre (arctan2 0 0) γ R m hR 180 (by norm_num) false
  rw [show (180 : ℕ) = 179 + 1 by norm_num, h1] at h2
  refine ⟨_, ?_, Num.fin.inj h2⟩
  unfold svcTang
  rw [List.map_cons, List.map_nil, hp]
  exact congrArg (fun x => [x]) h1

theorem vcTang_zero (pts : List (V3 ℝ)) (R : ℝ) (hR : 0 < R) : vcTang pts (.fin 0) R 0 = pts.map fun _ => V3.fin 0 := by
  obtain ⟨hl, hf⟩ := (C40_finite pts 0 R hR).2
  have hlin := (C41_linear pts (-1) 0 0 R hR).1
  rw [show (-1 * (0:ℝ) + 0) = 0 by ring] at hlin
  apply List.ext_getElem?
  intro i
  rw [List.getElem?_map]
  by_cases hi : i < pts.length
  · have hiv : i < (vcTang pts (.fin 0) R 0).length := by rw [hl]; exact hi
    obtain ⟨⟨x, hx⟩, ⟨y, hy⟩, ⟨z, hz⟩⟩ := hf _ (List.getElem_mem hiv)
    have h2 := congrArg (fun l => l[i]?) hlin
    simp only [List.getElem?_zipWith, List.getElem?_eq_getElem hiv] at h2
    have h2 := Option.some.inj h2
    rw [List.getElem?_eq_getElem hiv, List.getElem?_eq_getElem hi, Option.map_some]
    congr 1
    have ex := congrArg V3.x h2
    have ey := congrArg V3.y h2
    have ez := congrArg V3.z h2
    simp [hx, hy, hz] at ex ey ez
    ext <;> simp [hx, hy, hz, ex, ey, ez]
  · rw [List.getElem?_eq_none (by rw [hl]; exact not_lt.mp hi), List.getElem?_eq_none (not_lt.mp hi)]; rfl

/-- the skew angle of `setupModel`: finite up to `CT=1`, `nan` above -/
theorem blockageChi_eval (Yaw CT : ℝ) :
    (CT ≤ 1 → blockageChi Yaw CT = .fin (Yaw * (1 + 0.3 * (1 - √(1 - CT))) * π / 180)) ∧ (1 < CT → blockageChi Yaw CT = .nan) := by
  constructor
  · intro h
    unfold blockageChi
    simp only [Num.one_def, Num.ofNat_def, Num.fin_sub, Num.sqrt_fin (show (0:ℝ) ≤ 1 - CT by linarith), Num.fin_mul, Num.fin_add]
    rw [Num.fin_div (by norm_num)]
  · intro h
    unfold blockageChi
    have : Num.sqrt (1 - Num.fin CT) = .nan := by
      simp only [Num.one_def, Num.fin_sub]
      exact Num.sqrt_fin_neg (by linarith)
    rw [this]
    rfl

theorem not_yawed_nan : ¬ yawed .nan := by
  unfold yawed; intro h; exact h

theorem not_yawed_zero : ¬ yawed (.fin 0) := by
  unfold yawed; rw [Num.abs_fin, Num.lt_fin]; norm_num

/-- an unyawed or overloaded case has a straight wake -/
theorem blockage_straight (Yaw CT : ℝ) (h : Yaw = 0 ∨ 1 < CT) : ¬ yawed (blockageChi Yaw CT) := by
  obtain ⟨h1, h2⟩ := blockageChi_eval Yaw CT
  by_cases hc : CT ≤ 1
  · rw [h1 hc]
    rcases h with h | h
    · rw [h]; simp only [zero_mul, zero_div]; exact not_yawed_zero
    · linarith
  · rw [h2 (not_le.mp hc)]; exact not_yawed_nan

theorem usedChi_blockage {c : BlockageCase} {U0 : ℝ} {M : String} {w : WT} (h : BlockageTurbine c U0 M w) :
    usedChi w = blockageChi c.Yaw c.CT := by
  unfold usedChi; rw [h.chi]

theorem fU_hub (vc : OutputVC) (hh : vc.WT.r_hub = ⟨0, vc.h_hub, 0⟩) : vc.fU [0] = (vc.WT.computeU [vc.WT.r_hub] plainOpts).1 := by
  unfold OutputVC.fU
  rw [List.map_cons, List.map_nil, hh]
  congr 3
  ext <;> simp

/-- the velocity at the rotor centre of a turbine of `setupModel` with one strength -/
theorem hub_velocity (mini : (ℝ → Num) → ℝ) (AD : Option OutputAD) (c : BlockageCase) (mt : Bool) (U0 : ℝ) (g : Option Num) (vc : OutputVC)
    (h : setupModel mini AD c mt U0 g "VC" = .ok vc) (γ : ℝ) (hγ : vc.WT.gamma_t = some [.fin γ])
    (hH : 9 ≤ (theCase AD c).HH ∨ (theCase AD c).Yaw = 0 ∧ 0.51 ≤ (theCase AD c).HH)
    (hcos : (theCase AD c).CT ≤ 1 → cos ((theCase AD c).Yaw * (1 + 0.3 * (1 - √(1 - (theCase AD c).CT))) * π / 180) ≠ 0) :
    ∃ v : V3 ℝ, vc.fU [0] = .ok [V3.fin v] ∧ v.z = U0 * cos ((theCase AD c).Yaw * π / 180) + γ / 2 := by
  obtain ⟨hb, hhub, -⟩ := setup_spec mini AD c mt U0 g "VC" vc h
  generalize theCase AD c = k at *
  have hchi := usedChi_blockage hb
  have hg : vc.WT.Ground = decide (k.HH < 9) := hb.ground
  rw [fU_hub vc (by rw [hb.hub, hhub])]
  by_cases hy : yawed (blockageChi k.Yaw k.CT)
  · -- skewed
    have h9 : 9 ≤ k.HH := by
      rcases hH with h | h
      · exact h
      · exact absurd hy (blockage_straight _ _ (Or.inl h.1))
    have hG : vc.WT.Ground = false := by rw [hg]; simp [h9]
    have hct : k.CT ≤ 1 := by
      by_contra hn
      exact blockage_straight k.Yaw k.CT (Or.inr (not_le.mp hn)) hy
    have hc := (blockageChi_eval k.Yaw k.CT).1 hct
    generalize k.Yaw * (1 + 0.3 * (1 - √(1 - k.CT))) * π / 180 = x at *
    obtain ⟨a, ha, haz⟩ := hub_skewed γ 1 (tan x) one_pos
    have hcx := hcos hct
    have htan : Num.tan (.fin x) = .fin (tan x) := by
      show (if cos x = 0 then Num.nan else .fin (tan x)) = _
      rw [if_neg hcx]
    have hval : γ ≠ 0 → tangPart (usedChi vc.WT) (Num.tan (usedChi vc.WT)) vc.WT.Model (.fin γ) vc.WT.R 6 [0] = .ok [V3.fin a] := by
      intro _
      rw [hchi, hb.model, hb.R]
      unfold tangPart
      rw [if_pos hy, if_pos rfl, hc, htan, ha]
    by_cases h0 : γ = 0
    · refine ⟨_, hub_eval vc.WT hb.axes γ hγ 0 0 (fun h => absurd h0 h) (fun h => absurd h0 h) (fun _ => ⟨rfl, rfl⟩), ?_⟩
      rw [hG, hb.wind, h0]
      simp
    · refine ⟨_, hub_eval vc.WT hb.axes γ hγ a 0 hval (fun _ h => absurd h (by rw [hG]; simp)) (fun h => absurd h h0), ?_⟩
      rw [hG, hb.wind]
      simp [haz]; ring
  · -- straight
    have hmap : ∀ Y, tangPart (usedChi vc.WT) (Num.tan (usedChi vc.WT)) vc.WT.Model (.fin γ) vc.WT.R 6 Y = .ok (vcTang Y (.fin γ) 1 0) := by
      intro Y
      rw [hchi, hb.model, hb.R]
      unfold tangPart
      rw [if_neg hy, if_pos rfl]
    have h51 : 0.51 ≤ k.HH := by
      rcases hH with h | h
      · linarith
      · exact h.2
    obtain ⟨b, hb1, hbz⟩ := image_straight γ 1 (2 * vc.WT.r_hub.y) one_pos (by rw [hb.hub]; simp only; linarith)
    by_cases h0 : γ = 0
    · refine ⟨_, hub_eval vc.WT hb.axes γ hγ 0 0 (fun h => absurd h0 h) (fun h => absurd h0 h) (fun _ => ⟨rfl, rfl⟩), ?_⟩
      rw [hb.wind, h0]
      cases vc.WT.Ground <;> simp
    · refine ⟨_, hub_eval vc.WT hb.axes γ hγ ⟨0, 0, γ/2⟩ b (fun _ => by rw [hmap, hub_straight γ 1 one_pos])
        (fun _ _ => by rw [hmap, hb1]) (fun h => absurd h h0), ?_⟩
      rw [hb.wind]
      cases vc.WT.Ground <;> simp [hbz] <;> ring

/-- C90: `setupModel(AD,…,MatchMidVel=True)` with the cylinder model: the axial velocity the model returns at the
rotor centre is the one the actuator-disk data holds there, for every operating point, tip-speed ratio, yaw and
free-stream speed; with ground effect (hub below 9 radii) for an unyawed rotor clear of the ground. -/
theorem C90_match (mini : (ℝ → Num) → ℝ) (ad : OutputAD) (c : BlockageCase) (U0 : ℝ) (vc : OutputVC)
    (h : setupModel mini (some ad) c true U0 none "VC" = .ok vc)
    (hH : 9 ≤ ad.case.HH ∨ ad.case.Yaw = 0 ∧ 0.51 ≤ ad.case.HH)
    (hcos : ad.case.CT ≤ 1 → cos (ad.case.Yaw * (1 + 0.3 * (1 - √(1 - ad.case.CT))) * π / 180) ≠ 0) :
    ∃ (uc : ℝ) (v : V3 Num), ad.fCenter = .ok uc ∧ vc.fU [⟨0, 0, 0⟩] = .ok [v] ∧ v.z = .fin uc := by
  obtain ⟨-, -, -, -, hm, -⟩ := setup_spec mini (some ad) c true U0 none "VC" vc h
  obtain ⟨ad', uc, h1, h2, h3⟩ := hm rfl rfl
  obtain rfl := Option.some.inj h1
  obtain ⟨v, hv, hz⟩ := hub_velocity mini (some ad) c true U0 none vc h _ h3 hH hcos
  refine ⟨uc, V3.fin v, h2, hv, ?_⟩
  show Num.fin v.z = _
  rw [hz]
  congr 1
  show U0 * cos (ad.case.Yaw * π / 180) + _ = _
  ring

/-- C90: a strength given to `setupModel` is the one used, whatever `MatchMidVel` is: the axial velocity at the
rotor centre is the axial wind plus half of it. -/
theorem C90_override (mini : (ℝ → Num) → ℝ) (AD : Option OutputAD) (c : BlockageCase) (mt : Bool) (U0 γ : ℝ) (vc : OutputVC)
    (h : setupModel mini AD c mt U0 (some (.fin γ)) "VC" = .ok vc) :
    let k := match AD with | some ad => ad.case | none => c
    (9 ≤ k.HH ∨ k.Yaw = 0 ∧ 0.51 ≤ k.HH) → (k.CT ≤ 1 → cos (k.Yaw * (1 + 0.3 * (1 - √(1 - k.CT))) * π / 180) ≠ 0) →
    ∃ v : V3 Num, vc.fU [⟨0, 0, 0⟩] = .ok [v] ∧ v.z = .fin (U0 * cos (k.Yaw * π / 180) + γ / 2) := by
  intro k hH hcos
  obtain ⟨-, -, -, hg, -⟩ := setup_spec mini AD c mt U0 _ "VC" vc h
  obtain ⟨v, hv, hz⟩ := hub_velocity mini AD c mt U0 _ vc h γ (hg _ rfl) hH hcos
  exact ⟨V3.fin v, hv, congrArg Num.fin hz⟩

/-- the hub velocity of an unyawed rotor without ground effect, from the kernel at the hub -/
theorem hub_unyawed (mini : (ℝ → Num) → ℝ) (ad : OutputAD) (c : BlockageCase) (U0 : ℝ) (M : String) (vc : OutputVC)
    (h : setupModel mini (some ad) c true U0 none M = .ok vc) (hH : 9 ≤ ad.case.HH) (hY : ad.case.Yaw = 0) :
    ∃ uc : ℝ, ad.fCenter = .ok uc ∧ ∀ (a : V3 ℝ) (m : Num), (-(U0 - uc) * 2 = 0 → a = 0) →
      (∀ chi, ¬ yawed chi → tangPart chi (Num.tan chi) M (.fin (-(U0 - uc) * 2)) 1 6 [0] = .ok [V3.fin a]) →
      vc.fU [⟨0, 0, 0⟩] = .ok [V3.fin ⟨a.x, a.y, a.z + U0⟩] := by
  obtain ⟨hb, hhub, -, -, hm, -⟩ := setup_spec mini (some ad) c true U0 none M vc h
  obtain ⟨ad', uc, h1, h2, h3⟩ := hm rfl rfl
  obtain rfl := Option.some.inj h1
  refine ⟨uc, h2, ?_⟩
  intro a _ h0 ha
  have hG : vc.WT.Ground = false := by rw [hb.ground]; show decide (ad.case.HH < 9) = false; simpa using hH
  rw [hY] at h3
  simp only [zero_mul, zero_div, cos_zero, mul_one] at h3
  have hst : ¬ yawed (usedChi vc.WT) := by rw [usedChi_blockage hb]; exact blockage_straight _ _ (Or.inl hY)
  have := hub_eval vc.WT hb.axes _ h3 a 0 (fun _ => by rw [hb.model, hb.R]; exact ha _ hst) (fun _ h => absurd h (by rw [hG]; simp)) (fun h => ⟨h0 h, rfl⟩)
  have e := fU_hub vc (by rw [hb.hub, hhub])
  change vc.fU [⟨0, 0, 0⟩] = _ at e
  rw [e, this, hG, hb.wind]
  congr 3
  ext <;> simp [theCase, hY]

/-- C90: the matching also holds for the self-similar and the far-field models of an unyawed rotor (without ground
effect). -/
theorem C90_match_models (mini : (ℝ → Num) → ℝ) (ad : OutputAD) (c : BlockageCase) (U0 : ℝ) (M : String) (hM : M = "SS" ∨ M = "VCFF") (vc : OutputVC)
    (h : setupModel mini (some ad) c true U0 none M = .ok vc) (hH : 9 ≤ ad.case.HH) (hY : ad.case.Yaw = 0) :
    ∃ (uc : ℝ) (v : V3 Num), ad.fCenter = .ok uc ∧ vc.fU [⟨0, 0, 0⟩] = .ok [v] ∧ v.z = .fin uc := by
  obtain ⟨uc, h1, h2⟩ := hub_unyawed mini ad c U0 M vc h hH hY
  have := h2 ⟨0, 0, -(U0 - uc)⟩ 0 (fun h => by ext <;> simp; linarith) (by
    intro chi hchi
    unfold tangPart
    rw [if_neg hchi]
    rcases hM with rfl | rfl
    · rw [if_neg (by decide), if_neg (by decide), if_neg (by decide), if_pos rfl]
      have hs : ssUDefault 0 (.fin (-(U0 - uc) * 2)) 1 = .fin (-(U0 - uc)) := by
        unfold ssUDefault
        have h0 : (0 : V3 ℝ) = ⟨0, 0, 0⟩ := rfl
        rw [h0, C73_axis 0 (-(U0 - uc) * 2) 1 _ _ one_pos (by norm_num) (by norm_num) le_rfl]
        simp
      rw [List.map_cons, List.map_nil, hs]
      simp only [Num.zero_def, Num.fin_mul, mul_zero]
      rfl
    · rw [if_neg (by decide), if_pos rfl]
      have hin := C49_inside [0] (-(U0 - uc) * 2) 1 6 one_pos
      obtain ⟨q, hq⟩ := List.length_eq_one_iff.mp hin.1
      have h3 := hin.2
      rw [hq] at h3 ⊢
      have hn : ¬ ((6:ℝ) * 1 < √((0 : V3 ℝ).x^2 + (0 : V3 ℝ).y^2 + (0 : V3 ℝ).z^2)) := by simp
      simp only [List.zip_cons_cons, List.zip_nil_left, List.filter_cons, hn, not_false_eq_true, decide_true, if_true, List.filter_nil,
        List.map_cons, List.map_nil] at h3
      rw [hub_straight _ 1 one_pos] at h3
      rw [h3]
      congr 4; ring)
  exact ⟨uc, _, h1, this, by simp⟩

end Wiz
