import Verif.Lemmas.TurbineEval
import Verif.Props.Turbine

/-! # Histories of a turbine, evaluation options, loading validation (C09–C12, C14, C36) -/
namespace Wiz
open Classical

/-! ### C09 -/

theorem step_chi (mini : (ℝ → Num) → ℝ) (w : WT) (c : Option Num) (op : Op) (he : op.isEval = false) (hc : op.isChi = false) :
    (w.setChi c).step mini op = (w.step mini op).setChi c := by
  cases op with
  | eval pts o => simp [Op.isEval] at he
  | chi c => simp [Op.isChi] at hc
  | loading a =>
    simp only [WT.step, WT.updateLoading, WT.setChi]
    split
    · rfl
    · split
      · rfl
      · split <;> rfl
  | _ => rfl

theorem setChi_setChi (w : WT) (a b : Option Num) : (w.setChi a).setChi b = w.setChi b := rfl

theorem run_filter (mini : (ℝ → Num) → ℝ) (h : List Op) : ∀ (w : WT) (c : Option Num),
    ∃ d, (w.setChi c).run mini h = (w.run mini (h.filter fun o => !o.isEval)).setChi d := by
  induction h with
  | nil => intro w c; exact ⟨c, rfl⟩
  | cons o h ih =>
    intro w c
    cases o with
    | eval pts o =>
      obtain ⟨d, hd⟩ := ih w (some (usedChi (w.setChi c)))
      refine ⟨d, ?_⟩
      show ((w.setChi c).step mini (.eval pts o)).run mini h = _
      have : (w.setChi c).step mini (.eval pts o) = w.setChi (some (usedChi (w.setChi c))) := by
        simp only [WT.step]; rw [computeU_state]; rfl
      rw [this, hd]
      simp [Op.isEval]
    | chi c' =>
      obtain ⟨d, hd⟩ := ih (w.setChi c') c'
      refine ⟨d, ?_⟩
      show ((w.setChi c).setChi c').run mini h = _
      rw [setChi_setChi]
      rw [setChi_setChi] at hd
      rw [hd]
      simp [Op.isEval, WT.run, WT.step]
    | _ =>
      all_goals
        rename_i a
        first
        | (have e := step_chi mini w c (.yaw a) rfl rfl
           obtain ⟨d, hd⟩ := ih (w.step mini (.yaw a)) c
           refine ⟨d, ?_⟩
           show ((w.setChi c).step mini (.yaw a)).run mini h = _
           rw [e, hd]
           simp [Op.isEval, WT.run])
        | (have e := step_chi mini w c (.position a) rfl rfl
           obtain ⟨d, hd⟩ := ih (w.step mini (.position a)) c
           refine ⟨d, ?_⟩
           show ((w.setChi c).step mini (.position a)).run mini h = _
           rw [e, hd]
           simp [Op.isEval, WT.run])
        | (have e := step_chi mini w c (.wind a) rfl rfl
           obtain ⟨d, hd⟩ := ih (w.step mini (.wind a)) c
           refine ⟨d, ?_⟩
           show ((w.setChi c).step mini (.wind a)).run mini h = _
           rw [e, hd]
           simp [Op.isEval, WT.run])
        | (have e := step_chi mini w c (.loading a) rfl rfl
           obtain ⟨d, hd⟩ := ih (w.step mini (.loading a)) c
           refine ⟨d, ?_⟩
           show ((w.setChi c).step mini (.loading a)).run mini h = _
           rw [e, hd]
           simp [Op.isEval, WT.run])

/-- C09 (what holds): the evaluations of a history leave no trace on the turbine except the stored skew
angle.  What is missing: the skew angle itself, see `C09_refuted`. -/
theorem C09_only_chi_partial (mini : (ℝ → Num) → ℝ) (w : WT) (h : List Op) :
    ∃ c : Option Num, w.run mini h = (w.run mini (h.filter fun o => !o.isEval)).setChi c := by
  have := run_filter mini h w w.chi
  exact this

/-- C09: once the skew angle is set explicitly, the whole state (hence every later result) is the one
obtained without any of the earlier evaluations. -/
theorem C09_set_chi_partial (mini : (ℝ → Num) → ℝ) (w : WT) (h : List Op) (c : Option Num) (pts : List (V3 ℝ)) (o : Opts) :
    ((w.run mini (h ++ [.chi c])).computeU pts o).1 = ((w.run mini ((h.filter fun o => !o.isEval) ++ [.chi c])).computeU pts o).1 ∧
    w.run mini (h ++ [.chi c]) = w.run mini ((h.filter fun o => !o.isEval) ++ [.chi c]) := by
  have e : w.run mini (h ++ [.chi c]) = w.run mini ((h.filter fun o => !o.isEval) ++ [.chi c]) := by
    obtain ⟨d, hd⟩ := C09_only_chi_partial mini w h
    have e1 : ∀ l, w.run mini (l ++ [.chi c]) = (w.run mini l).setChi c := by
      intro l; simp [WT.run, List.foldl_append, WT.step]
    rw [e1, e1, hd, setChi_setChi]
  exact ⟨by rw [e], e⟩

theorem chi_step (mini : (ℝ → Num) → ℝ) (w : WT) (op : Op) (hc : op.isChi = false) (he : op.isEval = false) :
    (w.step mini op).chi = w.chi := by
  cases op with
  | loading a => exact (loading_frame mini w a).2.2.2.2.2.2.2.2.2.2.2.2.1
  | eval pts o => simp [Op.isEval] at he
  | chi c => simp [Op.isChi] at hc
  | _ => rfl

/-- C09: a turbine that was never evaluated has no stored skew angle, so its first evaluation uses the
angle of the current yaw and wind. -/
theorem C09_fresh_partial (mini : (ℝ → Num) → ℝ) (R : ℝ) (hub shaft vert U0 : V3 ℝ) (L : Option Num) (G : Bool) (M : String)
    (h : List Op) (hn : ∀ o ∈ h, o.isChi = false ∧ o.isEval = false) (pts : List (V3 ℝ)) (o : Opts) :
    let w := (WT.new R hub shaft vert U0 L G M).run mini h
    w.chi = none ∧ (w.computeU pts o).2 = w.setChi (some w.chiAuto) := by
  intro w
  have key : ∀ (l : List Op) (v : WT), (∀ o ∈ l, o.isChi = false ∧ o.isEval = false) → (v.run mini l).chi = v.chi := by
    intro l
    induction l with
    | nil => intro v _; rfl
    | cons o l ih =>
      intro v hl
      show ((v.step mini o).run mini l).chi = _
      obtain ⟨a, b⟩ := hl o (List.mem_cons_self ..)
      rw [ih _ (fun o ho => hl o (List.mem_cons_of_mem _ ho)), chi_step mini v o a b]
  have hc : w.chi = none := key h _ hn
  refine ⟨hc, ?_⟩
  rw [computeU_state]
  simp only [hc]
  rfl

/-- C09: a stored skew angle survives everything but `set_chi`: yaw, wind and loading updates do not
refresh it. -/
theorem C09_latched (mini : (ℝ → Num) → ℝ) (w : WT) (c : Num) (hw : w.chi = some c) (h : List Op) (hn : ∀ o ∈ h, o.isChi = false) :
    (w.run mini h).chi = some c := by
  induction h generalizing w with
  | nil => exact hw
  | cons o h ih =>
    show ((w.step mini o).run mini h).chi = _
    apply ih
    · cases ho : o.isEval
      · rw [chi_step mini w o (hn o (List.mem_cons_self ..)) ho, hw]
      · cases o with
        | eval pts o => simp only [WT.step]; rw [computeU_state]; simp only [hw]
        | _ => simp [Op.isEval] at ho
    · exact fun o ho => hn o (List.mem_cons_of_mem _ ho)

/-- the turbine of the counterexample: default axes, aligned wind, loading given as a function -/
noncomputable def refTurbine : WT := WT.new 1 0 ⟨0,0,1⟩ ⟨0,1,0⟩ ⟨0,0,1⟩ (some .pinf) false "VD"
/-- its loading -/
noncomputable def refLoad : LoadArgs := { Ct := some [1], gamma_t_Ct := some fun _ => [-1] }

theorem refTurbine_loaded (mini : (ℝ → Num) → ℝ) (w : WT) (hL : w.Lambda = some .pinf) :
    ∃ r Ct, (w.updateLoading mini refLoad) = (.ok (), { w with gamma_t := some [-1], gamma_l := none, Gamma_r := none, r := r, Ct := Ct }) := by
  have : w = { w with Lambda := some .pinf } := by rw [← hL]
  refine ⟨some [0.995 * w.R], some [npMean [1]], ?_⟩
  simp only [WT.updateLoading, reinterp, refLoad, loadingSolve, Option.map, hL]
  simp

theorem aligned_yawWind (w : WT) (R : ℝ) (hi : FrameInv ⟨0,0,1⟩ ⟨0,1,0⟩ R w) (hU : w.U0_g = ⟨0,0,1⟩) : w.yawWind = .fin 0 := by
  have hh : horizontal ⟨0,1,0⟩ w.U0_g = ⟨0,0,1⟩ := by rw [hU]; ext <;> simp [horizontal, V3.dot]
  have hne : (⟨0,0,1⟩ : V3 ℝ) ≠ 0 := by intro h; have := congrArg V3.z h; simp at this
  obtain ⟨θ, h1, h2, h3, h4⟩ := yawWind_eq ⟨0,0,1⟩ ⟨0,1,0⟩ R default_orthonormal w hi (by rw [hh]; exact hne)
  rw [hh, norm_unit _ (by simp [V3.dot]), turn_horizontal _ _ _ default_orthonormal] at h4
  have hz := congrArg V3.z h4
  have hx := congrArg V3.x h4
  simp [V3.cross] at hz hx
  rw [h1]
  congr 1
  have hp := Real.pi_pos
  rcases lt_trichotomy θ 0 with h0 | h0 | h0
  · have := Real.sin_neg_of_neg_of_neg_pi_lt h0 h2; linarith
  · exact h0
  · rcases lt_or_eq_of_le h3 with h6 | h6
    · have := Real.sin_pos_of_pos_of_lt_pi h0 h6; linarith
    · rw [h6, Real.cos_pi] at hz; norm_num at hz

/-- C09 is false: two histories that end with the same yaw, wind, position and loading, one of which
contains an earlier evaluation.  The second one refuses the evaluation (a skewed doublet line is not
implemented), the first one, which has latched a zero skew angle, returns a field. -/
theorem C09_refuted (mini : (ℝ → Num) → ℝ) :
    (∃ u, ((refTurbine.run mini [.loading refLoad, .eval [0] {}, .yaw 1]).computeU [⟨0,0,-1⟩] {}).1 = .ok u) ∧
    ((refTurbine.run mini [.loading refLoad, .yaw 1]).computeU [⟨0,0,-1⟩] {}).1 = .error "NotImplementedError: Model with yaw" := by
  obtain ⟨r, Ct, hl⟩ := refTurbine_loaded mini refTurbine rfl
  have h1 : refTurbine.step mini (.loading refLoad) =
      { refTurbine with gamma_t := some [-1], gamma_l := none, Gamma_r := none, r := r, Ct := Ct } := by simp only [WT.step, hl]
  set w1 := refTurbine.step mini (.loading refLoad) with hw1
  have f0 : FrameInv ⟨0,0,1⟩ ⟨0,1,0⟩ 1 refTurbine := frame_new 1 0 ⟨0,0,1⟩ ⟨0,1,0⟩ ⟨0,0,1⟩ (some .pinf) false "VD"
  have f1 : FrameInv ⟨0,0,1⟩ ⟨0,1,0⟩ 1 w1 := frame_step mini _ _ _ _ f0 _
  have hh : horizontal ⟨0,1,0⟩ ⟨0,0,1⟩ ≠ 0 := by intro h; have := congrArg V3.z h; simp [horizontal, V3.dot] at this
  have y0 : w1.chiAuto = .fin 0 := by
    obtain ⟨χ, θ, e1, e2, e3, -⟩ := chiAuto_eq _ _ _ default_orthonormal w1 f1 (by rw [h1]; exact hh)
    rw [aligned_yawWind w1 1 f1 (by rw [h1]; rfl)] at e2
    rw [e1, e3]
    rw [Num.fin_inj] at e2
    rw [← e2, show w1.yaw_pos = 0 by rw [h1]; rfl, sub_zero]
  set w2 := w1.step mini (.eval [0] {}) with hw2
  have h2 : w2 = w1.setChi (some (.fin 0)) := by
    rw [hw2]; simp only [WT.step]; rw [computeU_state, show w1.chi = none by rw [h1]; rfl]
    simp only [y0]; rfl
  constructor
  · show ∃ u, ((w2.step mini (.yaw 1)).computeU [⟨0,0,-1⟩] {}).1 = .ok u
    have hc : usedChi (w2.step mini (.yaw 1)) = .fin 0 := by rw [h2]; rfl
    have hM : (w2.step mini (.yaw 1)).Model = "VD" := by rw [h2, h1]; rfl
    have hG : (w2.step mini (.yaw 1)).Ground = false := by rw [h2, h1]; rfl
    have hgt : (w2.step mini (.yaw 1)).gamma_t = some [-1] := by rw [h2, h1]; rfl
    rw [computeU_val, hgt, hc]
    simp only [WT.inducedC, hM, hG, Option.getD]
    have hy : ¬ yawed (.fin 0) := by simp [yawed]; norm_num
    simp [overY, singleBody, tangPart, hy, accum]
  · show ((w1.step mini (.yaw 1)).computeU [⟨0,0,-1⟩] {}).1 = _
    set w3 := w1.step mini (.yaw 1) with hw3
    have f3 : FrameInv ⟨0,0,1⟩ ⟨0,1,0⟩ 1 w3 := frame_step mini _ _ _ _ f1 _
    have y3 : w3.chiAuto = .fin (-1) := by
      obtain ⟨χ, θ, e1, e2, e3, -⟩ := chiAuto_eq _ _ _ default_orthonormal w3 f3 (by rw [hw3, h1]; exact hh)
      rw [aligned_yawWind w3 1 f3 (by rw [hw3, h1]; rfl)] at e2
      rw [e1, e3]
      rw [Num.fin_inj] at e2
      rw [← e2, show w3.yaw_pos = 1 by rw [hw3, h1]; rfl, zero_sub]
    have hc : usedChi w3 = .fin (-1) := by
      unfold usedChi; rw [show w3.chi = none by rw [hw3, h1]; rfl]; exact y3
    have hM : w3.Model = "VD" := by rw [hw3, h1]; rfl
    have hG : w3.Ground = false := by rw [hw3, h1]; rfl
    have hgt : w3.gamma_t = some [-1] := by rw [hw3, h1]; rfl
    have hy : yawed (.fin (-1)) := by simp [yawed]; norm_num
    rw [computeU_val, hgt, hc]
    simp only [WT.inducedC, hM, hG, Option.getD]
    simp [overY, singleBody, tangPart, hy, accum]

/-! ### C10 -/

theorem gamma_step (mini : (ℝ → Num) → ℝ) (w : WT) (op : Op) :
    (w.step mini op).gamma_t = w.gamma_t ∨ ∃ a gt, op = .loading a ∧ (w.updateLoading mini a).1 = .ok () ∧ (w.step mini op).gamma_t = some gt := by
  cases op with
  | loading a =>
    simp only [WT.step]
    unfold WT.updateLoading
    simp only
    split
    · exact .inl rfl
    · split
      · exact .inl rfl
      · split
        · exact .inl rfl
        · exact .inr ⟨a, _, rfl, by simp_all, rfl⟩
  | eval pts o => simp only [WT.step]; rw [computeU_state]; exact .inl rfl
  | _ => exact .inl rfl

/-- C10: as long as no `update_loading` of the history succeeds, `compute_u` raises the "set loading"
exception, whatever the points and options. -/
theorem C10_refuses (mini : (ℝ → Num) → ℝ) (R : ℝ) (hub shaft vert U0 : V3 ℝ) (L : Option Num) (G : Bool) (M : String)
    (h : List Op) (hn : NeverLoaded mini (WT.new R hub shaft vert U0 L G M) h) (pts : List (V3 ℝ)) (o : Opts) :
    (((WT.new R hub shaft vert U0 L G M).run mini h).computeU pts o).1 =
      .error "Please set loading with `update_loading` before calling `compute_u`" := by
  have key : ∀ (l : List Op) (w : WT), w.gamma_t = none → NeverLoaded mini w l → (w.run mini l).gamma_t = none := by
    intro l
    induction l with
    | nil => intro w hw _; exact hw
    | cons op l ih =>
      intro w hw hl
      show ((w.step mini op).run mini l).gamma_t = none
      have hs : (w.step mini op).gamma_t = none := by
        rcases gamma_step mini w op with e | ⟨a, gt, rfl, e, -⟩
        · rw [e, hw]
        · exact absurd e hl.1
      apply ih _ hs
      cases op with
      | loading a => exact hl.2
      | _ => exact hl
  rw [computeU_val, key h _ rfl hn]

theorem updateLoading_ok (mini : (ℝ → Num) → ℝ) (w : WT) (a : LoadArgs) (h : (w.updateLoading mini a).1 = .ok ()) :
    ∃ gt, (w.updateLoading mini a).2.gamma_t = some gt := by
  unfold WT.updateLoading at h ⊢
  simp only at h ⊢
  split at h
  · exact nomatch h
  · split at h
    · exact nomatch h
    · split at h
      · exact nomatch h
      · rename_i e1 _ _ e2 _ _ _ _ e3
        simp only [e1, e2, e3]
        exact ⟨_, rfl⟩

/-- the text of the "set loading" exception -/
def loadMsg : String := "Please set loading with `update_loading` before calling `compute_u`"

theorem inducedC_errors (w : WT) (chi : Num) (gt : List Num) (pts : List (V3 ℝ)) (o : Opts) (e : String)
    (h : w.inducedC chi gt pts o = .error e) : e ≠ loadMsg := by
  have hroot : ∀ m Gr Y e, rootPart chi m Gr Y = .error e → e ≠ loadMsg := by
    intro m Gr Y e h
    unfold rootPart at h
    split at h
    · unfold svcRoot svcRootPolar at h
      repeat' split at h
      all_goals first | (have h := Except.error.inj h; rw [← h]; decide) | exact nomatch h
    · exact nomatch h
  have hacc : ∀ u v e, (∀ e, v = .error e → e ≠ loadMsg) → accum u v = .error e → e ≠ loadMsg := by
    intro u v e hv h
    cases v with
    | ok x => exact nomatch h
    | error e' => have h := Except.error.inj h; rw [← h]; exact hv e' rfl
  have htang : ∀ m M g R Rff Y e, tangPart chi m M g R Rff Y = .error e → e ≠ loadMsg := by
    intro m M g R Rff Y e h
    unfold tangPart at h
    repeat' split at h
    all_goals first | (have h := Except.error.inj h; rw [← h]; decide) | exact nomatch h
  have hlongi : ∀ m M g R Y e, longiPart chi m M g R Y = .error e → e ≠ loadMsg := by
    intro m M g R Y e h
    unfold longiPart at h
    split at h
    all_goals first | (have h := Except.error.inj h; rw [← h]; decide) | exact nomatch h
  have hsingle : ∀ m M g gl R o Y u e, singleBody chi m M g gl R o Y u = .error e → e ≠ loadMsg := by
    intro m M g gl R o Y u e h
    unfold singleBody at h
    split at h
    · rename_i e' he
      have h := Except.error.inj h
      rw [← h]
      split at he
      · exact hacc _ _ _ (htang _ _ _ _ _ _) he
      · exact nomatch he
    · split at h
      · split at h
        · exact hacc _ _ _ (hlongi _ _ _ _ _) h
        · exact nomatch h
      · have h := Except.error.inj h; rw [← h]; decide
      · exact nomatch h
  have hover : ∀ (f : List (V3 ℝ) → List (V3 Num) → Except String (List (V3 Num))) (L : List (List (V3 ℝ))) (u : List (V3 Num)) (e : String),
      (∀ Y u e, f Y u = .error e → e ≠ loadMsg) → overY f u L = .error e → e ≠ loadMsg := by
    intro f L
    induction L with
    | nil => intro u e _ h; exact nomatch h
    | cons Y L ih =>
      intro u e hf h
      unfold overY at h
      cases hy : f Y u with
      | ok v => rw [hy] at h; exact ih v e hf h
      | error e' => rw [hy] at h; have h := Except.error.inj h; rw [← h]; exact hf _ _ _ hy
  unfold WT.inducedC at h
  simp only at h
  split at h
  · rename_i e' he
    have h := Except.error.inj h
    rw [← h]
    split at he
    · split at he
      · refine hover _ _ _ _ ?_ he
        intro Y u e h
        exact hacc _ _ _ (hroot _ _ _) h
      · exact nomatch he
    · exact nomatch he
  · split at h
    · exact hover _ _ _ _ (fun Y u e h => hsingle _ _ _ _ _ _ _ _ _ h) h
    · unfold multiPart at h
      repeat' split at h
      all_goals first | (have h := Except.error.inj h; rw [← h]; decide) | exact nomatch h

/-- C10: after a successful `update_loading` no later call of `compute_u` raises that exception, whatever
happens in between. -/
theorem C10_accepts (mini : (ℝ → Num) → ℝ) (w : WT) (a : LoadArgs) (hok : (w.updateLoading mini a).1 = .ok ()) (h : List Op)
    (pts : List (V3 ℝ)) (o : Opts) :
    (((w.step mini (.loading a)).run mini h).computeU pts o).1 ≠
      .error "Please set loading with `update_loading` before calling `compute_u`" := by
  have key : ∀ (l : List Op) (w : WT), (∃ gt, w.gamma_t = some gt) → ∃ gt, (w.run mini l).gamma_t = some gt := by
    intro l
    induction l with
    | nil => intro w hw; exact hw
    | cons op l ih =>
      intro w hw
      apply ih (w.step mini op)
      rcases gamma_step mini w op with e | ⟨a, gt, -, -, e⟩
      · rw [e]; exact hw
      · exact ⟨gt, e⟩
  obtain ⟨gt, hgt⟩ := key h _ (updateLoading_ok mini w a hok)
  intro hc
  rw [computeU_val] at hc
  change (match (((w.step mini (.loading a)).run mini h)).gamma_t with | none => _ | some gt => _ : Except String (List (V3 Num))) = _ at hc
  have hgt' : (((w.step mini (.loading a)).run mini h)).gamma_t = some gt := hgt
  rw [hgt'] at hc
  simp only at hc
  split at hc
  · rename_i e he
    exact inducedC_errors _ _ _ _ _ _ he (Except.error.inj hc)
  · exact nomatch hc

/-- both kinds of histories exist -/
example (mini : (ℝ → Num) → ℝ) : NeverLoaded mini refTurbine [.yaw 1, .loading { }, .eval [] {}] ∧
    (refTurbine.updateLoading mini refLoad).1 = .ok () := by
  constructor
  · refine ⟨?_, trivial⟩
    simp only [WT.updateLoading, reinterp, loadingSolve, Option.map]
    simp [WT.step, WT.updateYawPos, refTurbine, WT.new]
  · obtain ⟨r, Ct, hl⟩ := refTurbine_loaded mini refTurbine rfl
    rw [hl]

/-! ### C11 -/

/-- C11: `only_ind=False` adds the stored free stream to every velocity of `only_ind=True`, raises the
same exception otherwise, and leaves the turbine in the same state. -/
theorem C11_only_ind (w : WT) (pts : List (V3 ℝ)) (o : Opts) :
    (w.computeU pts { o with only_ind := false }).1 =
      (match (w.computeU pts { o with only_ind := true }).1 with
        | .ok u => .ok (u.map fun v => v + V3.fin w.U0_g)
        | .error e => .error e) ∧
    (w.computeU pts { o with only_ind := false }).2 = (w.computeU pts { o with only_ind := true }).2 := by
  constructor
  · rw [computeU_val, computeU_val]
    cases w.gamma_t with
    | none => rfl
    | some gt =>
      simp only [inducedC_only_ind]
      cases w.inducedC (usedChi w) gt pts o with
      | error e => rfl
      | ok u => simp [WT.toGlobal, List.map_map, Function.comp_def]
  · rw [computeU_state, computeU_state]

/-- C11: one velocity per control point -/
theorem C11_length (w : WT) (pts : List (V3 ℝ)) (o : Opts) (u : List (V3 Num)) (h : (w.computeU pts o).1 = .ok u) :
    u.length = pts.length := by
  rw [computeU_val] at h
  cases hg : w.gamma_t with
  | none => rw [hg] at h; exact nomatch h
  | some gt =>
    rw [hg] at h
    simp only at h
    cases hi : w.inducedC (usedChi w) gt pts o with
    | error e => rw [hi] at h; exact nomatch h
    | ok v =>
      rw [hi] at h
      have h := Except.ok.inj h
      have hl := inducedC_length _ _ _ _ _ _ hi
      rw [← h]
      cases o.no_wake <;> simp [WT.toGlobal, zeroWake, relC_length, hl]

/-! ### C12 -/

theorem relPts_shift (T : M3 ℝ) (pts : List (V3 ℝ)) (c d : V3 ℝ) :
    relPts ((pts.map fun p => p + d).map (transformT T)) (transformT T (c + d)) = relPts (pts.map (transformT T)) (transformT T c) := by
  unfold relPts
  rw [List.map_map, List.map_map, List.map_map]
  apply List.map_congr_left
  intro p _
  show transformT T (p + d) - transformT T (c + d) = transformT T p - transformT T c
  rw [transformT_sub, transformT_sub]
  congr 1
  ext <;> simp

theorem map_zero_congr {α β : Type} (a : List α) (b : List β) (h : a.length = b.length) :
    (a.map fun _ => (0 : V3 Num)) = b.map fun _ => 0 := by
  rw [List.map_const', List.map_const', h]

theorem vcs_congr {pts pts' : List (V3 ℝ)} {c c' : V3 ℝ} (h : relPts pts c = relPts pts' c') (cy : List (Num × ℝ)) (eps : ℝ) :
    vcsTang pts [⟨c, cy⟩] eps false = vcsTang pts' [⟨c', cy⟩] eps false ∧
    (∀ b, vcsLongi pts [⟨c, cy⟩] b = vcsLongi pts' [⟨c', cy⟩] b) := by
  have hz := map_zero_congr pts pts' (by have := congrArg List.length h; simpa [relPts] using this)
  constructor
  · simp only [vcsTang, List.foldl_cons, List.foldl_nil, h, hz]; simp
  · intro b; simp only [vcsLongi, List.foldl_cons, List.foldl_nil, h, hz]

theorem svcs_congr {pts pts' : List (V3 ℝ)} {c c' : V3 ℝ} (h : relPts pts c = relPts pts' c') (cy : List (Num × ℝ × Num)) (n : ℕ) :
    svcsTang pts [⟨c, cy⟩] n false = svcsTang pts' [⟨c', cy⟩] n false ∧
    (∀ b, svcsLongi pts [⟨c, cy⟩] n b = svcsLongi pts' [⟨c', cy⟩] n b) := by
  have hz := map_zero_congr pts pts' (by have := congrArg List.length h; simpa [relPts] using this)
  constructor
  · simp only [svcsTang, List.foldl_cons, List.foldl_nil, h, hz]; simp
  · intro b; simp only [svcsLongi, List.foldl_cons, List.foldl_nil, h, hz]

theorem multiPart_congr (chi m : Num) (M : String) (gt : List Num) (gl : Option (List Num)) (r : Option (List ℝ)) {c c' : V3 ℝ}
    (o : Opts) {pts pts' : List (V3 ℝ)} (u : List (V3 Num)) (h : relPts pts c = relPts pts' c') :
    multiPart chi m M gt gl r c false o pts u = multiPart chi m M gt gl r c' false o pts' u := by
  unfold multiPart
  simp only [(vcs_congr h _ _).1, (vcs_congr h _ 0).2, (svcs_congr h _ _).1, (svcs_congr h _ _).2]

/-- C12: without ground effect, moving the hub and the control points by the same vector changes
neither the velocities nor the exception raised, for every state, model and option set. -/
theorem C12_translation (w : WT) (pts : List (V3 ℝ)) (o : Opts) (d : V3 ℝ) (hg : o.ground.getD w.Ground = false) :
    ((w.updatePosition (w.r_hub + d)).computeU (pts.map fun p => p + d) o).1 = (w.computeU pts o).1 := by
  have hT : (w.updatePosition (w.r_hub + d)).T_c2g = w.T_c2g := rfl
  have hrel : relC (w.updatePosition (w.r_hub + d)) (pts.map fun p => p + d) = relC w pts := relPts_shift _ _ _ _
  have hchi : usedChi (w.updatePosition (w.r_hub + d)) = usedChi w := rfl
  have hind : ∀ gt, (w.updatePosition (w.r_hub + d)).inducedC (usedChi w) gt (pts.map fun p => p + d) o = w.inducedC (usedChi w) gt pts o := by
    intro gt
    unfold WT.inducedC
    have hG : (w.updatePosition (w.r_hub + d)).Ground = w.Ground := rfl
    have hr : (w.updatePosition (w.r_hub + d)).r_hub = w.r_hub + d := rfl
    have hm : ∀ chi m M g gl r u, multiPart chi m M g gl r (transformT w.T_c2g (w.r_hub + d)) false o ((pts.map fun p => p + d).map (transformT w.T_c2g)) u
        = multiPart chi m M g gl r (transformT w.T_c2g w.r_hub) false o (pts.map (transformT w.T_c2g)) u :=
      fun chi m M g gl r u => multiPart_congr chi m M g gl r o u (relPts_shift _ _ _ _)
    have hz : ((pts.map fun p => p + d).map fun _ => (0 : V3 Num)) = pts.map fun _ => 0 := map_zero_congr _ _ (by simp)
    simp only [hG, hg, hT, hr, relPts_shift, hz, hm]
    rfl
  rw [computeU_val, computeU_val]
  show (match w.gamma_t with | none => _ | some gt => _ : Except String (List (V3 Num))) = _
  cases w.gamma_t with
  | none => rfl
  | some gt =>
    simp only [hchi, hind, hrel]
    rfl

/-- the hypothesis of C12 holds e.g. for every turbine with the default options -/
example (R : ℝ) (M : String) : (({} : Opts).ground.getD (WT.new R 0 ⟨0,0,1⟩ ⟨0,1,0⟩ ⟨0,0,10⟩ none false M).Ground) = false := rfl

/-! ### C14 -/

theorem fin_transform_zero (T : M3 ℝ) : transform (M3.fin T) 0 = 0 := by
  ext <;> simp [transform, M3.fin]

/-- C14: with `no_wake`, the induced velocity is exactly zero at the points of the rotor tube (axial
distance to the hub at least `-0.6R`, distance to the shaft axis less than `1.001R`) and is the velocity
without `no_wake` everywhere else; exceptions are the same. -/
theorem C14_no_wake (mini : (ℝ → Num) → ℝ) (R : ℝ) (hub shaft vert U0 : V3 ℝ) (L : Option Num) (G : Bool) (M : String)
    (ho : Orthonormal shaft vert) (h : List Op) (pts : List (V3 ℝ)) (o : Opts) :
    let w := (WT.new R hub shaft vert U0 L G M).run mini h
    (∀ e, (w.computeU pts { o with no_wake := true }).1 = .error e ↔ (w.computeU pts { o with no_wake := false }).1 = .error e) ∧
    ∀ u u', (w.computeU pts { o with no_wake := true, only_ind := true }).1 = .ok u →
      (w.computeU pts { o with no_wake := false, only_ind := true }).1 = .ok u' →
      ∀ (i : ℕ) (p : V3 ℝ), pts[i]? = some p →
        let d := p - w.r_hub
        let axial := V3.dot d w.e_shaft_g
        let radial := V3.norm (d - V3.smul axial w.e_shaft_g)
        u[i]? = if -0.6 * R ≤ axial ∧ radial < 1.001 * R then some 0 else u'[i]? := by
  intro w
  constructor
  · intro e
    rw [computeU_val, computeU_val]
    cases w.gamma_t with
    | none => rfl
    | some gt =>
      simp only [inducedC_no_wake]
      cases w.inducedC (usedChi w) gt pts o with
      | error e => rfl
      | ok u => simp
  · intro u u' hu hu' i p hp d axial radial
    have hi := frame_run mini shaft vert R h _ (frame_new R hub shaft vert U0 L G M)
    obtain ⟨a, s, e1, -, e3, e4, e5, e6, e7, e8, e9⟩ := frame_cols shaft vert R ho w hi
    have es : w.e_shaft_g = s := by rw [hi.e_shaft_g, turn_eq, e3]
    rw [computeU_val] at hu hu'
    cases hg : w.gamma_t with
    | none => rw [hg] at hu; exact nomatch hu
    | some gt =>
      rw [hg] at hu hu'
      simp only at hu hu'
      have i1 : w.inducedC (usedChi w) gt pts { o with no_wake := true, only_ind := true } = w.inducedC (usedChi w) gt pts o := rfl
      have i2 : w.inducedC (usedChi w) gt pts { o with no_wake := false, only_ind := true } = w.inducedC (usedChi w) gt pts o := rfl
      rw [i1] at hu
      rw [i2] at hu'
      cases hv : w.inducedC (usedChi w) gt pts o with
      | error e => rw [hv] at hu; exact nomatch hu
      | ok v =>
        rw [hv] at hu hu'
        have hl := inducedC_length _ _ _ _ _ _ hv
        have hu := Except.ok.inj hu
        have hu' := Except.ok.inj hu'
        have hil : i < v.length := by
          rw [hl]; exact (List.getElem?_eq_some_iff.mp hp).1
        obtain ⟨vi, hvi⟩ : ∃ vi, v[i]? = some vi := ⟨v[i], List.getElem?_eq_getElem hil⟩
        have hr := relC_get w pts i p hp
        rw [transformT_sub] at hr
        have htube : inRotorTube w.R (transformT w.T_c2g (p - w.r_hub)) ↔ (-0.6 * R ≤ axial ∧ radial < 1.001 * R) := by
          have hz : transformT w.T_c2g (p - w.r_hub) = ⟨V3.dot d a, V3.dot d vert, V3.dot d s⟩ := by rw [e1, transformT_cols]
          have hrad : radial = Real.sqrt ((V3.dot d a)^2 + (V3.dot d vert)^2) := by
            simp only [radial, axial, es]
            rw [norm_eq_sqrt_dot]
            congr 1
            have hd := (ortho_round vert s d ho.vert e5 e8).1
            rw [← e9] at hd
            have n1 := ortho_norm vert s (transformT (M3.ofCols (V3.cross vert s) vert s) d) ho.vert e5 e8
            rw [← e9, hd, transformT_cols] at n1
            have n2 : V3.norm d ^ 2 = V3.norm ⟨V3.dot d a, V3.dot d vert, V3.dot d s⟩ ^ 2 := by rw [n1]
            rw [norm_sq, norm_sq] at n2
            have : V3.dot (d - V3.smul (V3.dot d s) s) (d - V3.smul (V3.dot d s) s) = V3.dot d d - (V3.dot d s)^2 * (2 - V3.dot s s) := by
              simp only [V3.dot, V3.sub_x, V3.sub_y, V3.sub_z, V3.smul_x, V3.smul_y, V3.smul_z]; ring
            rw [this, e5, n2]
            simp only [V3.dot]; ring
          rw [hz, hrad, hi.R]
          unfold inRotorTube
          simp only [axial, es]
          constructor
          · rintro ⟨q1, q2⟩
            exact ⟨by norm_num at q2 ⊢; linarith, by linarith⟩
          · rintro ⟨q1, q2⟩
            exact ⟨by linarith, by norm_num at q1 ⊢; linarith⟩
        rw [← hu, ← hu']
        simp only [WT.toGlobal, if_true, Bool.false_eq_true, if_false, zeroWake, List.getElem?_map, List.getElem?_zipWith, hvi, hr]
        simp only [Option.map_some, htube]
        split
        · simp only [fin_transform_zero]
        · rfl

/-- the tube is neither empty nor everything: hub and a far upstream point -/
example : (-0.6 * (50:ℝ) ≤ 0 ∧ (0:ℝ) < 1.001 * 50) ∧ ¬ (-0.6 * (50:ℝ) ≤ -100) := by norm_num

/-! ### C36 -/

/-- C36: a call of `update_loading` that raises leaves the turbine exactly as it was. -/
theorem C36_atomic (mini : (ℝ → Num) → ℝ) (w : WT) (a : LoadArgs) (e : String) (h : (w.updateLoading mini a).1 = .error e) :
    (w.updateLoading mini a).2 = w := by
  unfold WT.updateLoading at h ⊢
  simp only at h ⊢
  split at h
  · rename_i e1; simp only [e1]
  · rename_i e1
    split at h
    · rename_i e2; simp only [e1, e2]
    · rename_i e2
      split at h
      · rename_i e3; simp only [e1, e2, e3]
      · exact nomatch h

/-- C36: neither Ct nor Gamma, `gamma_t_Ct` without Ct, or no tip-speed ratio: the call raises (and by
`C36_atomic` changes nothing). -/
theorem C36_rejects (mini : (ℝ → Num) → ℝ) (w : WT) (a : LoadArgs)
    (h : (a.Ct = none ∧ a.Gamma = none) ∨ (a.gamma_t_Ct.isSome ∧ a.Ct = none) ∨ (a.Lambda = none ∧ w.Lambda = none)) :
    ∃ e, (w.updateLoading mini a).1 = .error e := by
  unfold WT.updateLoading
  simp only
  cases hr : reinterp w.R a with
  | error e => exact ⟨e, rfl⟩
  | ok x =>
    obtain ⟨r, Ct, Gamma⟩ := x
    have hCt : a.Ct = none → Ct = none := by
      intro hc
      unfold reinterp at hr
      split at hr
      · have := Except.ok.inj hr; simp only [Prod.mk.injEq] at this; rw [← this.2.1, hc]
      · split at hr
        · have := Except.ok.inj hr; simp only [Prod.mk.injEq] at this; rw [← this.2.1, hc]; rfl
        · simp only [hc] at hr
          split at hr
          · have := Except.ok.inj hr; simp only [Prod.mk.injEq] at this; exact this.2.1.symm
          · exact nomatch hr
    have hGa : a.Ct = none → a.Gamma = none → Gamma = none := by
      intro hc hg
      unfold reinterp at hr
      split at hr
      · have := Except.ok.inj hr; simp only [Prod.mk.injEq] at this; rw [← this.2.2, hg]
      · split at hr
        · have := Except.ok.inj hr; simp only [Prod.mk.injEq] at this; rw [← this.2.2, hg]; rfl
        · simp only [hc, hg] at hr
          have : ∀ v, interpArr v a.r none = .error "TypeError" := by intro v; unfold interpArr; cases a.r <;> rfl
          rw [this] at hr
          exact nomatch hr
    simp only
    rcases h with ⟨hc, hg⟩ | ⟨hf, hc⟩ | ⟨hl, hw⟩
    · rw [hCt hc, hGa hc hg]
      split
      · exact ⟨_, rfl⟩
      · cases hgf : a.gamma_t_Ct <;> exact ⟨_, rfl⟩
    · rw [hCt hc]
      split
      · exact ⟨_, rfl⟩
      · cases hgf : a.gamma_t_Ct with
        | none => rw [hgf] at hf; exact nomatch hf
        | some f => exact ⟨_, rfl⟩
    · rw [hl, hw]; exact ⟨_, rfl⟩

/-- C36: a successful call records the tip-speed ratio, the radial stations and the thrust coefficient it
used: the given ones, or for `nCyl` cylinders the stations `0.995R` (one) or `linspace(0.005,0.995,n)R`,
with the mean thrust (one cylinder) or the interpolated one. -/
theorem C36_records (mini : (ℝ → Num) → ℝ) (w : WT) (a : LoadArgs) (h : (w.updateLoading mini a).1 = .ok ()) :
    let w' := (w.updateLoading mini a).2
    w'.Lambda = a.Lambda.or w.Lambda ∧ w'.Lambda.isSome ∧
    (a.nCyl = none → w'.r = a.r ∧ w'.Ct = a.Ct) ∧
    (a.nCyl = some 1 → w'.r = some [0.995 * w.R] ∧ w'.Ct = a.Ct.map fun c => [npMean c]) ∧
    (∀ n, a.nCyl = some n → n ≠ 1 → w'.r = some ((linspace 0.005 0.995 n).map fun x => x * w.R) ∧
      (∀ Ct r, a.Ct = some Ct → a.r = some r →
        w'.Ct = some (((linspace 0.005 0.995 n).map fun x => x * w.R).map fun x => interp1 x (List.zip r Ct)))) ∧
    w'.R = w.R ∧ w'.U0_g = w.U0_g ∧ w'.r_hub = w.r_hub ∧ w'.yaw_pos = w.yaw_pos ∧ w'.chi = w.chi := by
  intro w'
  obtain ⟨b1, b2, -, -, -, -, -, -, -, b10, b11, -, b13, -⟩ := loading_frame mini w a
  refine and_assoc.mp (and_assoc.mp (and_assoc.mp (and_assoc.mp ⟨?_, b1, b11, b2, b10, b13⟩)))
  simp only [w']
  unfold WT.updateLoading at h ⊢
  simp only at h ⊢
  split at h
  · exact nomatch h
  · rename_i r Ct Gamma e1
    split at h
    · exact nomatch h
    · rename_i lam e2
      split at h
      · exact nomatch h
      · rename_i gt gl Gr e3
        simp only [e1, e2, e3]
        have hL : a.Lambda.or w.Lambda = some lam := by
          rw [← e2]; cases a.Lambda <;> rfl
        refine ⟨⟨⟨⟨hL.symm, rfl⟩, ?_⟩, ?_⟩, ?_⟩
        · intro hn
          unfold reinterp at e1
          rw [hn] at e1
          have := Except.ok.inj e1; simp only [Prod.mk.injEq] at this; exact ⟨this.1.symm, this.2.1.symm⟩
        · intro hn
          unfold reinterp at e1
          rw [hn] at e1
          simp only [if_true] at e1
          have := Except.ok.inj e1; simp only [Prod.mk.injEq] at this; exact ⟨this.1.symm, this.2.1.symm⟩
        · intro n hn h1
          unfold reinterp at e1
          rw [hn] at e1
          simp only [if_neg h1] at e1
          cases hc : a.Ct with
          | none =>
            rw [hc] at e1
            simp only at e1
            split at e1
            · have := Except.ok.inj e1; simp only [Prod.mk.injEq] at this
              exact ⟨this.1.symm, fun _ _ h => nomatch h⟩
            · exact nomatch e1
          | some c =>
            rw [hc] at e1
            simp only at e1
            split at e1
            · rename_i c' hc'
              have := Except.ok.inj e1; simp only [Prod.mk.injEq] at this
              refine ⟨this.1.symm, fun Ct' r' h1 h2 => ?_⟩
              rw [← this.2.1]
              have h1 := Option.some.inj h1
              rw [h2, h1] at hc'
              unfold interpArr at hc'
              simp only at hc'
              split at hc'
              · exact nomatch hc'
              · rw [← Except.ok.inj hc']
            · exact nomatch e1

/-- both outcomes are reachable -/
example (mini : (ℝ → Num) → ℝ) : (∃ e, (refTurbine.updateLoading mini {}).1 = .error e) ∧ (refTurbine.updateLoading mini refLoad).1 = .ok () := by
  obtain ⟨r, Ct, hl⟩ := refTurbine_loaded mini refTurbine rfl
  exact ⟨C36_rejects mini _ _ (.inl ⟨rfl, rfl⟩), by rw [hl]⟩

end Wiz
