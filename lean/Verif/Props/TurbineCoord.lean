import Verif.Model.TurbineCoord
import Verif.Lemmas.TurbineEval
import Verif.Props.TurbineState

/-! # C122: re-orienting a turbine -/
namespace Wiz
open Spec Classical Real
noncomputable section

theorem run_snoc (mini : (ℝ → Num) → ℝ) (w : WT) (h : List Op) (op : Op) : w.run mini (h ++ [op]) = (w.run mini h).step mini op := by
  simp [WT.run, List.foldl_append]

/-- A change of the object that commutes with every mutator, and forgets or respects the yaw, turns histories into histories. -/
theorem transport (mini : (ℝ → Num) → ℝ) (φ : WT → WT) (w0 : WT)
    (hy : (∀ w y, φ (w.updateYawPos y) = φ w) ∨ ∀ w y, φ (w.updateYawPos y) = (φ w).updateYawPos y)
    (hp : ∀ w p, φ (w.updatePosition p) = (φ w).updatePosition p) (hw : ∀ w u, φ (w.updateWind u) = (φ w).updateWind u)
    (hl : ∀ w a, φ (w.updateLoading mini a).2 = ((φ w).updateLoading mini a).2) (hc : ∀ (w : WT) c, φ (w.setChi c) = (φ w).setChi c) :
    ∀ h, ∃ h', φ (w0.run mini h) = (φ w0).run mini h' := by
  intro h
  induction h using List.reverseRecOn with
  | nil => exact ⟨[], rfl⟩
  | append_singleton h op ih =>
    obtain ⟨h', e⟩ := ih
    rw [run_snoc]
    cases op with
    | yaw y =>
      rcases hy with hy | hy
      · exact ⟨h', (hy _ _).trans e⟩
      · exact ⟨h' ++ [.yaw y], by rw [run_snoc, ← e]; exact hy _ _⟩
    | position p => exact ⟨h' ++ [.position p], by rw [run_snoc, ← e]; exact hp _ _⟩
    | wind u => exact ⟨h' ++ [.wind u], by rw [run_snoc, ← e]; exact hw _ _⟩
    | loading a => exact ⟨h' ++ [.loading a], by rw [run_snoc, ← e]; exact hl _ _⟩
    | chi c => exact ⟨h' ++ [.chi c], by rw [run_snoc, ← e]; exact hc _ _⟩
    | eval pts o =>
      refine ⟨h' ++ [.chi (some (match (w0.run mini h).chi with | some c => c | none => (w0.run mini h).chiAuto))], ?_⟩
      rw [run_snoc, ← e]
      change φ ((w0.run mini h).computeU pts o).2 = _
      rw [computeU_state]
      exact hc _ _

theorem loading_yaw0 (mini : (ℝ → Num) → ℝ) (s v : V3 ℝ) (w : WT) (a : LoadArgs) :
    (w.updateLoading mini a).2.setYaw0Coord s v = ((w.setYaw0Coord s v).updateLoading mini a).2 := by
  unfold WT.updateLoading WT.setYaw0Coord WT.updateYawPos
  simp only
  split
  · rfl
  · split
    · rfl
    · split <;> rfl

theorem loading_ground (mini : (ℝ → Num) → ℝ) (b : Bool) (w : WT) (a : LoadArgs) :
    { (w.updateLoading mini a).2 with Ground := b } = (({ w with Ground := b } : WT).updateLoading mini a).2 := by
  unfold WT.updateLoading
  simp only
  split
  · rfl
  · split
    · rfl
    · split <;> rfl

theorem loading_model (mini : (ℝ → Num) → ℝ) (b : String) (w : WT) (a : LoadArgs) :
    { (w.updateLoading mini a).2 with Model := b } = (({ w with Model := b } : WT).updateLoading mini a).2 := by
  unfold WT.updateLoading
  simp only
  split
  · rfl
  · split
    · rfl
    · split <;> rfl

/-- C122: a turbine re-oriented at any point of its life is the turbine that was built in that orientation.  Whatever the sequence of method
calls, calls of `set_yaw0_coord` and assignments to `Ground` and `Model`, the object is exactly the one obtained from the constructor with the
orientation, ground flag and model set last, by some sequence of ordinary method calls: everything proved here for all turbines and all
histories holds for it. -/
theorem C122_reachable (mini : (ℝ → Num) → ℝ) (R : ℝ) (hub shaft vert U0 : V3 ℝ) (L : Option Num) (G : Bool) (M : String) (h : List OpX) :
    let lastAxes := (h.filterMap fun op => match op with | .yaw0 s v => some (s, v) | _ => none).getLast?.getD (shaft, vert)
    let lastGround := (h.filterMap fun op => match op with | .ground b => some b | _ => none).getLast?.getD G
    let lastModel := (h.filterMap fun op => match op with | .model m => some m | _ => none).getLast?.getD M
    ∃ h' : List Op, (WT.new R hub shaft vert U0 L G M).runX mini h =
      (WT.new R hub lastAxes.1 lastAxes.2 U0 L lastGround lastModel).run mini h' := by
  induction h using List.reverseRecOn with
  | nil => exact ⟨[], rfl⟩
  | append_singleton h op ih =>
    simp only at ih ⊢
    obtain ⟨h', e⟩ := ih
    have er : (WT.new R hub shaft vert U0 L G M).runX mini (h ++ [op]) = ((WT.new R hub shaft vert U0 L G M).runX mini h).stepX mini op := by
      simp [WT.runX, List.foldl_append]
    rw [er, e]
    simp only [List.filterMap_append]
    cases op with
    | call op =>
      refine ⟨h' ++ [op], ?_⟩
      rw [run_snoc]
      simp only [List.filterMap_cons, List.filterMap_nil, List.append_nil]
      rfl
    | yaw0 s v =>
      simp only [List.filterMap_cons, List.filterMap_nil, List.append_nil, List.getLast?_append, List.getLast?_singleton, Option.some_or, Option.getD_some]
      obtain ⟨h2, e2⟩ := transport mini (fun w => w.setYaw0Coord s v) _ (Or.inl fun _ _ => rfl) (fun _ _ => rfl) (fun _ _ => rfl)
        (fun w a => loading_yaw0 mini s v w a) (fun _ _ => rfl) h'
      exact ⟨h2, e2⟩
    | ground b =>
      simp only [List.filterMap_cons, List.filterMap_nil, List.append_nil, List.getLast?_append, List.getLast?_singleton, Option.some_or, Option.getD_some]
      obtain ⟨h2, e2⟩ := transport mini (fun w => { w with Ground := b }) _ (Or.inr fun _ _ => rfl) (fun _ _ => rfl) (fun _ _ => rfl)
        (fun w a => loading_ground mini b w a) (fun _ _ => rfl) h'
      exact ⟨h2, e2⟩
    | model m =>
      simp only [List.filterMap_cons, List.filterMap_nil, List.append_nil, List.getLast?_append, List.getLast?_singleton, Option.some_or, Option.getD_some]
      obtain ⟨h2, e2⟩ := transport mini (fun w => { w with Model := m }) _ (Or.inr fun _ _ => rfl) (fun _ _ => rfl) (fun _ _ => rfl)
        (fun w a => loading_model mini m w a) (fun _ _ => rfl) h'
      exact ⟨h2, e2⟩

/-- C122 (effects): `set_yaw0_coord` points the shaft along the given direction with zero yaw and changes neither position, wind, loading,
ground flag, model nor skew angle; the stored loading is what the next evaluation uses. -/
theorem C122_effects (w : WT) (s v : V3 ℝ) :
    let w' := w.setYaw0Coord s v
    w'.e_shaft_g = s ∧ w'.e_vert_g = v ∧ w'.yaw_pos = 0 ∧ w'.r_hub = w.r_hub ∧ w'.U0_g = w.U0_g ∧ w'.R = w.R ∧ w'.gamma_t = w.gamma_t ∧
    w'.gamma_l = w.gamma_l ∧ w'.Gamma_r = w.Gamma_r ∧ w'.r = w.r ∧ w'.Lambda = w.Lambda ∧ w'.Ct = w.Ct ∧ w'.Ground = w.Ground ∧ w'.Model = w.Model ∧
    w'.chi = w.chi := by
  refine ⟨?_, rfl, rfl, rfl, rfl, rfl, rfl, rfl, rfl, rfl, rfl, rfl, rfl, rfl, rfl⟩
  ext <;> simp [WT.setYaw0Coord, WT.updateYawPos, rotMatAxisAngle, M3.mulVec]

/-- C122 (stale skew): the skew angle is not part of the orientation: once an evaluation has fixed it, evaluations after any number of
re-orientations, yaw changes and wind changes still use it, until `set_chi` is called. -/
theorem C122_stale_chi (mini : (ℝ → Num) → ℝ) (w : WT) (c : Num) (hc : w.chi = some c) (h : List OpX)
    (hno : ∀ x, OpX.call (.chi x) ∉ h) (pts : List (V3 ℝ)) (o : Opts) : ((w.runX mini h).computeU pts o).2.chi = some c := by
  have key : (w.runX mini h).chi = some c := by
    induction h using List.reverseRecOn with
    | nil => exact hc
    | append_singleton h op ih =>
      have ih := ih fun x hx => hno x (List.mem_append_left _ hx)
      have er : w.runX mini (h ++ [op]) = (w.runX mini h).stepX mini op := by simp [WT.runX, List.foldl_append]
      rw [er]
      generalize w.runX mini h = w1 at ih
      cases op with
      | yaw0 s v => exact ih
      | ground b => exact ih
      | model m => exact ih
      | call op =>
        cases op with
        | yaw y => exact ih
        | position p => exact ih
        | wind u => exact ih
        | chi x => exact absurd (List.mem_append_right h (List.mem_singleton.mpr rfl)) (hno x)
        | eval pts o =>
          change (w1.computeU pts o).2.chi = _
          rw [computeU_state]
          simp only [ih]
        | loading a =>
          change (w1.updateLoading mini a).2.chi = _
          unfold WT.updateLoading
          simp only
          split
          · exact ih
          · split
            · exact ih
            · split <;> exact ih
  rw [computeU_state]
  simp only [key]

/-- C122 (assigned vorticity): assigning `gamma_t` directly, as the scripts do, gives on a turbine without longitudinal and root vorticity the
same velocities as `update_loading` with a constant `gamma_t_Ct` (whatever thrust coefficient it is given).  `longi=True` is excluded
because the constructor leaves `gamma_l` undefined and reading it raises, which the model (`none`) does not show. -/
theorem C122_gamma_t (mini : (ℝ → Num) → ℝ) (w : WT) (g c : List Num) (l : Num) (hl : w.Lambda = some l) (h1 : w.gamma_l = none) (h2 : w.Gamma_r = none)
    (pts : List (V3 ℝ)) (o : Opts) (_hlo : o.longi = false) :
    ((w.assignGammaT g).computeU pts o).1 =
      ((w.updateLoading mini { r := w.r, Ct := some c, nCyl := none, gamma_t_Ct := some fun _ => g }).2.computeU pts o).1 := by
  have e : (w.updateLoading mini { r := w.r, Ct := some c, nCyl := none, gamma_t_Ct := some fun _ => g }).2 =
      { w with gamma_t := some g, gamma_l := none, Gamma_r := none, Lambda := some l, r := w.r, Ct := some c } := by
    unfold WT.updateLoading
    have e1 : reinterp w.R { r := w.r, Ct := some c, nCyl := none, gamma_t_Ct := some fun _ => g } = .ok (w.r, some c, none) := rfl
    simp only [e1, hl]
    rfl
  have e' : w.assignGammaT g = { w with gamma_t := some g, gamma_l := none, Gamma_r := none, Lambda := some l, r := w.r } := by
    unfold WT.assignGammaT
    rw [← h1, ← h2, ← hl]
  rw [e, e', computeU_val, computeU_val]
  rfl

/-- a turbine evaluated, re-oriented and evaluated again: the hypotheses of `C122_stale_chi` are met -/
example (mini : (ℝ → Num) → ℝ) :
    ∃ c, ((WT.new 50 ⟨0,0,0⟩ ⟨0,0,1⟩ ⟨0,1,0⟩ ⟨0,0,10⟩ (some .pinf) false "VC").runX mini [.call (.eval [] {})]).chi = some c ∧
      ∀ x, OpX.call (.chi x) ∉ [OpX.yaw0 ⟨1,0,0⟩ ⟨0,1,0⟩, .call (.yaw 1), .ground true] := by
  refine ⟨(WT.new 50 ⟨0,0,0⟩ ⟨0,0,1⟩ ⟨0,1,0⟩ ⟨0,0,10⟩ (some .pinf) false "VC").chiAuto, ?_, by simp⟩
  change ((WT.new 50 ⟨0,0,0⟩ ⟨0,0,1⟩ ⟨0,1,0⟩ ⟨0,0,10⟩ (some .pinf) false "VC").computeU [] {}).2.chi = _
  rw [computeU_state]
  rfl

/-- a fresh turbine with a tip-speed ratio meets the hypotheses of `C122_gamma_t` -/
example : let w := WT.new 50 ⟨0,0,0⟩ ⟨0,0,1⟩ ⟨0,1,0⟩ ⟨0,0,10⟩ (some .pinf) false "VC"
    w.Lambda = some .pinf ∧ w.gamma_l = none ∧ w.Gamma_r = none := ⟨rfl, rfl, rfl⟩

end
end Wiz
