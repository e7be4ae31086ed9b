import Verif.Props.Units
import Verif.Props.MoreThrust
import Verif.Lemmas.FarmMaps

/-! # C130: whole farm sessions in other units, and with stronger vorticity -/
set_option autoImplicit false

namespace Wiz
open Classical

theorem smul_addV (m : ℝ) (a b : V3 ℝ) : V3.smul m (a + b) = V3.smul m a + V3.smul m b := by
  ext <;> simp <;> ring
theorem smul_zeroV (m : ℝ) : V3.smul m (0 : V3 ℝ) = 0 := by ext <;> simp
theorem smul_injV {m : ℝ} (hm : 0 < m) (a b : V3 ℝ) (h : V3.smul m a = V3.smul m b) : a = b := by
  have hx := congrArg V3.x h
  have hy := congrArg V3.y h
  have hz := congrArg V3.z h
  simp only [V3.smul_x, V3.smul_y, V3.smul_z] at hx hy hz
  exact V3.ext (mul_left_cancel₀ hm.ne' hx) (mul_left_cancel₀ hm.ne' hy) (mul_left_cancel₀ hm.ne' hz)
theorem smul_surjV {m : ℝ} (hm : 0 < m) (b : V3 ℝ) : ∃ a, V3.smul m a = b := by
  refine ⟨V3.smul m⁻¹ b, ?_⟩
  ext <;> simp only [V3.smul_x, V3.smul_y, V3.smul_z] <;> rw [← mul_assoc, mul_inv_cancel₀ hm.ne', one_mul]

theorem scaled_axes (mini : (ℝ → Num) → ℝ) (k m : ℝ) (hk : 0 < k) (hm : 0 < m) (args : ℕ → TurbineArgs) :
    Axes mini (V3.smul k) (V3.smul m) (Op.scaled k m)
      (fun o => o.root = false ∧ ∀ t, o.Model.getD (args t).Model ≠ "VCFF" ∧ o.Model.getD (args t).Model ≠ "VD")
      (fun _ op => op.solves → k = m) (fun t => ScRel k m (args t).shaft (args t).vert (args t).R (args t).Model) where
  zero := smul_zeroV k
  vzero := smul_zeroV m
  vadd := smul_addV m
  inj := smul_injV hm
  surj := smul_surjV hm
  pos := fun p => rfl
  notpos := fun op hop p => by cases op <;> first | exact absurd rfl (hop _) | (intro h; exact nomatch h)
  hub := fun t w w' h => h.hub
  move := fun t w w' p h => by
    have f := frame_step mini _ _ _ w h.f (.position p)
    have f' := frame_step mini _ _ _ w' h.f' (.position (V3.smul k p))
    exact ⟨f, f', h.yaw, rfl, h.wind, h.r, h.gt, h.gl, h.Lambda, h.Ct, h.Ground, h.chi, h.Model, h.Model'⟩
  step := fun t w w' op h ho => sc_step _ _ _ _ w w' mini hk hm h op ho
  eval := fun t w w' h => by
    have := sc_step _ _ _ _ w w' mini hk hm h (.eval [] {}) (fun e => e.elim)
    have e : w.step mini (.eval [] {}) = { w with chi := some (usedChi w) } := computeU_state w [] {}
    have e' : w'.step mini (Op.scaled k m (.eval [] {})) = { w' with chi := some (usedChi w') } := computeU_state w' _ {}
    rw [e, e'] at this
    exact this
  comp := fun t w w' pts o h ho _ => by
    have key : (w'.computeU (pts.map (V3.smul k)) o).1 = mapOk (List.map (scV m)) (w.computeU pts o).1 :=
      sc_computeU _ _ _ _ w w' hk hm h pts o (ho.2 t) ho.1
    rw [key]
    exact sc_result hm _
  only := fun o h => h

/-- C130: a whole farm session in other units.  Build the turbines and carry out the session with every length multiplied by `k`
and every velocity by `m` (`m = k` if some loading computes its vorticity from `Ct` or `Gamma`): the farm holds the same items, the
hubs are at the same places in the new unit, `velocity_field` raises the same exceptions, and the velocities are the same in the
new unit.  Vortex cylinder and self-similar models. -/
theorem C130_units (mini : (ℝ → Num) → ℝ) (k m : ℝ) (hk : 0 < k) (hm : 0 < m) (args : ℕ → TurbineArgs) (items : List PyObj) (h : List FOp)
    (hl : k = m ∨ ∀ t a, FOp.call t (.loading a) ∈ h → a.gamma_t_Ct ≠ none)
    (hv : ∀ pts o U0, FOp.velocity pts o U0 ∈ h → o.root = false ∧ ∀ t, o.Model.getD (args t).Model ≠ "VCFF" ∧ o.Model.getD (args t).Model ≠ "VD")
    (pts : List (V3 ℝ)) (o : Opts) (hr : o.root = false) (hM : ∀ t, o.Model.getD (args t).Model ≠ "VCFF" ∧ o.Model.getD (args t).Model ≠ "VD")
    (U0 : Option (V3 ℝ)) :
    let q := frun mini items (fun t => (args t).build) h
    let q' := frun mini items (fun t => ((args t).scaled k m).build) (h.map (FOp.scaled k m))
    let x := (farmVelocity q.1 q.2 pts o U0).1
    let x' := (farmVelocity q'.1 q'.2 (pts.map (V3.smul k)) o (U0.map (V3.smul m))).1
    q'.1 = q.1 ∧ (∀ t, q'.2.hub t = V3.smul k (q.2.hub t)) ∧ (∀ e, x = .error e ↔ x' = .error e) ∧
    ∀ u u', x = .ok u → x' = .ok u' → ∀ (i : ℕ) (v : V3 ℝ), u[i]? = some (V3.fin v) ↔ u'[i]? = some (V3.fin (V3.smul m v)) := by
  refine axes_farm (scaled_axes mini k m hk hm args) items _ _ (fun t => sc_new _ _ _ _ _ _ _ _) h ?_ pts o ⟨hr, hM⟩ U0
  intro op hop
  cases op with
  | call t op =>
    cases op with
    | loading a => exact fun e => hl.elim id fun hl => absurd e (hl t a hop)
    | _ => exact fun e => e.elim
  | velocity pts o U0 => exact hv pts o U0 hop
  | _ => trivial

/-- two turbines of which the second has `m` times the vorticity -/
def StrongRel (m : ℝ) (w w' : WT) : Prop :=
  w.gamma_l = none ∧ w.Gamma_r = none ∧ w' = { w with gamma_t := w.gamma_t.map fun l => l.map (sc m) }

theorem strong_step {m : ℝ} (mini : (ℝ → Num) → ℝ) (w w' : WT) (h : StrongRel m w w') (op : Op) (ho : ∀ a, op = .loading a → a.gamma_t_Ct ≠ none) :
    StrongRel m (w.step mini op) (w'.step mini (op.stronger m)) := by
  obtain ⟨h1, h2, rfl⟩ := h
  cases op with
  | eval pts o =>
    have e : w.step mini (.eval pts o) = { w with chi := some (usedChi w) } := computeU_state w pts o
    have e' : ∀ w : WT, w.step mini (Op.stronger m (.eval pts o)) = { w with chi := some (usedChi w) } := fun w => computeU_state w pts o
    rw [e, e']
    exact ⟨h1, h2, rfl⟩
  | loading a =>
    have ha := ho a rfl
    obtain ⟨ar, aCt, aG, aL, aN, af⟩ := a
    cases af with
    | none => exact absurd rfl ha
    | some f =>
      have er : ∀ g, reinterp w.R ⟨ar, aCt, aG, aL, aN, g⟩ = reinterp w.R ⟨ar, aCt, aG, aL, aN, none⟩ := fun g => rfl
      simp only [WT.step, Op.stronger, Option.map_some]
      unfold WT.updateLoading
      simp only [er]
      cases reinterp w.R ⟨ar, aCt, aG, aL, aN, none⟩ with
      | error e => exact ⟨h1, h2, rfl⟩
      | ok x =>
        obtain ⟨r, Ct, Γ⟩ := x
        simp only
        cases aL with
        | none =>
          simp only
          cases hl : w.Lambda with
          | none => exact ⟨h1, h2, by simp only [hl]⟩
          | some l =>
            simp only
            unfold loadingSolve
            cases Ct with
            | none => exact ⟨h1, h2, by simp only [hl]⟩
            | some c => exact ⟨rfl, rfl, rfl⟩
        | some l =>
          simp only
          unfold loadingSolve
          cases Ct with
          | none => exact ⟨h1, h2, rfl⟩
          | some c => exact ⟨rfl, rfl, rfl⟩
  | _ => exact ⟨h1, h2, rfl⟩

theorem stronger_axes (mini : (ℝ → Num) → ℝ) (m : ℝ) (hm : 0 < m) :
    Axes mini id (V3.smul m) (Op.stronger m) (fun _ => True) (fun _ op => ∀ a, op = .loading a → a.gamma_t_Ct ≠ none) (fun _ => StrongRel m) where
  zero := rfl
  vzero := smul_zeroV m
  vadd := smul_addV m
  inj := smul_injV hm
  surj := smul_surjV hm
  pos := fun p => rfl
  notpos := fun op hop p => by cases op <;> first | exact absurd rfl (hop _) | (intro h; exact nomatch h)
  hub := fun t w w' h => by rw [h.2.2]; rfl
  move := fun t w w' p h => by obtain ⟨h1, h2, rfl⟩ := h; exact ⟨h1, h2, rfl⟩
  step := fun t w w' op h ho => strong_step mini w w' h op ho
  eval := fun t w w' h => by obtain ⟨h1, h2, rfl⟩ := h; exact ⟨h1, h2, rfl⟩
  comp := fun t w w' pts o h _ ho => by
    obtain ⟨h1, h2, rfl⟩ := h
    rw [List.map_id, str_computeU hm w { w with gamma_t := w.gamma_t.map fun l => l.map (sc m) } o ho
      ⟨rfl, rfl, rfl, rfl, rfl, rfl, rfl, rfl, .inl ⟨h1, h1⟩, .inl ⟨h2, h2⟩⟩ pts]
    exact sc_result hm _
  only := fun _ _ => trivial

/-- the free stream handed to `velocity_field` plays no part in what the call leaves behind -/
theorem farmVelocity_state (f : List PyObj) (s : World) (pts : List (V3 ℝ)) (o : Opts) (U0 U0' : Option (V3 ℝ)) :
    (farmVelocity f s pts o U0).2 = (farmVelocity f s pts o U0').2 := by
  unfold farmVelocity
  generalize farmLoop pts o f s _ = r
  obtain ⟨r1, r2⟩ := r
  cases r1 with
  | error e => rfl
  | ok u => cases U0 <;> cases U0' <;> rfl

theorem stronger_step (mini : (ℝ → Num) → ℝ) (m : ℝ) (q : List PyObj × World) (op : FOp) :
    fstep mini q (op.stronger m) = fstep mini q (op.mapped id (V3.smul m) (Op.stronger m)) := by
  cases op with
  | velocity pts o U0 =>
    simp only [FOp.stronger, FOp.mapped, List.map_id, fstep]
    rw [farmVelocity_state q.1 q.2 pts o U0 (U0.map (V3.smul m))]
  | newArray rows => simp only [FOp.stronger, FOp.mapped, List.map_id]
  | setLayout x => cases x <;> simp only [FOp.stronger, FOp.mapped, List.map_id]
  | _ => rfl

/-- C130: the velocities induced by a farm are proportional to the vorticity of its turbines.  Carry out a session in which every loading is
given by a strength function `gamma_t_Ct`, and the same session with `m` times those functions: the farm holds the same items at the same
places, `velocity_field` (without free stream) raises the same exceptions, and its velocities are multiplied by `m` everywhere.  All models. -/
theorem C130_stronger (mini : (ℝ → Num) → ℝ) (m : ℝ) (hm : 0 < m) (args : ℕ → TurbineArgs) (items : List PyObj) (h : List FOp)
    (hl : ∀ t a, FOp.call t (.loading a) ∈ h → a.gamma_t_Ct ≠ none) (pts : List (V3 ℝ)) (o : Opts) :
    let q := frun mini items (fun t => (args t).build) h
    let q' := frun mini items (fun t => (args t).build) (h.map (FOp.stronger m))
    let x := (farmVelocity q.1 q.2 pts o none).1
    let x' := (farmVelocity q'.1 q'.2 pts o none).1
    q'.1 = q.1 ∧ (∀ t, q'.2.hub t = q.2.hub t) ∧ (∀ e, x = .error e ↔ x' = .error e) ∧
    ∀ u u', x = .ok u → x' = .ok u' → ∀ (i : ℕ) (v : V3 ℝ), u[i]? = some (V3.fin v) ↔ u'[i]? = some (V3.fin (V3.smul m v)) := by
  have e : frun mini items (fun t => (args t).build) (h.map (FOp.stronger m)) =
      frun mini items (fun t => (args t).build) (h.map (FOp.mapped id (V3.smul m) (Op.stronger m))) := by
    unfold frun
    generalize ((farmNew items, (⟨fun t => (args t).build, fun _ => none, fun _ => [], 0⟩ : World)) : List PyObj × World) = q
    clear hl
    induction h generalizing q with
    | nil => rfl
    | cons op h ih => simp only [List.map_cons, List.foldl_cons, stronger_step, ih]
  rw [e]
  have := axes_farm (stronger_axes mini m hm) items (fun t => (args t).build) (fun t => (args t).build) (fun t => ⟨rfl, rfl, rfl⟩) h (by
    intro op hop
    cases op with
    | call t op => intro a ea; subst ea; exact hl t a hop
    | _ => trivial) pts o trivial none
  rw [List.map_id] at this
  exact this

/-- the hypotheses are met by a session with two turbines, loaded with the same function, moved and yawed; the second session differs -/
example : let args : ℕ → TurbineArgs := fun t => ⟨1, ⟨5*t, 0, 0⟩, ⟨0, 0, 1⟩, ⟨0, 1, 0⟩, ⟨0, 0, 10⟩, some .pinf, false, "VC"⟩
    let f : List Num → List Num := fun _ => [.fin (-4)]
    let h : List FOp := [.append (.turbine 0), .append (.turbine 1), .call 0 (.loading { Ct := some [.fin 0.5], gamma_t_Ct := some f }),
      .call 1 (.loading { Ct := some [.fin 0.5], gamma_t_Ct := some f }), .call 0 (.yaw 0.3), .newArray [⟨1, 2, 3⟩, ⟨4, 5, 6⟩], .setLayout (.array 0),
      .velocity [⟨1, 1, 1⟩] {} none]
    (∀ t a, FOp.call t (.loading a) ∈ h → a.gamma_t_Ct ≠ none) ∧
    (∀ pts o U0, FOp.velocity pts o U0 ∈ h → o.root = false ∧ ∀ t, o.Model.getD (args t).Model ≠ "VCFF" ∧ o.Model.getD (args t).Model ≠ "VD") ∧
    ((FOp.call 0 (.loading { Ct := some [.fin 0.5], gamma_t_Ct := some f })).stronger 2 =
      .call 0 (.loading { Ct := some [.fin 0.5], gamma_t_Ct := some fun _ => [.fin (-8)] })) ∧
    (FOp.newArray [⟨1, 2, 3⟩]).scaled 10 3 = .newArray [⟨10, 20, 30⟩] ∧ (FOp.call 1 (.wind ⟨1, 0, 9⟩)).scaled 10 3 = .call 1 (.wind ⟨3, 0, 27⟩) := by
  intro args f h
  refine ⟨?_, ?_, ?_, ?_, ?_⟩
  · intro t a hm
    simp [h] at hm
    rcases hm with hm | hm <;> rw [hm.2] <;> simp
  · intro pts o U0 hv
    simp [h] at hv
    rw [hv.2.1]; exact ⟨rfl, fun t => ⟨by change ¬ "VC" = "VCFF"; decide, by change ¬ "VC" = "VD"; decide⟩⟩
  · have e : Num.fin 2 * Num.fin (-4) = Num.fin (-8) := by rw [Num.fin_mul]; norm_num
    simp only [FOp.stronger, Op.stronger, Option.map_some, f, List.map_cons, List.map_nil, e]
  · simp only [FOp.scaled, FOp.mapped, List.map_cons, List.map_nil, V3.smul]; norm_num
  · simp only [FOp.scaled, FOp.mapped, Op.scaled, V3.smul]; norm_num

end Wiz
