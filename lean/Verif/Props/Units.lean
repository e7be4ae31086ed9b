import Verif.Lemmas.TurbineScale
import Verif.Props.VortexDoublet

/-! # C127: the unit of length is immaterial -/
namespace Wiz
open Classical

theorem scV_fin_iff {m : ℝ} (hm : 0 < m) (x : V3 Num) (v : V3 ℝ) : x = V3.fin v ↔ scV m x = V3.fin (V3.smul m v) := by
  constructor
  · intro h; rw [h]; rfl
  · intro h
    have e : ∀ (a : Num) (b : ℝ), sc m a = .fin (m * b) → a = .fin b := by
      intro a b hab
      have := congrArg (sc m⁻¹) hab
      rw [sc_sc (inv_pos.2 hm) hm, inv_mul_cancel₀ hm.ne', sc_one, sc_fin, ← mul_assoc, inv_mul_cancel₀ hm.ne', one_mul] at this
      exact this
    exact V3.ext (e _ _ (congrArg V3.x h)) (e _ _ (congrArg V3.y h)) (e _ _ (congrArg V3.z h))

theorem sc_result {m : ℝ} (hm : 0 < m) (x : Except String (List (V3 Num))) :
    (∀ e, x = .error e ↔ mapOk (List.map (scV m)) x = .error e) ∧
    ∀ u u', x = .ok u → mapOk (List.map (scV m)) x = .ok u' →
      ∀ (i : ℕ) (v : V3 ℝ), u[i]? = some (V3.fin v) ↔ u'[i]? = some (V3.fin (V3.smul m v)) := by
  cases x with
  | error e => exact ⟨fun e' => Iff.rfl, fun u u' h => by cases h⟩
  | ok x =>
    refine ⟨fun e => ⟨(fun h => by cases h), (fun h => by cases h)⟩, ?_⟩
    intro u u' h h' i v
    obtain rfl : x = u := Except.ok.inj h
    obtain rfl : x.map (scV m) = u' := Except.ok.inj h'
    rw [List.getElem?_map]
    cases x[i]? with
    | none => simp
    | some y =>
      simp only [Option.map_some, Option.some.injEq]
      exact scV_fin_iff hm y v

/-- C127: the unit of length is immaterial.  Express a whole history in another unit of length (every length, velocity and circulation
is multiplied accordingly; angles, thrust coefficients and tip speed ratios are not):
evaluations raise the same exceptions and return the same velocities in the new unit.  Holds for the vortex cylinder and the
self-similar models, aligned or skewed, one or several cylinders, with or without ground, `no_wake`, `longi`. -/
theorem C127_length_unit (mini : (ℝ → Num) → ℝ) (k : ℝ) (hk : 0 < k) (R : ℝ) (hub shaft vert U0 : V3 ℝ) (L : Option Num) (G : Bool)
    (M : String) (h : List Op) (pts : List (V3 ℝ)) (o : Opts) (hr : o.root = false) (hM : o.Model.getD M ≠ "VCFF" ∧ o.Model.getD M ≠ "VD") :
    let w := (WT.new R hub shaft vert U0 L G M).run mini h
    let w' := (WT.new (k * R) (V3.smul k hub) shaft vert (V3.smul k U0) L G M).run mini (h.map (Op.scaled k k))
    (∀ e, (w.computeU pts o).1 = .error e ↔ (w'.computeU (pts.map (V3.smul k)) o).1 = .error e) ∧
    ∀ u u', (w.computeU pts o).1 = .ok u → (w'.computeU (pts.map (V3.smul k)) o).1 = .ok u' →
      ∀ (i : ℕ) (v : V3 ℝ), u[i]? = some (V3.fin v) ↔ u'[i]? = some (V3.fin (V3.smul k v)) := by
  intro w w'
  have rel := sc_run (k := k) (m := k) shaft vert R M mini hk hk h _ _ (fun _ _ _ => rfl) (sc_new shaft vert R M hub U0 L G)
  have key : (w'.computeU (pts.map (V3.smul k)) o).1 = mapOk (List.map (scV k)) (w.computeU pts o).1 :=
    sc_computeU shaft vert R M _ _ hk hk rel pts o hM hr
  rw [key]
  exact sc_result hk _

/-- C127: when the vorticity is given as a function of the thrust coefficient, lengths and velocities may be given in unrelated
units: `k` multiplies the lengths, `m` the velocities. -/
theorem C127_length_and_speed_units (mini : (ℝ → Num) → ℝ) (k m : ℝ) (hk : 0 < k) (hm : 0 < m) (R : ℝ) (hub shaft vert U0 : V3 ℝ) (L : Option Num)
    (G : Bool) (M : String) (h : List Op) (hf : ∀ a, Op.loading a ∈ h → a.gamma_t_Ct ≠ none)
    (pts : List (V3 ℝ)) (o : Opts) (hr : o.root = false) (hM : o.Model.getD M ≠ "VCFF" ∧ o.Model.getD M ≠ "VD") :
    let w := (WT.new R hub shaft vert U0 L G M).run mini h
    let w' := (WT.new (k * R) (V3.smul k hub) shaft vert (V3.smul m U0) L G M).run mini (h.map (Op.scaled k m))
    (∀ e, (w.computeU pts o).1 = .error e ↔ (w'.computeU (pts.map (V3.smul k)) o).1 = .error e) ∧
    ∀ u u', (w.computeU pts o).1 = .ok u → (w'.computeU (pts.map (V3.smul k)) o).1 = .ok u' →
      ∀ (i : ℕ) (v : V3 ℝ), u[i]? = some (V3.fin v) ↔ u'[i]? = some (V3.fin (V3.smul m v)) := by
  intro w w'
  have hs : ∀ op ∈ h, op.solves → k = m := by
    intro op hop
    cases op with
    | loading a => exact fun e => absurd e (hf a hop)
    | _ => exact fun e => e.elim
  have rel := sc_run (k := k) (m := m) shaft vert R M mini hk hm h _ _ hs (sc_new shaft vert R M hub U0 L G)
  have key : (w'.computeU (pts.map (V3.smul k)) o).1 = mapOk (List.map (scV m)) (w.computeU pts o).1 :=
    sc_computeU shaft vert R M _ _ hk hm rel pts o hM hr
  rw [key]
  exact sc_result hm _

/-- C127: what the loading stores, in another unit of length: the same exception or the same angles and coefficients, with
radii and vorticities in the new unit. -/
theorem C127_loading (mini : (ℝ → Num) → ℝ) (k : ℝ) (hk : 0 < k) (R : ℝ) (hub shaft vert U0 : V3 ℝ) (L : Option Num) (G : Bool)
    (M : String) (h : List Op) (a : LoadArgs) :
    let w := (WT.new R hub shaft vert U0 L G M).run mini h
    let w' := (WT.new (k * R) (V3.smul k hub) shaft vert (V3.smul k U0) L G M).run mini (h.map (Op.scaled k k))
    let l := w.updateLoading mini a
    let l' := w'.updateLoading mini (a.scaled k k)
    l'.1 = l.1 ∧ l'.2.Lambda = l.2.Lambda ∧ l'.2.Ct = l.2.Ct ∧ l'.2.r = l.2.r.map (fun x => x.map fun r => k * r) ∧
    l'.2.gamma_t = l.2.gamma_t.map (fun x => x.map fun g => Num.fin k * g) ∧ l'.2.gamma_l = l.2.gamma_l.map (fun x => x.map fun g => Num.fin k * g) := by
  intro w w' l l'
  have rel := sc_run (k := k) (m := k) shaft vert R M mini hk hk h _ _ (fun _ _ _ => rfl) (sc_new shaft vert R M hub U0 L G)
  obtain ⟨h1, h2, h3, h4, h5, h6⟩ := sc_loading shaft vert R M _ _ mini hk hk rel a (fun _ => rfl)
  exact ⟨h1, h5, h6, h2, h3, h4⟩

theorem units_frame (R : ℝ) (w : WT) (hi : FrameInv ⟨0, 0, 1⟩ ⟨0, 1, 0⟩ R w) (hy : w.yaw_pos = 0) : w.T_c2g = M3.id := by
  rw [T_c2g_eq _ _ _ w hi, hy, M3.ext_iff]
  simp [M3.ofCols, M3.id, turn, V3.cross, V3.dot]

/-- C127 (refuted for the doublet models): the tolerances of the doublet line are absolute lengths.  The point at
`(3e-9, 0, 4e-9)` of the hub of a turbine with the model "VD" has no induced velocity; in a unit of length a billion times
smaller the same point has one. -/
theorem C127_doublet_refuted (mini : (ℝ → Num) → ℝ) :
    let a : LoadArgs := { Ct := some [.fin 1], gamma_t_Ct := some fun _ => [.fin (-1)] }
    let w := (WT.new 1 0 ⟨0, 0, 1⟩ ⟨0, 1, 0⟩ ⟨0, 0, 1⟩ (some .pinf) false "VD").run mini [.loading a, .chi (some (.fin 0))]
    let k : ℝ := 1000000000
    let w' := (WT.new (k * 1) (V3.smul k 0) ⟨0, 0, 1⟩ ⟨0, 1, 0⟩ (V3.smul k ⟨0, 0, 1⟩) (some .pinf) false "VD").run mini
      ([.loading a, .chi (some (.fin 0))].map (Op.scaled k k))
    let p : V3 ℝ := ⟨3e-9, 0, 4e-9⟩
    (w.computeU [p] { only_ind := true }).1 = .ok [V3.fin 0] ∧
    ∃ v : V3 ℝ, 0 < v.z ∧ (w'.computeU [V3.smul k p] { only_ind := true }).1 = .ok [V3.fin v] := by
  intro a w k w' p
  have T : w.T_c2g = M3.id := units_frame 1 _ (frame_run mini _ _ _ _ _ (frame_new _ _ _ _ _ _ _ _)) rfl
  have T' : w'.T_c2g = M3.id := units_frame (k*1) _ (frame_run mini _ _ _ _ _ (frame_new _ _ _ _ _ _ _ _)) rfl
  have g' : w'.gamma_t = some [.fin (k * -1)] := rfl
  have body : ∀ (γ R : ℝ), γ ≠ 0 → ∀ q : V3 ℝ, ∀ x : V3 ℝ, doubletLineU q (.fin γ * .fin R^2 * .fin Real.pi) 0 none = V3.fin x →
      overY (singleBody (.fin 0) (Num.tan (.fin 0)) "VD" (.fin γ) none R { only_ind := true }) [0] [[q]] = .ok [V3.fin x] := by
    intro γ R hγ q x hx
    have ht : True ∧ ¬ Num.Eqv (.fin γ) 0 := ⟨trivial, by simpa [Num.Eqv] using hγ⟩
    have hy : ¬ yawed (.fin 0) := by unfold yawed; simp [Num.abs]; norm_num
    have n1 : ¬ "VD" = "VC" := by decide
    have n2 : ¬ "VD" = "VCFF" := by decide
    simp only [overY, singleBody, if_pos ht, tangPart, if_neg hy, accum, if_neg n1, if_neg n2, if_true, List.map_cons, List.map_nil, hx, addFields,
      List.zipWith_cons_cons, List.zipWith_nil_left]
    congr 2
    apply V3.ext <;> exact zero_add _
  have val : ∀ (w : WT) (γ R : ℝ) (q x : V3 ℝ), w.T_c2g = M3.id → w.gamma_t = some [.fin γ] → w.gamma_l = none → w.r_hub = 0 → w.chi = some (.fin 0) →
      w.R = R → w.Model = "VD" → w.Ground = false → γ ≠ 0 → doubletLineU q (.fin γ * .fin R^2 * .fin Real.pi) 0 none = V3.fin x →
      (w.computeU [q] { only_ind := true }).1 = .ok [V3.fin x] := by
    intro w γ R q x hT hg hl hh hc hR hM hG hγ hx
    have e0 : ∀ q : V3 ℝ, transformT M3.id q = q := by
      intro q; apply V3.ext <;> simp [transformT, M3.id]
    have e1 : relPts [q] 0 = [q] := by
      unfold relPts; simp only [List.map_cons, List.map_nil]; congr 1
      apply V3.ext <;> simp
    rw [computeU_val, hg]
    have ei : w.inducedC (usedChi w) [.fin γ] [q] { only_ind := true } = .ok [V3.fin x] := by
      have hu : usedChi w = .fin 0 := by unfold usedChi; rw [hc]
      unfold WT.inducedC
      simp only [hu, hM, hG, hl, hh, hR, hT, e0, Option.getD_none, Bool.false_eq_true, if_false, List.map_cons, List.map_nil, e1]
      exact body γ R hγ q x hx
    simp only [ei, Bool.false_eq_true, if_false, WT.toGlobal, if_true, List.map_cons, List.map_nil, hT]
    congr 2
    apply V3.ext <;> simp [transform, M3.fin, M3.id, V3.fin]
  constructor
  · apply val w (-1) 1 p 0 T rfl rfl rfl rfl rfl rfl rfl (by norm_num)
    have : (.fin (-1) * .fin 1^2 * .fin Real.pi : Num) = .fin (-1 * 1^2 * Real.pi) := by simp only [Num.fin_mul, Num.fin_pow]
    rw [this]
    exact (C58_semi_infinite p _ 0).2 ⟨by norm_num [p], by norm_num [p, abs_of_pos], by norm_num [p]⟩
  · have e : (.fin (k * -1) * .fin (k*1)^2 * .fin Real.pi : Num) = .fin (k * -1 * (k*1)^2 * Real.pi) := by simp only [Num.fin_mul, Num.fin_pow]
    have pe : V3.smul k p = ⟨3, 0, 4⟩ := by ext <;> simp [k, p] <;> norm_num
    have pn : V3.norm (⟨3, 0, 4⟩ : V3 ℝ) = 5 := by
      change √((3:ℝ)^2 + 0^2 + 4^2) = 5
      rw [show (3:ℝ)^2 + 0^2 + 4^2 = 5^2 by norm_num, Real.sqrt_sq (by norm_num)]
    refine ⟨V3.smul (-((k * -1 * (k*1)^2 * Real.pi)/(4*Real.pi)) / 5^3) ⟨3, 0, 4⟩, ?_, ?_⟩
    · have := Real.pi_pos
      simp only [V3.smul_z, k]
      have : -((1000000000 * -1 * (1000000000*1)^2 * Real.pi)/(4*Real.pi)) / 5^3 * 4 = (1000000000:ℝ)^3 / 125 := by
        field_simp; norm_num
      rw [this]; positivity
    · rw [pe]
      have h0 : V3.smul k (0 : V3 ℝ) = 0 := by ext <;> simp
      apply val w' (k * -1) (k*1) ⟨3, 0, 4⟩ _ T' g' rfl h0 rfl rfl rfl rfl (by norm_num [k])
      rw [e, C59_point_source, pn]
      norm_num

/-- the hypotheses are met by a yawed turbine with a spanwise loading, evaluated above ground; metres to feet -/
example : let o : Opts := { ground := some true, longi := true, no_wake := true }
    let h : List Op := [.position ⟨100, 0, 500⟩, .yaw 0.2, .wind ⟨1, 0, 9⟩,
      .loading { r := some [10, 20, 30], Gamma := some [.fin 50, .fin 60, .fin 40], Lambda := some (.fin 7), nCyl := none }, .eval [⟨0, 0, 0⟩] {}]
    (0:ℝ) < 3.28084 ∧ o.root = false ∧ (o.Model.getD "VC" ≠ "VCFF" ∧ o.Model.getD "VC" ≠ "VD") ∧
    h.map (Op.scaled 2 2) = [.position ⟨200, 0, 1000⟩, .yaw 0.2, .wind ⟨2, 0, 18⟩,
      .loading { r := some [20, 40, 60], Gamma := some [.fin 200, .fin 240, .fin 160], Lambda := some (.fin 7), nCyl := none }, .eval [⟨0, 0, 0⟩] {}] := by
  intro o h
  refine ⟨by norm_num, rfl, ⟨by decide, by decide⟩, ?_⟩
  simp only [h, List.map_cons, List.map_nil, Op.scaled, LoadArgs.scaled, Option.map_some, Option.map_none, Num.fin_mul, V3.smul]
  norm_num

end Wiz
