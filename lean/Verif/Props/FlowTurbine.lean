import Verif.Props.Flow
import Verif.Lemmas.FlowTurbine
import Verif.Props.WindFarm
/-! # C87/C88: the velocity field of a turbine conserves mass -/
namespace Wiz
open Spec Classical Filter Topology
noncomputable section

theorem frame_axes (mini : (ℝ → Num) → ℝ) (R : ℝ) (hub shaft vert U0 : V3 ℝ) (L : Option Num) (G : Bool)
    (M : String) (ho : Orthonormal shaft vert) (h : List Op) :
    let w := (WT.new R hub shaft vert U0 L G M).run mini h
    let s := w.e_shaft_g
    let a := V3.cross vert s
    V3.dot a a = 1 ∧ V3.dot vert vert = 1 ∧ V3.dot s s = 1 ∧ V3.dot a vert = 0 ∧ V3.dot a s = 0 ∧ V3.dot vert s = 0 := by
  intro w s a
  have hi := frame_run mini shaft vert R h _ (frame_new R hub shaft vert U0 L G M)
  obtain ⟨a', s', e1, -, e3, e4, e5, e6, e7, e8, e9⟩ := frame_cols shaft vert R ho w hi
  have hs : s' = s := by
    have := hi.e_shaft_g
    rw [turn_eq] at this
    rw [e3]; exact this.symm
  have ha : a' = a := by rw [e9, hs]
  subst hs
  subst ha
  exact ⟨e4, ho.vert, e5, e6, e7, by rw [dot_comm]; exact e8⟩

theorem wakeTang_skewed {χ : ℝ} (h : 1e-7 < |χ|) (hc : Real.cos χ ≠ 0) (M : String) (g : Num) (R Rff : ℝ) (Y : List (V3 ℝ)) :
    wakeTang (.fin χ) M g R Rff Y = svcTang Y g R (.fin (Real.tan χ)) 180 false := by
  have h' : skewed (.fin χ) := by unfold skewed; rw [Num.abs_fin, Num.lt_fin]; exact h
  unfold wakeTang
  rw [if_pos h']
  have e : Num.tan (.fin χ) = .fin (Real.tan χ) := if_neg hc
  rw [e]
theorem wakeLongi_skewed {χ : ℝ} (h : 1e-7 < |χ|) (hc : Real.cos χ ≠ 0) (g : Num) (R : ℝ) (Y : List (V3 ℝ)) :
    wakeLongi (.fin χ) g R Y = svcLongi Y g R (.fin (Real.tan χ)) 180 false := by
  have h' : skewed (.fin χ) := by unfold skewed; rw [Num.abs_fin, Num.lt_fin]; exact h
  unfold wakeLongi
  rw [if_pos h']
  have e : Num.tan (.fin χ) = .fin (Real.tan χ) := if_neg hc
  rw [e]

/-- C87 (turbine, skewed wake): for every history of an orthonormal turbine whose wake is skewed, the velocity
returned by `compute_u` off the wakes (of the rotor and, with ground effect, of its image) — free stream or
not, tangential and longitudinal vorticity or not — is a divergence-free field of the position. -/
theorem C87_turbine_skewed (mini : (ℝ → Num) → ℝ) (R : ℝ) (hub shaft vert U0 : V3 ℝ) (L : Option Num) (G : Bool)
    (M : String) (ho : Orthonormal shaft vert) (hR : 0 < R) (h : List Op) (o : Opts) (hnw : o.no_wake = false) (hro : o.root = false) :
    let w := (WT.new R hub shaft vert U0 L G M).run mini h
    let s := w.e_shaft_g
    let a := V3.cross vert s
    let centres := if o.ground.getD w.Ground then [w.r_hub, groundImage vert w.r_hub] else [w.r_hub]
    ∀ (g χ : ℝ) (gl : Option ℝ), w.gamma_t = some [.fin g] → w.gamma_l = gl.map (fun x => [Num.fin x]) →
      (∀ pts, (w.computeU pts o).2.chi = some (.fin χ)) → 1e-7 < |χ| → Real.cos χ ≠ 0 → o.Model.getD w.Model = "VC" →
      ∃ u : V3 ℝ → V3 ℝ, ∀ P : V3 ℝ,
        (∀ c ∈ centres, OffWake R (Real.tan χ) ⟨V3.dot (P - c) a, V3.dot (P - c) vert, V3.dot (P - c) s⟩) →
        (w.computeU [P] o).1 = .ok [V3.fin (u P)] ∧ DivFreeAt u P := by
  intro w s a centres g χ gl hg hgl hchi hsk hco hM
  obtain ⟨f1, f2, f3, f4, f5, f6⟩ := frame_axes mini R hub shaft vert U0 L G M ho h
  obtain ⟨vt, hvt, dvt⟩ := (C87_skewed_cylinder g R (Real.tan χ) hR 180).1
  choose vl hvl dvl using fun x => (C87_skewed_cylinder x R (Real.tan χ) hR 180).2
  refine ⟨fun P => (centres.map fun c => fromAxes a vert s
        ((if o.tang = true ∧ g ≠ 0 then vt (inAxes a vert s c P) else 0) +
         gl.elim 0 fun x => if o.longi = true ∧ x ≠ 0 then vl x (inAxes a vert s c P) else 0)).sum +
        if o.only_ind then 0 else w.U0_g, fun P hP => ⟨?_, ?_⟩⟩
  · refine turbine_field mini R hub shaft vert U0 L G M ho h P o hnw hro g gl (.fin χ) vt vl hg hgl (hchi [P]) ?_ ?_ ?_
    · refine (C16_single w (.fin g) hg ?_ [P] (by simp) o _ (hchi [P])).mpr ⟨fun _ => Or.inl hM, fun _ _ _ _ => hM⟩
      cases gl with
      | none => exact Or.inl hgl
      | some x => exact Or.inr ⟨_, hgl⟩
    · intro c hc _
      rw [wakeTang_skewed hsk hco]; exact hvt _ (hP c hc)
    · intro c hc x _ _
      rw [wakeLongi_skewed hsk hco]; exact hvl x _ (hP c hc)
  · refine (DivFreeAt.list_sum centres fun c hc => ?_).add (divFree_const _ _)
    have hd := (dvt (inAxes a vert s c P) (hP c hc))
    refine DivFreeAt.frame f1 f2 f3 f4 f5 f6 (v := fun q => (if o.tang = true ∧ g ≠ 0 then vt q else 0) +
         gl.elim 0 fun x => if o.longi = true ∧ x ≠ 0 then vl x q else 0) (DivFreeAt.add ?_ ?_)
    · split
      · exact hd
      · exact divFree_const _ _
    · cases gl with
      | none => exact divFree_const _ _
      | some x =>
        simp only [Option.elim_some]
        split
        · exact dvl x _ (hP c hc)
        · exact divFree_const _ _

/-- the hypotheses of `C87_turbine_skewed` are met: the reference turbine, loaded, with a wake skewed by 0.3 rad -/
example (mini : (ℝ → Num) → ℝ) : ∃ R hub shaft vert U0 L G M, refTurbine = WT.new R hub shaft vert U0 L G M ∧ Orthonormal shaft vert ∧ 0 < R ∧
    (let w := refTurbine.run mini [.loading refLoad, .chi (some (.fin 0.3))]
    (1e-7:ℝ) < |0.3| ∧ Real.cos 0.3 ≠ 0 ∧ w.gamma_t = some [.fin (-1)] ∧ w.gamma_l = none ∧
    ∀ pts o, (w.computeU pts o).2.chi = some (.fin 0.3)) := by
  obtain ⟨r, Ct, hl⟩ := refTurbine_loaded mini refTurbine rfl
  have h1 : refTurbine.run mini [.loading refLoad, .chi (some (.fin 0.3))] = ((refTurbine.updateLoading mini refLoad).2).setChi (some (.fin 0.3)) := rfl
  refine ⟨_, _, _, _, _, _, _, _, rfl, ⟨by simp [V3.dot], by simp [V3.dot], by simp [V3.dot]⟩, by norm_num, by norm_num [abs_of_pos],
    (Real.cos_pos_of_mem_Ioo ⟨by linarith [Real.two_le_pi], by linarith [Real.two_le_pi]⟩).ne', ?_, ?_, ?_⟩
  · rw [h1, hl]; rfl
  · rw [h1, hl]; rfl
  · intro pts o; rw [computeU_state, h1, hl]; rfl

/-- C88 (turbine, doublet wake): with `Model='VD'` and a straight wake the velocity returned away from the
cut-off tubes around the wake axes is divergence-free and irrotational. -/
theorem C88_turbine_doublet (mini : (ℝ → Num) → ℝ) (R : ℝ) (hub shaft vert U0 : V3 ℝ) (L : Option Num) (G : Bool)
    (M : String) (ho : Orthonormal shaft vert) (h : List Op) (o : Opts) (hnw : o.no_wake = false) (hro : o.root = false)
    (hlo : o.longi = false) :
    let w := (WT.new R hub shaft vert U0 L G M).run mini h
    let s := w.e_shaft_g
    let a := V3.cross vert s
    let centres := if o.ground.getD w.Ground then [w.r_hub, groundImage vert w.r_hub] else [w.r_hub]
    ∀ (g χ : ℝ) (gl : Option ℝ), w.gamma_t = some [.fin g] → w.gamma_l = gl.map (fun x => [Num.fin x]) →
      (∀ pts, (w.computeU pts o).2.chi = some (.fin χ)) → |χ| ≤ 1e-7 → o.Model.getD w.Model = "VD" →
      ∃ u : V3 ℝ → V3 ℝ, ∀ P : V3 ℝ,
        (∀ c ∈ centres, 1e-8 < |V3.dot (P - c) a| ∨ 1e-8 < |V3.dot (P - c) vert| ∨ V3.dot (P - c) s < 0) →
        (w.computeU [P] o).1 = .ok [V3.fin (u P)] ∧ DivFreeAt u P ∧ CurlFreeAt u P := by
  intro w s a centres g χ gl hg hgl hchi hsk hM
  obtain ⟨f1, f2, f3, f4, f5, f6⟩ := frame_axes mini R hub shaft vert U0 L G M ho h
  obtain ⟨vt, hvt, dvt⟩ := C88_doublet_line (g * (Real.pi * R^2))
  have hsk' : ¬ skewed (.fin χ) := by unfold skewed; rw [Num.abs_fin, Num.lt_fin]; exact not_lt.mpr hsk
  refine ⟨fun P => (centres.map fun c => fromAxes a vert s
        ((if o.tang = true ∧ g ≠ 0 then vt (inAxes a vert s c P) else 0) +
         gl.elim 0 fun x => if o.longi = true ∧ x ≠ 0 then 0 else 0)).sum +
        if o.only_ind then 0 else w.U0_g, fun P hP => ⟨?_, ?_⟩⟩
  · refine turbine_field mini R hub shaft vert U0 L G M ho h P o hnw hro g gl (.fin χ) vt (fun _ _ => 0) hg hgl (hchi [P]) ?_ ?_ ?_
    · refine (C16_single w (.fin g) hg ?_ [P] (by simp) o _ (hchi [P])).mpr ⟨fun _ => Or.inr ⟨hsk', ?_⟩, fun _ h1 => ?_⟩
      · cases gl with
        | none => exact Or.inl hgl
        | some x => exact Or.inr ⟨_, hgl⟩
      · rw [hM]; simp
      · rw [hlo] at h1; exact absurd h1 (by decide)
    · intro c hc _
      unfold wakeTang
      rw [if_neg hsk', hM, if_neg (by decide), if_neg (by decide), if_pos rfl, Num.fin_mul]
      simp only [List.map_cons, List.map_nil]
      rw [hvt _ (hP c hc)]
    · intro c hc x h1
      rw [hlo] at h1; exact absurd h1 (by decide)
  · have hz : ∀ q : V3 ℝ, (gl.elim 0 fun x => if o.longi = true ∧ x ≠ 0 then (0 : V3 ℝ) else 0) = 0 := by
      intro q; cases gl <;> simp
    have hd : ∀ c ∈ centres, DivFreeAt (fun q => (if o.tang = true ∧ g ≠ 0 then vt q else 0) +
         gl.elim 0 fun x => if o.longi = true ∧ x ≠ 0 then 0 else 0) (inAxes a vert s c P) ∧
         CurlFreeAt (fun q => (if o.tang = true ∧ g ≠ 0 then vt q else 0) +
         gl.elim 0 fun x => if o.longi = true ∧ x ≠ 0 then 0 else 0) (inAxes a vert s c P) := by
      intro c hc
      have hd := dvt (inAxes a vert s c P) (hP c hc)
      constructor
      · refine DivFreeAt.add ?_ (divFree_const _ _)
        split
        · exact hd.1
        · exact divFree_const _ _
      · refine CurlFreeAt.add ?_ (curlFree_const _ _)
        split
        · exact hd.2
        · exact curlFree_const _ _
    exact ⟨(DivFreeAt.list_sum centres fun c hc => DivFreeAt.frame f1 f2 f3 f4 f5 f6 (hd c hc).1).add (divFree_const _ _),
      (CurlFreeAt.list_sum centres fun c hc => CurlFreeAt.frame (hd c hc).2).add (curlFree_const _ _)⟩

example (mini : (ℝ → Num) → ℝ) :
    let w := refTurbine.run mini [.loading refLoad, .chi (some 0)]
    w.gamma_t = some [.fin (-1)] ∧ w.gamma_l = none ∧ w.Model = "VD" ∧ ∀ pts o, (w.computeU pts o).2.chi = some (.fin 0) := by
  obtain ⟨r, Ct, hl⟩ := refTurbine_loaded mini refTurbine rfl
  have h1 : refTurbine.run mini [.loading refLoad, .chi (some 0)] = ((refTurbine.updateLoading mini refLoad).2).setChi (some 0) := rfl
  refine ⟨?_, ?_, ?_, ?_⟩
  · rw [h1, hl]; rfl
  · rw [h1, hl]; rfl
  · rw [h1, hl]; rfl
  · intro pts o; rw [computeU_state, h1, hl]; rfl

/-- C87/C88 (farm): where every turbine of the farm returns a divergence-free (irrotational) field, so does
the whole farm, with or without a free stream, whatever the number of turbines and repetitions. -/
theorem C87_farm (f : List PyObj) (s : World) (o : Opts) (U0 : Option (V3 ℝ)) (S : Set (V3 ℝ)) (v : ℕ → V3 ℝ → V3 ℝ)
    (hf : ∀ x ∈ f, ∃ t, x = .turbine t ∧ ∀ P ∈ S, ((s.get t).computeU [P] { o with only_ind := true }).1 = .ok [V3.fin (v t P)]) :
    ∃ u : V3 ℝ → V3 ℝ, (∀ P ∈ S, (farmVelocity f s [P] o U0).1 = .ok [V3.fin (u P)]) ∧
      (∀ P, (∀ t, .turbine t ∈ f → DivFreeAt (v t) P) → DivFreeAt u P) ∧
      (∀ P, (∀ t, .turbine t ∈ f → CurlFreeAt (v t) P) → CurlFreeAt u P) := by
  let val : PyObj → V3 ℝ → V3 ℝ := fun x => match x with | .turbine t => v t | .other => fun _ => 0
  refine ⟨fun P => (f.map fun x => val x P).sum + (match U0 with | some U => U | none => 0), fun P hP => ?_, fun P h => ?_, fun P h => ?_⟩
  · obtain ⟨u, hu⟩ := (C18_succeeds_iff f s [P] o U0).2 fun x hx => by
      obtain ⟨t, rfl, ht⟩ := hf x hx
      exact ⟨t, _, rfl, ht P hP⟩
    obtain ⟨h1, h2⟩ := C18_sum f s [P] o U0 u hu
    have h2 := h2 0 (by simp)
    have hlist : u = [u.getD 0 0] := by
      match u, h1 with
      | [x], _ => rfl
    rw [hu, hlist, h2]
    congr 2
    have e1 : (f.map (inducedAt s [P] o 0)).sum = V3.fin (f.map fun x => val x P).sum := by
      rw [← sum_fin]
      congr 1
      apply List.map_congr_left
      intro x hx
      obtain ⟨t, rfl, ht⟩ := hf x hx
      have ht : inducedBy s [P] o t = .ok [V3.fin (v t P)] := ht P hP
      simp only [inducedAt, ht, val]; rfl
    rw [e1]
    cases U0 with
    | none => ext <;> simp [freeStream]
    | some U => ext <;> simp [freeStream]
  · refine (DivFreeAt.list_sum f fun x hx => ?_).add (divFree_const _ _)
    obtain ⟨t, rfl, ht⟩ := hf x hx
    exact h t hx
  · refine (CurlFreeAt.list_sum f fun x hx => ?_).add (curlFree_const _ _)
    obtain ⟨t, rfl, ht⟩ := hf x hx
    exact h t hx

end
end Wiz
