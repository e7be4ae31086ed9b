import Verif.Props.CompleteWake2
import Verif.Props.SkewedSymmetry
/-! # C141: flow through the ground: skewed wakes and root vortices -/
set_option autoImplicit false
namespace Wiz
open Spec Classical Real
noncomputable section

theorem inRotor_image (c v s p : V3 ℝ) (hv : V3.dot v v = 1) (ho : V3.dot v s = 0) (hp : V3.dot v p = 0) :
    inRotor (groundImage v c) v s p = ⟨(inRotor c v s p).x, -(inRotor c v s p).y, (inRotor c v s p).z⟩ := by
  unfold inRotor groundImage
  simp only [V3.dot, V3.cross, V3.sub_x, V3.sub_y, V3.sub_z, V3.smul_x, V3.smul_y, V3.smul_z] at *
  ext
  · dsimp only; ring
  · dsimp only; linear_combination 2 * (c.x * v.x + c.y * v.y + c.z * v.z) * hv + 2 * hp
  · dsimp only; linear_combination 2 * (c.x * v.x + c.y * v.y + c.z * v.z) * ho

theorem dot_fromAxes (v s F : V3 ℝ) (hv : V3.dot v v = 1) (ho : V3.dot v s = 0) : V3.dot v (fromAxes (V3.cross v s) v s F) = F.y := by
  unfold fromAxes
  simp only [V3.dot, V3.cross, V3.add_x, V3.add_y, V3.add_z, V3.smul_x, V3.smul_y, V3.smul_z] at *
  linear_combination F.y * hv + F.z * ho

theorem dot_le_norm (v a : V3 ℝ) (hv : V3.dot v v = 1) : |V3.dot v a| ≤ V3.norm a := by
  unfold V3.norm
  apply Real.abs_le_sqrt
  unfold V3.dot at *
  nlinarith [sq_nonneg (v.x * a.y - v.y * a.x), sq_nonneg (v.y * a.z - v.z * a.y), sq_nonneg (v.z * a.x - v.x * a.z)]

/-- the rings of a wake and those of its image induce no flow through the ground -/
theorem sheet_ground (γ R D χ : ℝ) (hR : 0 < R) (hD : 0 < D) (c v s d p : V3 ℝ) (hv : V3.dot v v = 1) (hs : V3.dot s s = 1) (ho : V3.dot v s = 0) (hcos : 0 < cos χ)
    (hd : d = V3.smul (sin χ) (V3.cross v s) + V3.smul (cos χ) s) (hp : V3.dot v p = 0) (h1 : Clear D R c v s d p) (h2 : Clear D R (groundImage v c) v s d p) :
    V3.dot v (sheetFlow γ R c v s d p + sheetFlow γ R (groundImage v c) v s d p) = 0 := by
  obtain ⟨x1, x2⟩ := sheetFlow_axes γ R D χ hR.le hD c v s p hv hs ho hcos d hd h1
  obtain ⟨-, x4⟩ := sheetFlow_axes γ R D χ hR.le hD (groundImage v c) v s p hv hs ho hcos d hd h2
  rw [x2, x4, inRotor_image c v s p hv ho hp, (C80_exact _ γ R (tan χ) hR (off_of_dist hD x1)).2, ← fromAxes_add, dot_fromAxes v s _ hv ho]
  simp

/-- C141 (skewed wakes): with ground effect and the rings of a skewed wake (tangential vorticity of one cylinder, any history), the velocity through the ground is at most the error
of the azimuthal quadrature of the two wakes: at every point of the ground at a distance `D` or more of the wake and of its image. -/
theorem C141_yawed_partial (mini : (ℝ → Num) → ℝ) (R : ℝ) (hub shaft vert U0 : V3 ℝ) (L : Option Num) (G : Bool)
    (M : String) (ho : Orthonormal shaft vert) (hR : 0 < R) (h : List Op) (pts : List (V3 ℝ)) (o : Opts) (hnw : o.no_wake = false)
    (hta : o.tang = true) (hlo : o.longi = false) (hro : o.root = false) (hoi : o.only_ind = true) (γ χ D : ℝ) (hD : 0 < D) (hsk : 1e-7 < |χ|) (hcos : 0 < cos χ) :
    let w := (WT.new R hub shaft vert U0 L G M).run mini h
    let s := w.e_shaft_g
    let d := V3.smul (sin χ) (V3.cross vert s) + V3.smul (cos χ) s
    w.gamma_t = some [.fin γ] → o.ground.getD w.Ground = true → o.Model.getD w.Model = "VC" → (w.computeU pts o).2.chi = some (.fin χ) →
    ∃ u, (w.computeU pts o).1 = .ok u ∧ ∀ (i : ℕ) (p : V3 ℝ), pts[i]? = some p → V3.dot vert p = 0 → Clear D R w.r_hub vert s d p → Clear D R (groundImage vert w.r_hub) vert s d p →
      ∃ v, u[i]? = some (V3.fin v) ∧ |V3.dot vert v| ≤ 2 * (√3 * (|γ| * (π^2/(3 * 179^2) * (R/D * (R/D + 2)) * (1 + 10 * (R/D) + 18 * (R/D)^2)))) := by
  intro w s d hg hgr hM hchi
  obtain ⟨u, hu, H⟩ := yawed_one mini R hub shaft vert U0 L G M ho hR h pts o hnw hta hlo hro hoi w rfl γ χ hg hM hchi hsk hcos d rfl D hD
  rw [hgr] at H
  simp only [wakeCentres, if_true, List.mem_cons, List.not_mem_nil, or_false, List.map_cons, List.map_nil, List.sum_cons, List.sum_nil, List.length_cons, List.length_nil] at H
  refine ⟨u, hu, fun i p hi hp h1 h2 => ?_⟩
  obtain ⟨v, v1, v2⟩ := H i p hi (by rintro c (rfl | rfl) <;> assumption)
  obtain ⟨a1, a2, a3, a4, a5, a6⟩ := rotorAxes_run mini R hub shaft vert U0 L G M ho h
  have hz := sheet_ground γ R D χ hR hD w.r_hub vert s d p ho.vert a6 a5 hcos rfl hp h1 h2
  refine ⟨v, v1, ?_⟩
  have e0 : ∀ x : V3 ℝ, x + 0 = x := fun x => by ext <;> simp
  rw [e0] at v2
  have e : V3.dot vert v = V3.dot vert (v - (sheetFlow γ R w.r_hub vert s d p + sheetFlow γ R (groundImage vert w.r_hub) vert s d p)) := by
    generalize sheetFlow γ R w.r_hub vert s d p + sheetFlow γ R (groundImage vert w.r_hub) vert s d p = z at *
    unfold V3.dot at *
    simp only [V3.sub_x, V3.sub_y, V3.sub_z]
    linarith
  rw [e]
  refine (dot_le_norm _ _ ho.vert).trans (v2.trans (le_of_eq ?_))
  norm_num

/-- a loaded rotor at height 100 whose wake is skewed by 30° meets the hypotheses of `C141_yawed_partial` 200 m upstream -/
example (mini : (ℝ → Num) → ℝ) :
    let w := (WT.new 50 ⟨0,100,0⟩ ⟨0,0,1⟩ ⟨0,1,0⟩ ⟨0,0,10⟩ none true "VC").run mini
      ([.chi (some (.fin (π/6)))] ++ [.loading { Ct := some [.fin 0.5], Lambda := some .pinf, gamma_t_Ct := some fun _ => [.fin (-4)] }])
    ∃ u, (w.computeU [⟨0,0,-200⟩] { only_ind := true }).1 = .ok u ∧ ∃ v, u[0]? = some (V3.fin v) ∧
      |V3.dot ⟨0,1,0⟩ v| ≤ 2 * (√3 * (|(-4)| * (π^2/(3 * 179^2) * (50/150 * (50/150 + 2)) * (1 + 10 * (50/150) + 18 * (50/150)^2)))) := by
  intro w
  obtain ⟨e1, e2, -, -, e5, -, -, -, -, -, e11, e12, e13, e14⟩ := loading_frame mini
    ((WT.new 50 ⟨0,100,0⟩ ⟨0,0,1⟩ ⟨0,1,0⟩ ⟨0,0,10⟩ none true "VC").run mini [.chi (some (.fin (π/6)))]) { Ct := some [.fin 0.5], Lambda := some .pinf, gamma_t_Ct := some fun _ => [.fin (-4)] }
  have f2 : w.r_hub = ⟨0,100,0⟩ := e2
  have f5 : w.e_shaft_g = ⟨0,0,1⟩ := by
    refine Eq.trans e5 ?_
    have := (frame_run mini ⟨0,0,1⟩ ⟨0,1,0⟩ 50 [.chi (some (.fin (π/6)))] _ (frame_new 50 ⟨0,100,0⟩ ⟨0,0,1⟩ ⟨0,1,0⟩ ⟨0,0,10⟩ none true "VC")).e_shaft_g
    rw [turn_eq] at this
    refine this.trans ?_
    change turn _ 0 _ = _
    unfold turn
    ext <;> simp
  have f12 : w.Ground = true := e12
  have f13 : w.chi = some (.fin (π/6)) := e13
  have f14 : w.Model = "VC" := e14
  have hpi := pi_pos
  have hpi3 := pi_gt_three
  have hgt : w.gamma_t = some [.fin (-4)] := by
    rfl
  obtain ⟨u, hu, H⟩ := C141_yawed_partial mini 50 ⟨0,100,0⟩ ⟨0,0,1⟩ ⟨0,1,0⟩ ⟨0,0,10⟩ none true "VC" ⟨by simp [V3.dot], by simp [V3.dot], by simp [V3.dot]⟩ (by norm_num)
    ([Op.chi (some (.fin (π/6)))] ++ [Op.loading { Ct := some [.fin 0.5], Lambda := some .pinf, gamma_t_Ct := some fun _ => [.fin (-4)] }]) [⟨0,0,-200⟩]
    { only_ind := true } rfl rfl rfl rfl rfl (-4) (π/6) 150 (by norm_num) (by rw [abs_of_pos (by positivity)]; norm_num; linarith) (by rw [cos_pi_div_six]; positivity) hgt f12 f14
    (by rw [computeU_state]; change some (usedChi w) = _; unfold usedChi; rw [f13])
  have hcl : ∀ y, Clear 150 50 ⟨0,y,0⟩ ⟨0,1,0⟩ ⟨0,0,1⟩ (V3.smul (sin (π/6)) (V3.cross ⟨0,1,0⟩ ⟨0,0,1⟩) + V3.smul (cos (π/6)) ⟨0,0,1⟩) ⟨0,0,-200⟩ := by
    intro y θ t ht
    refine le_trans ?_ (comp_le_norm _).2.2
    have e : ((⟨0,0,-200⟩ : V3 ℝ) - sheetPoint 50 ⟨0,y,0⟩ ⟨0,1,0⟩ ⟨0,0,1⟩ (V3.smul (sin (π/6)) (V3.cross ⟨0,1,0⟩ ⟨0,0,1⟩) + V3.smul (cos (π/6)) ⟨0,0,1⟩) θ t).z =
        -200 - t * cos (π/6) := by
      simp [sheetPoint, V3.cross]
    have h0 : 0 ≤ t * cos (π/6) := mul_nonneg ht (by rw [cos_pi_div_six]; positivity)
    rw [e, abs_of_neg (by linarith)]
    linarith
  have hgi : groundImage ⟨0,1,0⟩ ⟨0,100,0⟩ = ⟨0,-100,0⟩ := by ext <;> simp [groundImage, V3.dot]; norm_num
  rw [f2, f5, hgi] at H
  obtain ⟨v, v1, v2⟩ := H 0 _ rfl (by simp [V3.dot]) (hcl 100) (hcl (-100))
  exact ⟨u, hu, v, v1, v2⟩

/-- C141 (root vortex): with ground effect and a root vortex along the shaft, the velocity through the ground is exactly twice what the root vortex alone induces there: the image
has the sense of rotation of the original, so that the two add up instead of cancelling. -/
theorem C141_root_partial (mini : (ℝ → Num) → ℝ) (R : ℝ) (hub shaft vert U0 : V3 ℝ) (L : Option Num) (G : Bool)
    (M : String) (ho : Orthonormal shaft vert) (h : List Op) (pts : List (V3 ℝ)) (hp : pts ≠ []) (o : Opts) (hnw : o.no_wake = false)
    (hta : o.tang = false) (hlo : o.longi = false) (hro : o.root = true) (hoi : o.only_ind = true) (g : Num) (gl : Option (List Num)) (Γ : ℝ) (chi : Num)
    (hgl : gl = none ∨ ∃ x, gl = some [x]) (hsk : ¬ (Num.fin 1e-7 < Num.abs chi)) :
    let w := (WT.new R hub shaft vert U0 L G M).run mini h
    let s := w.e_shaft_g
    w.gamma_t = some [g] → w.gamma_l = gl → w.Gamma_r = some (.fin Γ) → Γ ≠ 0 → o.ground.getD w.Ground = true → (w.computeU pts o).2.chi = some chi →
    ∃ u, (w.computeU pts o).1 = .ok u ∧ ∀ (i : ℕ) (p : V3 ℝ) (ρ z : ℝ), pts[i]? = some p → V3.dot vert p = 0 → ρ = axisDist s w.r_hub p → 0 < ρ → z = V3.dot (p - w.r_hub) s →
      ∃ v, u[i]? = some (V3.fin v) ∧ V3.dot vert v = 2 * (Γ/(4*π*ρ) * (1 + z/√(ρ^2 + z^2)) * (V3.dot (p - w.r_hub) (V3.cross vert s) / ρ)) := by
  intro w s hg hgl' hG hΓ hgr hchi
  obtain ⟨u, hu⟩ := (C16_single w g hg (by rw [hgl']; exact hgl) pts hp o chi hchi).mpr ⟨fun h => absurd h.1 (by simp [hta]), fun x hx => absurd hx (by simp [hlo])⟩
  obtain ⟨ul, uv⟩ := C16_field mini R hub shaft vert U0 L G M ho h pts o hnw g chi u hg hchi hu
  refine ⟨u, hu, fun i p ρ z hi hpg hρ hρ0 hz => ?_⟩
  obtain ⟨a1, a2, a3, a4, a5, a6⟩ := rotorAxes_run mini R hub shaft vert U0 L G M ho h
  have hil : i < pts.length := by
    by_contra h
    rw [List.getElem?_eq_none (by omega)] at hi; exact nomatch hi
  have uv := uv i hil
  change u.getD i 0 = transform _ ((match w.Gamma_r with | some Gr => _ | none => _) + _ + _) + _ at uv
  rw [hG] at uv
  have hgr' : o.ground.getD ((WT.new R hub shaft vert U0 L G M).run mini h).Ground = true := hgr
  simp only [hta, hlo, hro, hoi, hgr', Bool.false_eq_true, false_and, if_false, if_true, true_and, List.map_cons, List.map_nil, List.sum_cons, List.sum_nil, add_zero] at uv
  rw [if_pos (by simpa using hΓ)] at uv
  have hl0 : (match w.gamma_l with | some [gl] => (0 : V3 Num) | _ => 0) = 0 := by split <;> rfl
  have hnsk : ¬ skewed chi := hsk
  have hY : ∀ c, (rotorAxes (V3.cross vert s) vert s c pts)[i]? = some (inRotor c vert s p) := by
    intro c; simp only [rotorAxes, List.getElem?_map, hi, Option.map_some, inRotor]
  have hρ1 : polarR (inRotor w.r_hub vert s p).x (inRotor w.r_hub vert s p).y = ρ := by
    rw [hρ, (swirl_axes w.r_hub vert s p ho.vert a6 (by rw [dot_comm]; exact a5) _ rfl).1]; rfl
  have e1 := root_val _ Γ i _ (hY w.r_hub) (by rw [hρ1]; exact hρ0)
  have e2 := root_val _ Γ i _ (hY (groundImage vert w.r_hub)) (by
    rw [inRotor_image _ _ _ _ ho.vert a5 hpg]
    change 0 < polarR (inRotor w.r_hub vert s p).x (-(inRotor w.r_hub vert s p).y)
    unfold polarR; rw [neg_sq]; change 0 < polarR _ _; rw [hρ1]; exact hρ0)
  have hz' : (inRotor w.r_hub vert s p).z = z := hz.symm
  have hx' : (inRotor w.r_hub vert s p).x = V3.dot (p - w.r_hub) (V3.cross vert s) := rfl
  rw [inRotor_image _ _ _ _ ho.vert a5 hpg] at e2
  generalize inRotor w.r_hub vert s p = q at *
  have hρ2 : polarR q.x (-q.y) = ρ := by unfold polarR; rw [neg_sq]; exact hρ1
  unfold wakeRoot at uv
  simp only [if_neg hnsk] at uv
  obtain ⟨K, hK⟩ : ∃ K, K = Γ/(4*π*ρ) * (1 + z/√(ρ^2 + z^2)) := ⟨_, rfl⟩
  rw [hρ1, hz', ← hK] at e1
  simp only [hρ2, hz', ← hK] at e2
  refine ⟨fromAxes (V3.cross vert s) vert s (V3.smul K (eps q) + V3.smul K (eps ⟨q.x, -q.y, z⟩)), ?_, ?_⟩
  · have e4 : ∀ x y : V3 ℝ, V3.fin x + V3.fin y = V3.fin (x + y) := fun x y => by ext <;> simp
    have e5 : u.getD i 0 = transform (M3.fin (M3.ofCols (V3.cross vert s) vert s)) (V3.fin (V3.smul K (eps q)) + V3.fin (V3.smul K (eps ⟨q.x, -q.y, z⟩))) := by
      refine uv.trans ?_
      rw [← e1, ← e2]
      congr 1
      refine Eq.trans (congrArg₂ (· + ·) rfl hl0) (add_zero _)
    rw [e4, transform_fin, mulVec_fromAxes] at e5
    rw [List.getD_eq_getElem?_getD, List.getElem?_eq_getElem (by omega)] at e5
    rw [List.getElem?_eq_getElem (by omega)]
    exact congrArg some e5
  · rw [dot_fromAxes _ _ _ ho.vert a5, ← hK, ← hx']
    unfold eps
    simp only [V3.add_y, V3.smul_y, hρ1, hρ2]
    ring

/-- C141 (refuted): a rotor at hub height 1 with a root vortex of circulation -100, ground effect on, at the point (1,0,0) of the ground: air flows through the ground at `100/(4π)` -/
theorem C141_root_refuted (mini : (ℝ → Num) → ℝ) :
    let w := (WT.new 103 ⟨0,1,0⟩ ⟨0,0,1⟩ ⟨0,1,0⟩ ⟨0,0,10⟩ none true "VC").run mini
      ([.chi (some 0)] ++ [.loading { r := some [103], Gamma := some [.fin 100], Lambda := some (.fin 7), nCyl := none }])
    ∃ u v, (w.computeU [⟨1,0,0⟩] { tang := false, root := true, only_ind := true }).1 = .ok u ∧ u[0]? = some (V3.fin v) ∧ V3.dot ⟨0,1,0⟩ v = -(100/(4*π)) := by
  intro w
  obtain ⟨e1, e2, -, -, e5, -, -, -, -, -, e11, e12, e13, e14⟩ := loading_frame mini
    ((WT.new 103 ⟨0,1,0⟩ ⟨0,0,1⟩ ⟨0,1,0⟩ ⟨0,0,10⟩ none true "VC").run mini [.chi (some 0)])
    { r := some [103], Gamma := some [.fin 100], Lambda := some (.fin 7), nCyl := none }
  have f2 : w.r_hub = ⟨0,1,0⟩ := e2
  have f5 : w.e_shaft_g = ⟨0,0,1⟩ := by
    refine Eq.trans e5 ?_
    have := (frame_run mini ⟨0,0,1⟩ ⟨0,1,0⟩ 103 [.chi (some 0)] _ (frame_new 103 ⟨0,1,0⟩ ⟨0,0,1⟩ ⟨0,1,0⟩ ⟨0,0,10⟩ none true "VC")).e_shaft_g
    rw [turn_eq] at this
    refine this.trans ?_
    change turn _ 0 _ = _
    unfold turn
    ext <;> simp
  have f12 : w.Ground = true := e12
  have f13 : w.chi = some 0 := e13
  obtain ⟨g, hst⟩ := stored_one mini ((WT.new 103 ⟨0,1,0⟩ ⟨0,0,1⟩ ⟨0,1,0⟩ ⟨0,0,10⟩ none true "VC").run mini [.chi (some 0)]) (by change (0:ℝ) < 103; norm_num)
    (by change 0 < V3.norm (⟨0,0,10⟩ : V3 ℝ); unfold V3.norm; simp) 103 100 7 (by norm_num) (by norm_num) (by norm_num) (le_refl (103:ℝ))
    { r := some [103], Gamma := some [.fin 100], Lambda := some (.fin 7), nCyl := none } rfl rfl rfl
  have hst : StoredWake w [g] [(100/(2*π*103), 103)] (-100) := hst
  obtain ⟨u, hu, H⟩ := C141_root_partial mini 103 ⟨0,1,0⟩ ⟨0,0,1⟩ ⟨0,1,0⟩ ⟨0,0,10⟩ none true "VC" ⟨by simp [V3.dot], by simp [V3.dot], by simp [V3.dot]⟩
    ([Op.chi (some 0)] ++ [Op.loading { r := some [103], Gamma := some [.fin 100], Lambda := some (.fin 7), nCyl := none }]) [⟨1,0,0⟩] (by simp)
    { tang := false, root := true, only_ind := true } rfl rfl rfl rfl rfl (.fin g) (some [.fin (100/(2*π*103))]) (-100) 0 (Or.inr ⟨_, rfl⟩)
    (by simp [Num.abs_fin, Num.zero_def, Num.lt_fin]; norm_num) hst.1 hst.2.2.1 hst.2.1 (by norm_num) f12
    (by rw [computeU_state]; change some (match WT.chi _ with | some c => c | none => _) = _; rw [f13])
  rw [f2, f5] at H
  have h2 : axisDist ⟨0,0,1⟩ ⟨0,1,0⟩ ⟨1,0,0⟩ = √2 := by
    unfold axisDist V3.norm
    congr 1
    simp [V3.cross]; norm_num
  have hs2 : √2^2 = 2 := Real.sq_sqrt (by norm_num)
  have hs0 : 0 < √2 := Real.sqrt_pos.mpr (by norm_num)
  obtain ⟨v, v1, v2⟩ := H 0 ⟨1,0,0⟩ (√2) 0 rfl (by simp [V3.dot]) h2.symm hs0 (by simp [V3.dot])
  refine ⟨u, v, hu, v1, v2.trans ?_⟩
  have e : V3.dot ((⟨1,0,0⟩ : V3 ℝ) - ⟨0,1,0⟩) (V3.cross ⟨0,1,0⟩ ⟨0,0,1⟩) = 1 := by simp [V3.dot, V3.cross]
  have hpi := pi_pos
  rw [e, zero_div, add_zero, mul_one]
  field_simp
  rw [hs2]

end
end Wiz
