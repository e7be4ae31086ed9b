import Verif.Props.GroundSkew
/-! # C141: flow through the ground: root vortex and longitudinal vorticity of several cylinders -/
set_option autoImplicit false
namespace Wiz
open Spec Classical Real
noncomputable section

/-- the velocity through the ground of the root vortex, its image and the longitudinal sheets of a straight wake of several cylinders, in the rotor plane -/
theorem ground_multi (mini : (ℝ → Num) → ℝ) (R : ℝ) (hub shaft vert U0 : V3 ℝ) (L : Option Num) (G : Bool)
    (M : String) (ho : Orthonormal shaft vert) (h : List Op) (pts : List (V3 ℝ)) (hp : pts ≠ []) (o : Opts) (hnw : o.no_wake = false)
    (hta : o.tang = false) (hlo : o.longi = true) (hro : o.root = true) (hoi : o.only_ind = true) (w : WT) (hw : w = (WT.new R hub shaft vert U0 L G M).run mini h)
    (gt gl r : List ℝ) (Γr : ℝ) (chi : Num) (hgt : w.gamma_t = some (gt.map .fin)) (hgl : w.gamma_l = some (gl.map .fin)) (hGr : w.Gamma_r = some (.fin Γr))
    (hr : w.r = some r) (hl1 : gt.length = r.length) (hl2 : gl.length = r.length) (hl3 : gt.length ≠ 1) (hpos : ∀ x ∈ r, 0 < x)
    (hg : o.ground.getD w.Ground = true) (hM : o.Model.getD w.Model = "VC") (hchi : (w.computeU pts o).2.chi = some chi) (hsk : ¬ (Num.fin 1e-7 < Num.abs chi)) :
    ∃ (u : List (V3 Num)), (w.computeU pts o).1 = .ok u ∧ ∀ (i : ℕ) (p : V3 ℝ), pts[i]? = some p → V3.dot vert p = 0 → V3.dot (p - w.r_hub) w.e_shaft_g = 0 →
      ∀ ρ, ρ = axisDist w.e_shaft_g w.r_hub p → 0 < ρ → ρ ∉ r →
      ∃ v, u[i]? = some (V3.fin v) ∧ V3.dot vert v = (Γr + enclosed Γr (gl.zip r) ρ)/(4*π*ρ) * (V3.dot (p - w.r_hub) (V3.cross vert w.e_shaft_g) / ρ) := by
  obtain ⟨u, hu⟩ := (C16_multi w _ r hgt (by simpa using hl3) hr (by simpa using hl1) (Or.inr ⟨_, hgl, by simpa using hl2⟩) pts hp o).mpr hM
  obtain ⟨a1, a2, a3, a4, a5, a6⟩ := rotorAxes_run mini R hub shaft vert U0 L G M ho h
  simp only [← hw] at a1 a2 a3 a4 a5 a6
  have hfield := C16_field_multi_all mini R hub shaft vert U0 L G M ho h pts o hnw
  simp only [← hw] at hfield
  obtain ⟨ul, uv⟩ := hfield _ r chi u hgt (by simpa using hl3) hr hchi hu
  clear hfield
  refine ⟨u, hu, fun i p hpi hpg hz ρ hρ hρ0 hρr => ?_⟩
  have hil : i < pts.length := by
    by_contra h
    rw [List.getElem?_eq_none (by omega)] at hpi; exact nomatch hpi
  have uv := uv i hil
  have hsk' : ¬ skewed chi := hsk
  rw [hg, hgl, hGr, hlo, hro, hta, hoi] at uv
  simp only [Bool.false_eq_true, if_false, hsk', and_false, List.map_cons, List.map_nil, List.sum_cons, List.sum_nil, add_zero, true_and, if_true] at uv
  have hY : ∀ c, (rotorAxes (V3.cross vert w.e_shaft_g) vert w.e_shaft_g c pts)[i]? = some (inRotor c vert w.e_shaft_g p) := by
    intro c; simp only [rotorAxes, List.getElem?_map, hpi, Option.map_some, inRotor]
  have hρ1 : polarR (inRotor w.r_hub vert w.e_shaft_g p).x (inRotor w.r_hub vert w.e_shaft_g p).y = ρ := by
    rw [hρ, (swirl_axes w.r_hub vert w.e_shaft_g p ho.vert a6 (by rw [dot_comm]; exact a5) _ rfl).1]; rfl
  have hz' : (inRotor w.r_hub vert w.e_shaft_g p).z = 0 := hz
  have hx' : (inRotor w.r_hub vert w.e_shaft_g p).x = V3.dot (p - w.r_hub) (V3.cross vert w.e_shaft_g) := rfl
  have y1 := hY w.r_hub
  have y2 := hY (groundImage vert w.r_hub)
  rw [inRotor_image _ _ _ _ ho.vert a5 hpg] at y2
  rw [← hx']
  generalize inRotor w.r_hub vert w.e_shaft_g p = q at *
  generalize rotorAxes (V3.cross vert w.e_shaft_g) vert w.e_shaft_g w.r_hub pts = Y at *
  generalize rotorAxes (V3.cross vert w.e_shaft_g) vert w.e_shaft_g (groundImage vert w.r_hub) pts = Y' at *
  have hρ2 : polarR q.x (-q.y) = ρ := by unfold polarR; rw [neg_sq]; exact hρ1
  have E1 : (if ¬ Num.Eqv (Num.fin Γr) 0 then (wakeRoot chi (.fin Γr) Y).getD i 0 + (wakeRoot chi (.fin Γr) Y').getD i 0 else 0) =
      V3.fin (V3.smul (Γr/(4*π*ρ)) (eps q) + V3.smul (Γr/(4*π*ρ)) (eps ⟨q.x, -q.y, q.z⟩)) := by
    have r1 := root_val Y Γr i q y1 (by rw [hρ1]; exact hρ0)
    have r2 := root_val Y' Γr i _ y2 (by rw [hρ2]; exact hρ0)
    simp only [hρ1, hρ2, hz', zero_div, add_zero, mul_one] at r1 r2
    by_cases h0 : Γr = 0
    · rw [if_neg (by simp [h0]), h0]
      ext <;> simp
    · rw [if_pos (by simpa using h0)]
      unfold wakeRoot
      rw [if_neg hsk', if_neg hsk', r1, r2, hz']
      ext <;> simp
  have E3 : ((((gl.map Num.fin).zip r).filter fun y => decide (0 < Num.abs y.1)).map fun y => (wakeLongi chi y.1 y.2 Y).getD i 0).sum =
      V3.fin (V3.smul ((gl.zip r).map fun y => longiSw Y y.1 y.2 ρ 0).sum (eps q)) := by
    rw [filter_zip_fin gl r _ (fun y => V3.smul (longiSw Y y.1 y.2 ρ 0) (eps q)) ?_ ?_, smul_sum]
    · intro y hy _
      have hm := (List.of_mem_zip hy).2
      unfold wakeLongi
      have := longi_val Y y.1 y.2 (hpos _ hm) i q y1 (by rw [hρ1]; exact hρ0) (by rw [hρ1]; exact fun e => hρr (e ▸ hm))
      rw [if_neg hsk', this, hρ1, hz']
    · intro y _ hy0
      rw [hy0, longi_zero]
      ext <;> simp
  obtain ⟨K, hK⟩ : ∃ K, K = ((gl.zip r).map fun y => longiSw Y y.1 y.2 ρ 0).sum := ⟨_, rfl⟩
  rw [← hK] at E3
  obtain ⟨F, hF⟩ : ∃ F : V3 ℝ, F = V3.smul (Γr/(4*π*ρ)) (eps q) + V3.smul (Γr/(4*π*ρ)) (eps ⟨q.x, -q.y, q.z⟩) + V3.smul K (eps q) := ⟨_, rfl⟩
  have uv : u.getD i 0 = V3.fin (fromAxes (V3.cross vert w.e_shaft_g) vert w.e_shaft_g F) := by
    refine uv.trans ?_
    refine (congrArg (transform (M3.fin (M3.ofCols (V3.cross vert w.e_shaft_g) vert w.e_shaft_g))) (congrArg₂ (· + ·) E1 E3)).trans ?_
    have e4 : ∀ x y : V3 ℝ, V3.fin x + V3.fin y = V3.fin (x + y) := fun x y => by ext <;> simp
    rw [e4, ← hF, transform_fin, mulVec_fromAxes]
  rw [List.getD_eq_getElem?_getD, List.getElem?_eq_getElem (by omega)] at uv
  refine ⟨fromAxes (V3.cross vert w.e_shaft_g) vert w.e_shaft_g F, ?_, ?_⟩
  · rw [List.getElem?_eq_getElem (by omega)]
    exact congrArg some uv
  · rw [dot_fromAxes _ _ _ ho.vert a5, hF]
    have hpl := swTot_plane Y Γr (gl.zip r) ρ hρ0 (fun y hy e => hρr (e ▸ (List.of_mem_zip hy).2))
    unfold swTot at hpl
    rw [← hK, zero_div, add_zero, mul_one] at hpl
    unfold eps
    simp only [V3.add_y, V3.smul_y, hρ1, hρ2]
    rw [add_div, ← hpl]
    ring

/-- C141 (several cylinders): load a turbine with ground effect, whatever happened to it before, with a blade circulation `G` at `n≥2` increasing stations (tip-speed ratio
below 20).  Where the rotor plane meets the ground between the stations `k-1` and `k`, the velocity of root vortex and longitudinal vorticity through the ground is exactly
`-(G_0 + G_k)/(4πρ)` times the cosine of the azimuth — outside of all stations `-G_0/(4πρ)`, the contribution of the image of the root vortex alone: the rotor itself
induces nothing there (`C139_several_stations_partial`), its longitudinal vorticity has no image. -/
theorem C141_stations_partial (mini : (ℝ → Num) → ℝ) (R : ℝ) (hub shaft vert U0 : V3 ℝ) (L : Option Num) (gr : Bool)
    (M : String) (ho : Orthonormal shaft vert) (hR : 0 < R) (h : List Op) (pts : List (V3 ℝ)) (hp : pts ≠ []) (o : Opts) (hnw : o.no_wake = false)
    (hta : o.tang = false) (hlo : o.longi = true) (hro : o.root = true) (hoi : o.only_ind = true)
    (n : ℕ) (r G : ℕ → ℝ) (lam : ℝ) (hl : 0 < lam) (hl20 : lam < 20) (hn : 2 ≤ n) (h0 : 0 < r 0) (hinc : ∀ i j, i < j → j < n → r i < r j) :
    let a : LoadArgs := { r := some ((List.range n).map r), Gamma := some ((List.range n).map fun i => .fin (G i)), Lambda := some (.fin lam), nCyl := none }
    let w := (WT.new R hub shaft vert U0 L gr M).run mini (h ++ [.loading a])
    let s := w.e_shaft_g
    0 < V3.norm w.U0_g → o.ground.getD w.Ground = true → o.Model.getD w.Model = "VC" →
    ∀ chi, (w.computeU pts o).2.chi = some chi → ¬ (Num.fin 1e-7 < Num.abs chi) →
    ∃ u, (w.computeU pts o).1 = .ok u ∧ ∀ (i : ℕ) (p : V3 ℝ) (ρ : ℝ) (k : ℕ), pts[i]? = some p → V3.dot vert p = 0 → V3.dot (p - w.r_hub) s = 0 → ρ = axisDist s w.r_hub p → 0 < ρ →
      k ≤ n → (∀ j < k, r j < ρ) → (∀ j < n, k ≤ j → ρ < r j) →
      ∃ v, u[i]? = some (V3.fin v) ∧
        V3.dot vert v = -(G 0 + (if k < n then G k else 0)) / (4*π*ρ) * (V3.dot (p - w.r_hub) (V3.cross vert s) / ρ) := by
  intro a w s hU hg hM chi hchi hsk
  obtain ⟨w0, hw0⟩ : ∃ w0, w0 = (WT.new R hub shaft vert U0 L gr M).run mini h := ⟨_, rfl⟩
  have hw : w = (w0.updateLoading mini a).2 := by
    simp only [w]; rw [run_append, ← hw0]; rfl
  have hfr := frame_run mini shaft vert R h _ (frame_new R hub shaft vert U0 L gr M)
  rw [← hw0] at hfr
  have hU0 : w.U0_g = w0.U0_g := by
    rw [hw]
    unfold WT.updateLoading
    simp only
    repeat' split
    all_goals rfl
  rw [hU0] at hU
  obtain ⟨gt, g1, -, g2⟩ := loading_gamma mini w0 (by rw [hfr.R]; exact hR) hU n r G lam hl hl20 (by omega) h0 hinc (by omega) a rfl rfl rfl
  rw [← hw] at g2
  have hpos : ∀ i < n, 0 < r i := by
    intro i hi
    rcases Nat.eq_zero_or_pos i with rfl | h
    · exact h0
    · exact h0.trans (hinc 0 i h hi)
  obtain ⟨gl, hgl⟩ : ∃ gl : List ℝ, gl = (List.range n).map fun i => (G i - (if i = n - 1 then 0 else G (i+1))) / (2 * π * r i) := ⟨_, rfl⟩
  have hzip : gl.zip ((List.range n).map r) = (List.range n).map fun i => ((G i - (if i = n - 1 then 0 else G (i+1))) / (2 * π * r i), r i) := by
    rw [hgl, List.zip_map']
  obtain ⟨u, hu, H⟩ := ground_multi mini R hub shaft vert U0 L gr M ho (h ++ [.loading a]) pts hp o hnw hta hlo hro hoi w rfl gt gl ((List.range n).map r) (-G 0) chi
    (by rw [g2]) (by rw [g2, hgl, List.map_map]; rfl) (by rw [g2]) (by rw [g2]) (by simpa using g1) (by rw [hgl]; simp) (by omega)
    (by intro x hx
        obtain ⟨j, hj, rfl⟩ := List.mem_map.mp hx
        exact hpos j (List.mem_range.mp hj)) hg hM hchi hsk
  refine ⟨u, hu, fun i p ρ k hi hpg hz hρ hρ0 hk hk1 hk2 => ?_⟩
  obtain ⟨v, v1, v2⟩ := H i p hi hpg hz ρ hρ hρ0 (by
    intro hm
    obtain ⟨j, hj, e⟩ := List.mem_map.mp hm
    have hj := List.mem_range.mp hj
    rcases lt_or_ge j k with h | h
    · exact (hk1 j h).ne e
    · exact (hk2 j hj h).ne' e)
  refine ⟨v, v1, v2.trans ?_⟩
  rw [hzip, enclosed_loading n k r G ρ (by omega) (fun i hi => (hpos i hi).ne') hk fun j hj => ⟨fun h => ?_, fun h => hk1 j h⟩]
  · congr 2; ring
  by_contra h'
  exact lt_asymm h (hk2 j hj (by omega))

/-- C141 (refuted, several cylinders): a rotor at hub height 30 with stations 10 and 20 and a blade circulation of 100 at both: at the point (40,0,0) of the ground, 50 m from the
axis, the rotor alone induces nothing through the ground and with ground effect, `-100/(4π·50)·(4/5)` -/
theorem C141_stations_refuted (mini : (ℝ → Num) → ℝ) :
    let w := (WT.new 50 ⟨0,30,0⟩ ⟨0,0,1⟩ ⟨0,1,0⟩ ⟨0,0,10⟩ none false "VC").run mini
      ([.chi (some 0)] ++ [.loading { r := some ((List.range 2).map fun i : ℕ => 10 * ((i:ℝ) + 1)), Gamma := some ((List.range 2).map fun _ : ℕ => Num.fin 100), Lambda := some (.fin 7), nCyl := none }])
    ∃ u v, (w.computeU [⟨40,0,0⟩] { tang := false, longi := true, root := true, only_ind := true, ground := some true }).1 = .ok u ∧ u[0]? = some (V3.fin v) ∧
      V3.dot ⟨0,1,0⟩ v = -(100/(4*π*50)*(4/5)) := by
  intro w
  obtain ⟨e1, e2, -, -, e5, -, -, -, -, -, e11, e12, e13, e14⟩ := loading_frame mini
    ((WT.new 50 ⟨0,30,0⟩ ⟨0,0,1⟩ ⟨0,1,0⟩ ⟨0,0,10⟩ none false "VC").run mini [.chi (some 0)])
    { r := some ((List.range 2).map fun i : ℕ => 10 * ((i:ℝ) + 1)), Gamma := some ((List.range 2).map fun _ : ℕ => Num.fin 100), Lambda := some (.fin 7), nCyl := none }
  have f2 : w.r_hub = ⟨0,30,0⟩ := e2
  have f5 : w.e_shaft_g = ⟨0,0,1⟩ := by
    refine Eq.trans e5 ?_
    have := (frame_run mini ⟨0,0,1⟩ ⟨0,1,0⟩ 50 [.chi (some 0)] _ (frame_new 50 ⟨0,30,0⟩ ⟨0,0,1⟩ ⟨0,1,0⟩ ⟨0,0,10⟩ none false "VC")).e_shaft_g
    rw [turn_eq] at this
    refine this.trans ?_
    change turn _ 0 _ = _
    unfold turn
    ext <;> simp
  have f11 : w.U0_g = ⟨0,0,10⟩ := e11
  have f13 : w.chi = some 0 := e13
  have f14 : w.Model = "VC" := e14
  obtain ⟨u, hu, H⟩ := C141_stations_partial mini 50 ⟨0,30,0⟩ ⟨0,0,1⟩ ⟨0,1,0⟩ ⟨0,0,10⟩ none false "VC" ⟨by simp [V3.dot], by simp [V3.dot], by simp [V3.dot]⟩ (by norm_num)
    [Op.chi (some 0)] [⟨40,0,0⟩] (by simp) { tang := false, longi := true, root := true, only_ind := true, ground := some true } rfl rfl rfl rfl rfl
    2 (fun i : ℕ => 10 * ((i:ℝ) + 1)) (fun _ => 100) 7 (by norm_num) (by norm_num) le_rfl (by norm_num)
    (fun i j hij _ => by have : (i:ℝ) < j := by exact_mod_cast hij
                         linarith)
    (by change 0 < V3.norm w.U0_g; rw [f11]; unfold V3.norm; simp) rfl f14 0
    (by rw [computeU_state]; change some (match WT.chi _ with | some c => c | none => _) = _; rw [f13])
    (by simp [Num.abs_fin, Num.zero_def, Num.lt_fin]; norm_num)
  change ∀ (i : ℕ) (p : V3 ℝ) (ρ : ℝ) (k : ℕ), _ → _ → V3.dot (p - w.r_hub) w.e_shaft_g = 0 → ρ = axisDist w.e_shaft_g w.r_hub p → _ → _ → _ → _ →
      ∃ v, u[i]? = some (V3.fin v) ∧ V3.dot ⟨0,1,0⟩ v = _ * (V3.dot (p - w.r_hub) (V3.cross ⟨0,1,0⟩ w.e_shaft_g) / ρ) at H
  rw [f2, f5] at H
  have h2 : axisDist ⟨0,0,1⟩ ⟨0,30,0⟩ ⟨40,0,0⟩ = 50 := by
    unfold axisDist V3.norm
    rw [show (50:ℝ) = √(50^2) by rw [Real.sqrt_sq (by norm_num)]]
    congr 1
    simp [V3.cross]; norm_num
  obtain ⟨v, v1, v2⟩ := H 0 ⟨40,0,0⟩ 50 2 rfl (by simp [V3.dot]) (by simp [V3.dot]) h2.symm (by norm_num) le_rfl
    (by intro j hj; have : (j:ℝ) < 2 := by exact_mod_cast hj
        linarith) (by intro j h1 h2; omega)
  refine ⟨u, v, hu, v1, v2.trans ?_⟩
  have e : V3.dot ((⟨40,0,0⟩ : V3 ℝ) - ⟨0,30,0⟩) (V3.cross ⟨0,1,0⟩ ⟨0,0,1⟩) = 40 := by simp [V3.dot, V3.cross]
  rw [e]
  norm_num
  ring

end
end Wiz
