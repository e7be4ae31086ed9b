import Verif.Props.TurbineSwirl
import Verif.Props.CylinderAccuracy2
import Verif.Lemmas.CarlsonUniformPi
import Verif.Props.RotorPlane
/-! # C138, C139: the swirl of a turbine, from its loading -/
set_option autoImplicit false
namespace Wiz
open Spec Classical Real
noncomputable section

/-- `WakeVorticityFromGamma` below tip-speed ratio 20 -/
theorem fromGamma_swirl (n : ℕ) (r G : ℕ → ℝ) (R U0 Ω : ℝ) (hn : 0 < n) (h0 : 0 < r 0) (hinc : ∀ i j, i < j → j < n → r i < r j) (hnR : n = 1 → r 0 ≤ R)
    (hU : 0 < U0) (hΩ : 0 < Ω) (hL : Ω*R/U0 < 20) :
    ∃ (v : WakeVort) (g : ℕ → ℝ), wakeVorticityFromGamma (farr n r) (farr n G) (.fin R) (.fin U0) (.fin Ω) = .ok v ∧ v.gamma_t = farr n g ∧
      v.gamma_l = some (farr n fun i => (G i - (if i = n - 1 then 0 else G (i+1))) / (2 * π * r i)) ∧ v.Gamma_r = some (.fin (-G 0)) := by
  obtain ⟨h1, h2, h3⟩ := rcyl_ok n r R hn h0 hinc hnR
  obtain ⟨h, e, -⟩ := discr_eval_swirl n r G (rcyl n r R) (.fin R) U0 Ω 1 true true hn hU.ne' hΩ.ne' (fun i hi => (h1 i hi).ne')
    (fun i hi => (h2 i hi).ne') h3 (by simp)
  have e := (discr_default n r _ R _ _ _ true true true hn).trans e
  unfold wakeVorticityFromGamma
  have c1 : capOmega (.fin Ω) = .fin Ω := by
    unfold capOmega; rw [if_neg (by intro h; exact h)]
  have c2 : decide ((Num.fin Ω * Num.fin R / Num.fin U0 : Num) < 20) = true := by
    rw [decide_eq_true_iff, Num.fin_mul, Num.fin_div hU.ne', Num.ofNat_def, Num.lt_fin]
    exact_mod_cast hL
  simp only [c1, c2]
  refine ⟨_, _, e, rfl, ?_, ?_⟩
  · simp only [one_mul]
  · simp only [one_mul]

theorem farr_map (n : ℕ) (r : ℕ → ℝ) : ((List.range n).map r).map Num.fin = farr n r := by
  unfold farr arr; rw [List.map_map]; rfl

/-- the wake stored by `update_loading` from a circulation -/
theorem loading_gamma (mini : (ℝ → Num) → ℝ) (w : WT) (hR : 0 < w.R) (hU : 0 < V3.norm w.U0_g) (n : ℕ) (r G : ℕ → ℝ) (lam : ℝ) (hl : 0 < lam) (hl20 : lam < 20)
    (hn : 0 < n) (h0 : 0 < r 0) (hinc : ∀ i j, i < j → j < n → r i < r j) (hnR : n = 1 → r 0 ≤ w.R)
    (a : LoadArgs) (hre : reinterp w.R a = .ok (some ((List.range n).map r), none, some ((List.range n).map fun i => .fin (G i))))
    (hla : a.Lambda = some (.fin lam)) (hf : a.gamma_t_Ct = none) :
    ∃ gt : List ℝ, gt.length = n ∧ (w.updateLoading mini a).1 = .ok () ∧ (w.updateLoading mini a).2 = { w with
      gamma_t := some (gt.map .fin), gamma_l := some (farr n fun i => (G i - (if i = n - 1 then 0 else G (i+1))) / (2 * π * r i)), Gamma_r := some (.fin (-G 0)),
      Lambda := some (.fin lam), r := some ((List.range n).map r), Ct := none } := by
  obtain ⟨v, g, e, e1, e2, e3⟩ := fromGamma_swirl n r G w.R (V3.norm w.U0_g) (lam * V3.norm w.U0_g / w.R) hn h0 hinc hnR hU (by positivity) (by
    rw [div_mul_cancel₀ _ hR.ne', mul_div_assoc, div_self hU.ne', mul_one]; exact hl20)
  have e' : (Num.fin lam * .fin (V3.norm w.U0_g) / .fin w.R : Num) = .fin (lam * V3.norm w.U0_g / w.R) := by
    rw [Num.fin_mul, Num.fin_div hR.ne']
  have e4 : loadingSolve mini w.R (.fin (V3.norm w.U0_g)) (Num.fin lam * .fin (V3.norm w.U0_g) / .fin w.R) (some ((List.range n).map r)) none
      (some ((List.range n).map fun i => Num.fin (G i))) none = .ok (v.gamma_t, v.gamma_l, v.Gamma_r) := by
    rw [e']
    unfold loadingSolve
    simp only
    rw [farr_map]
    change (match wakeVorticityFromGamma (farr n r) (farr n G) _ _ _ with | .ok v => _ | .error e => _) = _
    rw [e]
  refine ⟨(List.range n).map g, by simp, ?_, ?_⟩
  · unfold WT.updateLoading
    simp only [hre, hla, hf, e4]
  · unfold WT.updateLoading
    simp only [hre, hla, hf, e4, e1, e2, e3, farr_map]

/-- circulation enclosed by a circle between the stations `k-1` and `k` -/
theorem enclosed_loading (n k : ℕ) (r G : ℕ → ℝ) (ρ : ℝ) (hn : 0 < n) (hr : ∀ i < n, r i ≠ 0) (hk : k ≤ n) (hin : ∀ j < n, (r j < ρ ↔ j < k)) :
    enclosed (-G 0) ((List.range n).map fun i => ((G i - (if i = n - 1 then 0 else G (i+1))) / (2 * π * r i), r i)) ρ = -(if k < n then G k else 0) := by
  have hpi := pi_pos
  unfold enclosed
  rw [List.map_map]
  have e : ∀ m, m ≤ n → ((List.range m).map ((fun y : ℝ × ℝ => if y.2 < ρ then 2 * π * y.2 * y.1 else 0) ∘
      fun i => ((G i - (if i = n - 1 then 0 else G (i+1))) / (2 * π * r i), r i))).sum = G 0 - (if min m k < n then G (min m k) else 0) := by
    intro m
    induction m with
    | zero => intro _; simp [hn]
    | succ m ih =>
      intro hm
      rw [List.range_succ, List.map_append, List.sum_append, ih (by omega)]
      simp only [List.map_cons, List.map_nil, List.sum_cons, List.sum_nil, add_zero, Function.comp]
      by_cases h : m < k
      · rw [if_pos ((hin m (by omega)).mpr h), min_eq_left h.le, min_eq_left (by omega : m + 1 ≤ k), if_pos (by omega : m < n)]
        have := hr m (by omega)
        by_cases hl : m = n - 1
        · rw [if_pos hl, if_neg (by omega)]
          field_simp
          ring
        · rw [if_neg hl, if_pos (by omega)]
          field_simp
          ring
      · rw [if_neg (fun h' => h ((hin m (by omega)).mp h')), min_eq_right (by omega : k ≤ m), min_eq_right (by omega : k ≤ m + 1), add_zero]
  rw [e n le_rfl, min_eq_right hk]
  ring

theorem run_append (mini : (ℝ → Num) → ℝ) (w : WT) (h h' : List Op) : w.run mini (h ++ h') = (w.run mini h).run mini h' := by
  unfold WT.run; rw [List.foldl_append]

/-- C138 (loading): load a turbine, whatever happened to it before, with a blade circulation `G` at `n≥2` increasing stations at a tip-speed ratio below 20.  Then
between the stations `k-1` and `k` of the rotor plane the velocity `compute_u` returns (root vortex and longitudinal vorticity on, straight wake)
swirls against the rotor at exactly `G_k/(4πρ)`, the circulation of the blades at the next station over twice the circumference — inside the first station
`G_0/(4πρ)`, and outside of the last one nothing. -/
theorem C138_loading (mini : (ℝ → Num) → ℝ) (R : ℝ) (hub shaft vert U0 : V3 ℝ) (L : Option Num) (gr : Bool)
    (M : String) (ho : Orthonormal shaft vert) (hR : 0 < R) (h : List Op) (pts : List (V3 ℝ)) (hp : pts ≠ []) (o : Opts) (hnw : o.no_wake = false)
    (hlo : o.longi = true) (hro : o.root = true)
    (n : ℕ) (r G : ℕ → ℝ) (lam : ℝ) (hl : 0 < lam) (hl20 : lam < 20) (hn : 2 ≤ n) (h0 : 0 < r 0) (hinc : ∀ i j, i < j → j < n → r i < r j) :
    let a : LoadArgs := { r := some ((List.range n).map r), Gamma := some ((List.range n).map fun i => .fin (G i)), Lambda := some (.fin lam), nCyl := none }
    let w := (WT.new R hub shaft vert U0 L gr M).run mini (h ++ [.loading a])
    let s := w.e_shaft_g
    0 < V3.norm w.U0_g → o.ground.getD w.Ground = false → o.Model.getD w.Model = "VC" →
    ∀ chi, (w.computeU pts o).2.chi = some chi → ¬ (Num.fin 1e-7 < Num.abs chi) →
    ∃ u, (w.computeU pts o).1 = .ok u ∧ ∀ (i : ℕ) (p : V3 ℝ) (ρ : ℝ) (k : ℕ), pts[i]? = some p → V3.dot (p - w.r_hub) s = 0 → ρ = axisDist s w.r_hub p → 0 < ρ →
      k ≤ n → (∀ j < k, r j < ρ) → (∀ j < n, k ≤ j → ρ < r j) →
      ∃ v, u[i]? = some (V3.fin v) ∧
        swirlAbout s w.r_hub p (v - if o.only_ind then 0 else w.U0_g) = -(if k < n then G k else 0) / (4*π*ρ) := by
  intro a w s hU hg hM chi hchi hsk
  obtain ⟨w0, hw0⟩ : ∃ w0, w0 = (WT.new R hub shaft vert U0 L gr M).run mini h := ⟨_, rfl⟩
  have hw : w = (w0.updateLoading mini a).2 := by
    simp only [w]; rw [run_append, ← hw0]; rfl
  have hfr := frame_run mini shaft vert R h _ (frame_new R hub shaft vert U0 L gr M)
  rw [← hw0] at hfr
  have hU0 : w.U0_g = w0.U0_g := by
    rw [hw]
    unfold WT.updateLoading
    simp only
    repeat' split
    all_goals rfl
  rw [hU0] at hU
  obtain ⟨gt, g1, -, g2⟩ := loading_gamma mini w0 (by rw [hfr.R]; exact hR) hU n r G lam hl hl20 (by omega) h0 hinc (by omega) a rfl rfl rfl
  rw [← hw] at g2
  have hpos : ∀ i < n, 0 < r i := by
    intro i hi
    rcases Nat.eq_zero_or_pos i with rfl | h
    · exact h0
    · exact h0.trans (hinc 0 i h hi)
  obtain ⟨sh, hsh⟩ : ∃ sh : List (ℝ × ℝ), sh = (List.range n).map fun i => ((G i - (if i = n - 1 then 0 else G (i+1))) / (2 * π * r i), r i) := ⟨_, rfl⟩
  have hst : StoredWake w gt sh (-G 0) := by
    refine ⟨by rw [g2], by rw [g2], ?_, by rw [hsh]; simpa using g1, ?_, Or.inl ⟨by rw [hsh]; simp; omega, ?_⟩⟩
    · rw [g2, hsh, List.map_map]; rfl
    · intro y hy
      rw [hsh] at hy
      obtain ⟨i, hi, rfl⟩ := List.mem_map.mp hy
      exact hpos i (List.mem_range.mp hi)
    · rw [g2, hsh, List.map_map]; rfl
  obtain ⟨u, hu, H⟩ := C138_rotor_plane mini R hub shaft vert U0 L gr M ho hR (h ++ [.loading a]) pts hp o hnw hlo hro gt sh (-G 0) chi hst hg hM hchi hsk
  refine ⟨u, hu, fun i p ρ k hi hz hρ hρ0 hk hk1 hk2 => ?_⟩
  obtain ⟨v, v1, v2⟩ := H i p ρ hi hz hρ hρ0 (by
    intro y hy
    rw [hsh] at hy
    obtain ⟨j, hj, rfl⟩ := List.mem_map.mp hy
    have hj := List.mem_range.mp hj
    rcases lt_or_ge j k with h | h
    · exact (hk1 j h).ne'
    · exact (hk2 j hj h).ne)
  refine ⟨v, v1, v2.trans ?_⟩
  rw [hsh, enclosed_loading n k r G ρ (by omega) (fun i hi => (hpos i hi).ne') hk fun j hj => ⟨fun h => ?_, fun h => hk1 j h⟩]
  by_contra h'
  exact lt_asymm h (hk2 j hj (by omega))

/-- a turbine with two stations meets the hypotheses of `C138_loading` at a point between the stations and at a point outside; its swirls there -/
example (mini : (ℝ → Num) → ℝ) :
    let w := (WT.new 50 ⟨1,2,3⟩ ⟨0,0,1⟩ ⟨0,1,0⟩ ⟨0,0,10⟩ none false "VC").run mini
      ([.chi (some 0)] ++ [.loading { r := some ((List.range 2).map fun i : ℕ => 20 * ((i:ℝ) + 1)), Gamma := some ((List.range 2).map fun i : ℕ => Num.fin (60 + 40 * (i:ℝ))), Lambda := some (.fin 7), nCyl := none }])
    let o : Opts := { longi := true, root := true }
    ∃ u, (w.computeU [⟨31,2,3⟩, ⟨61,2,3⟩] o).1 = .ok u ∧ ∃ v v', u[0]? = some (V3.fin v) ∧ u[1]? = some (V3.fin v') ∧
      swirlAbout ⟨0,0,1⟩ ⟨1,2,3⟩ ⟨31,2,3⟩ (v - ⟨0,0,10⟩) = -100/(4*π*30) ∧ swirlAbout ⟨0,0,1⟩ ⟨1,2,3⟩ ⟨61,2,3⟩ (v' - ⟨0,0,10⟩) = 0 := by
  intro w o
  have hn : V3.norm (⟨0,0,10⟩ : V3 ℝ) = 10 := by unfold V3.norm; simp
  obtain ⟨e1, e2, -, -, e5, -, -, -, -, -, e11, e12, e13, e14⟩ := loading_frame mini
    ((WT.new 50 ⟨1,2,3⟩ ⟨0,0,1⟩ ⟨0,1,0⟩ ⟨0,0,10⟩ none false "VC").run mini [.chi (some 0)])
    { r := some ((List.range 2).map fun i : ℕ => 20 * ((i:ℝ) + 1)), Gamma := some ((List.range 2).map fun i : ℕ => Num.fin (60 + 40 * (i:ℝ))), Lambda := some (.fin 7), nCyl := none }
  have f2 : w.r_hub = ⟨1,2,3⟩ := e2
  have f5 : w.e_shaft_g = ⟨0,0,1⟩ := by
    refine e5.trans ?_
    have := (frame_run mini ⟨0,0,1⟩ ⟨0,1,0⟩ 50 [.chi (some 0)] _ (frame_new 50 ⟨1,2,3⟩ ⟨0,0,1⟩ ⟨0,1,0⟩ ⟨0,0,10⟩ none false "VC")).e_shaft_g
    rw [turn_eq] at this
    refine this.trans ?_
    change turn _ 0 _ = _
    unfold turn
    ext <;> simp
  have f11 : w.U0_g = ⟨0,0,10⟩ := e11
  have f12 : w.Ground = false := e12
  have f13 : w.chi = some 0 := e13
  have f14 : w.Model = "VC" := e14
  obtain ⟨u, hu, H⟩ := C138_loading mini 50 ⟨1,2,3⟩ ⟨0,0,1⟩ ⟨0,1,0⟩ ⟨0,0,10⟩ none false "VC" ⟨by simp [V3.dot], by simp [V3.dot], by simp [V3.dot]⟩ (by norm_num)
    [.chi (some 0)] [⟨31,2,3⟩, ⟨61,2,3⟩] (by simp) o rfl rfl rfl 2 (fun i => 20 * ((i:ℝ) + 1)) (fun i => 60 + 40 * (i:ℝ)) 7 (by norm_num) (by norm_num) le_rfl (by norm_num)
    (fun i j hij _ => by have : (i:ℝ) < j := by exact_mod_cast hij
                         linarith)
    (by change 0 < V3.norm w.U0_g; rw [f11, hn]; norm_num) f12 f14 0 (by rw [computeU_state]; change some (match w.chi with | some c => c | none => w.chiAuto) = _; rw [f13])
    (by simp [Num.abs_fin, Num.zero_def, Num.lt_fin]; norm_num)
  have hs : ∀ x : ℝ, 0 ≤ x → axisDist ⟨0,0,1⟩ ⟨1,2,3⟩ ⟨1+x,2,3⟩ = x := by
    intro x hx
    unfold axisDist V3.norm V3.cross
    simp [sqrt_sq hx]
  have h30 := hs 30 (by norm_num)
  have h60 := hs 60 (by norm_num)
  norm_num at h30 h60
  simp only [w] at f2 f5 f11
  rw [f2, f5, f11] at H
  obtain ⟨v, v1, v2⟩ := H 0 ⟨31,2,3⟩ 30 1 rfl (by simp [V3.dot]) h30.symm (by norm_num) (by norm_num)
    (by intro j hj; have : j = 0 := by omega
        subst this; norm_num) (by intro j h1 h2; have : j = 1 := by omega
                                  subst this; norm_num)
  obtain ⟨v', v1', v2'⟩ := H 1 ⟨61,2,3⟩ 60 2 rfl (by simp [V3.dot]) h60.symm (by norm_num) (by norm_num)
    (by intro j hj; rcases (by omega : j = 0 ∨ j = 1) with h | h <;> subst h <;> norm_num) (by intro j h1 h2; omega)
  refine ⟨u, hu, v, v', v1, v1', v2.trans ?_, v2'.trans ?_⟩
  · norm_num
  · norm_num

/-- the wake stored for one station `r0` -/
theorem stored_one (mini : (ℝ → Num) → ℝ) (w : WT) (hR : 0 < w.R) (hU : 0 < V3.norm w.U0_g) (r0 Γ : ℝ) (lam : ℝ) (hl : 0 < lam) (hl20 : lam < 20)
    (h0 : 0 < r0) (hr0 : r0 ≤ w.R) (a : LoadArgs) (hre : reinterp w.R a = .ok (some [r0], none, some [.fin Γ]))
    (hla : a.Lambda = some (.fin lam)) (hf : a.gamma_t_Ct = none) :
    ∃ g : ℝ, StoredWake (w.updateLoading mini a).2 [g] [(Γ/(2*π*r0), w.R)] (-Γ) := by
  obtain ⟨gt, g1, -, g2⟩ := loading_gamma mini w hR hU 1 (fun _ => r0) (fun _ => Γ) lam hl hl20 one_pos h0 (fun i j h1 h2 => by omega) (fun _ => hr0) a hre hla hf
  match gt, g1 with
  | [g], _ =>
    refine ⟨g, by rw [g2], by rw [g2], ?_, rfl, ?_, Or.inr ⟨rfl, by rw [g2]; rfl⟩⟩
    · rw [g2]
      simp [farr, arr]
    · intro y hy
      rw [List.mem_singleton.mp hy]
      exact hR

/-- C139 (one cylinder): a turbine loaded with the circulation `Γ` of one station `r0`, by hand or by the default `nCyl=1` (the mean circulation at `r0=0.995R`), swirls
at `-Γ/(4πρ)` inside the rotor; outside of it the swirl that should vanish is `Γ(R/r0-1)/(4πρ)`: the sheet of the strength of the station is put at the
rotor radius and carries more circulation than the root vortex takes back. -/
theorem C139_one_station_partial (mini : (ℝ → Num) → ℝ) (R : ℝ) (hub shaft vert U0 : V3 ℝ) (L : Option Num) (gr : Bool)
    (M : String) (ho : Orthonormal shaft vert) (hR : 0 < R) (h : List Op) (pts : List (V3 ℝ)) (hp : pts ≠ []) (o : Opts) (hnw : o.no_wake = false)
    (hlo : o.longi = true) (hro : o.root = true) (r0 Γ lam : ℝ) (hl : 0 < lam) (hl20 : lam < 20) (h0 : 0 < r0) (hr0 : r0 ≤ R) (a : LoadArgs)
    (ha : (a = { r := some [r0], Gamma := some [.fin Γ], Lambda := some (.fin lam), nCyl := none }) ∨
      (r0 = 0.995 * R ∧ ∃ rs Gs, Gs ≠ [] ∧ Γ = Gs.sum/Gs.length ∧ a = { r := rs, Gamma := some (Gs.map .fin), Lambda := some (.fin lam), nCyl := some 1 })) :
    let w := (WT.new R hub shaft vert U0 L gr M).run mini (h ++ [.loading a])
    let s := w.e_shaft_g
    0 < V3.norm w.U0_g → o.ground.getD w.Ground = false → o.Model.getD w.Model = "VC" →
    ∀ chi, (w.computeU pts o).2.chi = some chi → ¬ (Num.fin 1e-7 < Num.abs chi) →
    ∃ u, (w.computeU pts o).1 = .ok u ∧ ∀ (i : ℕ) (p : V3 ℝ) (ρ : ℝ), pts[i]? = some p → V3.dot (p - w.r_hub) s = 0 → ρ = axisDist s w.r_hub p → 0 < ρ → ρ ≠ R →
      ∃ v, u[i]? = some (V3.fin v) ∧
        swirlAbout s w.r_hub p (v - if o.only_ind then 0 else w.U0_g) = (if ρ < R then -Γ else Γ * (R/r0 - 1)) / (4*π*ρ) := by
  intro w s hU hg hM chi hchi hsk
  obtain ⟨w0, hw0⟩ : ∃ w0, w0 = (WT.new R hub shaft vert U0 L gr M).run mini h := ⟨_, rfl⟩
  have hw : w = (w0.updateLoading mini a).2 := by
    simp only [w]; rw [run_append, ← hw0]; rfl
  have hfr := frame_run mini shaft vert R h _ (frame_new R hub shaft vert U0 L gr M)
  rw [← hw0] at hfr
  have hU0 : w.U0_g = w0.U0_g := by rw [hw]; exact (loading_frame mini w0 a).2.2.2.2.2.2.2.2.2.2.1
  rw [hU0] at hU
  have hre : reinterp w0.R a = .ok (some [r0], none, some [.fin Γ]) ∧ a.Lambda = some (.fin lam) ∧ a.gamma_t_Ct = none := by
    rcases ha with rfl | ⟨e0, rs, Gs, hG, hΓ, rfl⟩
    · exact ⟨rfl, rfl, rfl⟩
    · refine ⟨?_, rfl, rfl⟩
      unfold reinterp
      simp only [if_true, Option.map_some, Option.map_none]
      rw [hfr.R, ← e0, npMean_fin _ hG, ← hΓ]
  obtain ⟨g, hst⟩ := stored_one mini w0 (by rw [hfr.R]; exact hR) hU r0 Γ lam hl hl20 h0 (by rw [hfr.R]; exact hr0) a hre.1 hre.2.1 hre.2.2
  rw [← hw, hfr.R] at hst
  obtain ⟨u, hu, H⟩ := C138_rotor_plane mini R hub shaft vert U0 L gr M ho hR (h ++ [.loading a]) pts hp o hnw hlo hro _ _ _ chi hst hg hM hchi hsk
  refine ⟨u, hu, fun i p ρ hi hz hρ hρ0 hne => ?_⟩
  obtain ⟨v, v1, v2⟩ := H i p ρ hi hz hρ hρ0 (by simpa using hne)
  refine ⟨v, v1, v2.trans ?_⟩
  have hpi := pi_pos
  unfold enclosed
  simp only [List.map_cons, List.map_nil, List.sum_cons, List.sum_nil, add_zero]
  rcases lt_or_gt_of_ne hne with h | h
  · rw [if_neg (not_lt.mpr h.le), if_pos h, add_zero]
  · rw [if_pos h, if_neg (not_lt.mpr h.le)]
    congr 1
    field_simp
    ring

/-- the swirl of the axial filaments inside the sheet, close to the rotor plane -/
theorem longi_inside (γ R ρ z : ℝ) (hρ : 0 < ρ) (hρR : ρ < R) (hz : z ≠ 0) :
    |vcUpsi γ R ρ z (ellPi (vcN R ρ) (vcM R ρ z))| ≤ |γ| * (R/ρ) * (|z|/(4*(R-ρ))) := by
  have hpi := pi_pos
  have hR : 0 < R := hρ.trans hρR
  have hza := abs_pos.mpr hz
  have hn := vcN_lt hR hρ.le hρR.ne
  have hm := vcM_lt (z := z) hR hρ.le (fun h => hz h.2)
  have hm0 : 0 ≤ vcM R ρ z := by unfold vcM; positivity
  have hK := ellK_weighted hm0 hm
  have hK0 := ellK_pos hm
  have hP := ellPi_le hn hm0 hm
  have hP0 := ellPi_pos' hn hm
  have e1 : √(1 - vcN R ρ) = (R-ρ)/(R+ρ) := by
    have : 1 - vcN R ρ = ((R-ρ)/(R+ρ))^2 := by unfold vcN; field_simp; ring
    rw [this, sqrt_sq (div_nonneg (by linarith) (by linarith))]
  have hA : 0 < (R-ρ)/(R+ρ) := div_pos (by linarith) (by linarith)
  have hs1 : 0 < √(1 - vcM R ρ z) := sqrt_pos.mpr (by linarith)
  have hKb : ellK (vcM R ρ z) ≤ π/2/√(1 - vcM R ρ z) := by rw [le_div_iff₀ hs1, mul_comm]; exact hK
  have hPb : (R-ρ)/(R+ρ) * ellPi (vcN R ρ) (vcM R ρ z) ≤ π/2/√(1 - vcM R ρ z) := by
    rw [e1] at hP
    calc (R-ρ)/(R+ρ) * ellPi (vcN R ρ) (vcM R ρ z) ≤ (R-ρ)/(R+ρ) * (π/(2*((R-ρ)/(R+ρ)))*(1/√(1 - vcM R ρ z))) := by gcongr
      _ = _ := by
        generalize (R-ρ)/(R+ρ) = A at *
        field_simp
  have hd : |ellK (vcM R ρ z) - (R-ρ)/(R+ρ) * ellPi (vcN R ρ) (vcM R ρ z)| ≤ π/2/√(1 - vcM R ρ z) := by
    have := mul_pos hA hP0
    rw [abs_le]; constructor <;> linarith
  have hs : √(vcM R ρ z)/√(ρ*R) = 2/√((R+ρ)^2+z^2) := by
    unfold vcM
    rw [← sqrt_div (by positivity), show 4*ρ*R/((R+ρ)^2+z^2)/(ρ*R) = 2^2/((R+ρ)^2+z^2) by
      have : (R+ρ)^2+z^2 ≠ 0 := by positivity
      field_simp; norm_num, sqrt_div (by positivity), sqrt_sq (by norm_num)]
  have hs2 : √(1 - vcM R ρ z) = √((R-ρ)^2+z^2)/√((R+ρ)^2+z^2) := by
    rw [← sqrt_div (by positivity)]
    congr 1
    have : (R+ρ)^2+z^2 ≠ 0 := by positivity
    unfold vcM; field_simp; ring
  have hlow : R - ρ ≤ √((R-ρ)^2+z^2) := le_sqrt_of_sq_le (by nlinarith [sq_nonneg z])
  have hd1 : 0 < √((R-ρ)^2+z^2) := by linarith
  have hd2 : 0 < √((R+ρ)^2+z^2) := sqrt_pos.mpr (by positivity)
  unfold vcUpsi vcT
  rw [if_pos hρR, sub_self, zero_add, show z * √(vcM R ρ z) / (2*π*√(ρ*R)) = z/(2*π)*(√(vcM R ρ z)/√(ρ*R)) by ring, hs]
  rw [hs2] at hd
  generalize ellK (vcM R ρ z) - (R-ρ)/(R+ρ) * ellPi (vcN R ρ) (vcM R ρ z) = D at *
  generalize √((R-ρ)^2+z^2) = d1 at *
  generalize √((R+ρ)^2+z^2) = d2 at *
  rw [abs_mul, abs_mul, abs_mul, abs_div, abs_div, abs_mul, abs_div γ, abs_of_pos hR, abs_of_pos hρ, abs_of_pos (by norm_num : (0:ℝ) < 2), abs_of_pos (by positivity : 0 < 2*π),
    abs_of_pos (by positivity : 0 < 2/d2)]
  calc |γ|/2*R/ρ*(|z|/(2*π)*(2/d2)*|D|) ≤ |γ|/2*R/ρ*(|z|/(2*π)*(2/d2)*(π/2/(d1/d2))) := by gcongr
    _ = |γ| * (R/ρ) * (|z|/(4*d1)) := by field_simp; norm_num
    _ ≤ _ := by gcongr

theorem longiSw_inside (Y : List (V3 ℝ)) (γ R : ℝ) (i : ℕ) (q : V3 ℝ) (hi : Y[i]? = some q) (ρ : ℝ) (hρ : polarR q.x q.y = ρ) (hr : 0 < ρ) (hρR : ρ < R) (hz : q.z ≠ 0) :
    |longiSw Y γ R ρ q.z| ≤ |γ| * (R/ρ) * (|q.z|/(4*(R-ρ)) + 3/100) := by
  have hR : 0 < R := hr.trans hρR
  subst hρ
  have hu := longi_uniform Y R hR q (List.mem_of_getElem? hi) hr hρR.ne
  have hw := weight_bound (γ := γ) (z := q.z) hR hr hu
  have h1 := longi_inside γ R _ q.z hr hρR hz
  generalize polarR q.x q.y = ρ at *
  have e : longiSw Y γ R ρ q.z = vcUpsi γ R ρ q.z (ellPi (vcN R ρ) (vcM R ρ q.z)) - R/ρ * (γ/2 * (q.z * √(vcM R ρ q.z) / (2*π*√(ρ*R))) * ((R - ρ)/(R + ρ)) *
      (piReal (longiBatch Y R) (vcN R ρ) (vcM R ρ q.z) - ellPi (vcN R ρ) (vcM R ρ q.z))) := by
    unfold longiSw vcUpsi; ring
  have hq : 0 < R/ρ := div_pos hR hr
  rw [e]
  refine (abs_sub _ _).trans ?_
  rw [abs_mul (R/ρ), abs_of_pos hq]
  have := mul_le_mul_of_nonneg_left hw hq.le
  linarith

/-- C139 (upstream): inside the streamtube upstream of a rotor of one station, the velocity swirls by what the root vortex induces there,
`-Γ/(4πρ)(1-|z|/√(ρ²+z²))`, within `|Γ|/(2πρ)(R/r0)(|z|/4(R-ρ)+3%)`: the swirl of the rotor plane carries on upstream. -/
theorem C139_upstream_partial (mini : (ℝ → Num) → ℝ) (R : ℝ) (hub shaft vert U0 : V3 ℝ) (L : Option Num) (gr : Bool)
    (M : String) (ho : Orthonormal shaft vert) (hR : 0 < R) (h : List Op) (pts : List (V3 ℝ)) (hp : pts ≠ []) (o : Opts) (hnw : o.no_wake = false)
    (hlo : o.longi = true) (hro : o.root = true) (r0 Γ lam : ℝ) (hl : 0 < lam) (hl20 : lam < 20) (h0 : 0 < r0) (hr0 : r0 ≤ R) :
    let w := (WT.new R hub shaft vert U0 L gr M).run mini (h ++ [.loading { r := some [r0], Gamma := some [.fin Γ], Lambda := some (.fin lam), nCyl := none }])
    let s := w.e_shaft_g
    0 < V3.norm w.U0_g → o.ground.getD w.Ground = false → o.Model.getD w.Model = "VC" →
    ∀ chi, (w.computeU pts o).2.chi = some chi → ¬ (Num.fin 1e-7 < Num.abs chi) →
    ∃ u, (w.computeU pts o).1 = .ok u ∧ ∀ (i : ℕ) (p : V3 ℝ) (ρ z : ℝ), pts[i]? = some p → z = V3.dot (p - w.r_hub) s → z < 0 → ρ = axisDist s w.r_hub p → 0 < ρ → ρ < R →
      ∃ v, u[i]? = some (V3.fin v) ∧
        |swirlAbout s w.r_hub p (v - if o.only_ind then 0 else w.U0_g) + Γ/(4*π*ρ) * (1 - |z|/√(ρ^2 + z^2))| ≤ |Γ|/(2*π*ρ) * (R/r0) * (|z|/(4*(R-ρ)) + 3/100) := by
  intro w s hU hg hM chi hchi hsk
  obtain ⟨a, ha⟩ : ∃ a : LoadArgs, a = { r := some [r0], Gamma := some [.fin Γ], Lambda := some (.fin lam), nCyl := none } := ⟨_, rfl⟩
  obtain ⟨w0, hw0⟩ : ∃ w0, w0 = (WT.new R hub shaft vert U0 L gr M).run mini h := ⟨_, rfl⟩
  have hw : w = (w0.updateLoading mini a).2 := by
    simp only [w]; rw [run_append, ← hw0, ha]; rfl
  have hfr := frame_run mini shaft vert R h _ (frame_new R hub shaft vert U0 L gr M)
  rw [← hw0] at hfr
  have hU0 : w.U0_g = w0.U0_g := by rw [hw]; exact (loading_frame mini w0 a).2.2.2.2.2.2.2.2.2.2.1
  rw [hU0] at hU
  obtain ⟨g, hst⟩ := stored_one mini w0 (by rw [hfr.R]; exact hR) hU r0 Γ lam hl hl20 h0 (by rw [hfr.R]; exact hr0) a (by rw [ha]; rfl) (by rw [ha]) (by rw [ha])
  rw [← hw, hfr.R] at hst
  obtain ⟨u, Y, hu, -, H⟩ := swirl_value mini R hub shaft vert U0 L gr M ho hR _ pts hp o hnw hlo hro w rfl _ _ _ chi hst hg hM hchi hsk
  refine ⟨u, hu, fun i p ρ z hi hz hz0 hρ hρ0 hρR => ?_⟩
  obtain ⟨v, v1, v2, q, q1, q2, q3⟩ := H i p hi ρ hρ hρ0 (by simpa using hρR.ne)
  refine ⟨v, v1, ?_⟩
  have e : z = q.z := hz.trans q3.symm
  have hpi := pi_pos
  have hL := longiSw_inside Y (Γ/(2*π*r0)) R i q q1 ρ q2 hρ0 hρR (by rw [← e]; exact hz0.ne)
  rw [v2, ← q3, ← e]
  rw [← e] at hL
  unfold swTot
  simp only [List.map_cons, List.map_nil, List.sum_cons, List.sum_nil, add_zero]
  rw [abs_of_neg hz0] at hL ⊢
  have e2 : -Γ/(4*π*ρ)*(1 + z/√(ρ^2+z^2)) + longiSw Y (Γ/(2*π*r0)) R ρ z + Γ/(4*π*ρ)*(1 - -z/√(ρ^2+z^2)) = longiSw Y (Γ/(2*π*r0)) R ρ z := by ring
  rw [e2]
  refine hL.trans (le_of_eq ?_)
  rw [abs_div, abs_of_pos (by positivity : 0 < 2*π*r0)]
  field_simp

/-- the states of the example turbine -/
theorem example_state (mini : (ℝ → Num) → ℝ) (R r0 : ℝ) :
    let w := (WT.new R ⟨0,0,0⟩ ⟨0,0,1⟩ ⟨0,1,0⟩ ⟨0,0,10⟩ none false "VC").run mini
      ([.chi (some 0)] ++ [.loading { r := some [r0], Gamma := some [.fin 100], Lambda := some (.fin 7), nCyl := none }])
    w.r_hub = ⟨0,0,0⟩ ∧ w.e_shaft_g = ⟨0,0,1⟩ ∧ w.U0_g = ⟨0,0,10⟩ ∧ w.Ground = false ∧ w.chi = some 0 ∧ w.Model = "VC" ∧ 0 < V3.norm w.U0_g := by
  intro w
  obtain ⟨e1, e2, -, -, e5, -, -, -, -, -, e11, e12, e13, e14⟩ := loading_frame mini
    ((WT.new R ⟨0,0,0⟩ ⟨0,0,1⟩ ⟨0,1,0⟩ ⟨0,0,10⟩ none false "VC").run mini [.chi (some 0)])
    { r := some [r0], Gamma := some [.fin 100], Lambda := some (.fin 7), nCyl := none }
  have f11 : w.U0_g = ⟨0,0,10⟩ := e11
  refine ⟨e2, ?_, e11, e12, e13, e14, ?_⟩
  · refine Eq.trans e5 ?_
    have := (frame_run mini ⟨0,0,1⟩ ⟨0,1,0⟩ R [.chi (some 0)] _ (frame_new R ⟨0,0,0⟩ ⟨0,0,1⟩ ⟨0,1,0⟩ ⟨0,0,10⟩ none false "VC")).e_shaft_g
    rw [turn_eq] at this
    refine this.trans ?_
    change turn _ 0 _ = _
    unfold turn
    ext <;> simp
  · rw [f11]; unfold V3.norm; simp

/-- C139 (refuted upstream): a rotor (loaded at its tip, so that the circulations balance) swirls the flow *upstream* of its plane, at 3% of its radius from the shaft by more
than 0.3 m/s for a circulation of 100 m²/s, where the flow is irrotational and the swirl should be zero: the model has no bound vorticity. -/
theorem C139_upstream_refuted (mini : (ℝ → Num) → ℝ) :
    let w := (WT.new 103 ⟨0,0,0⟩ ⟨0,0,1⟩ ⟨0,1,0⟩ ⟨0,0,10⟩ none false "VC").run mini
      ([.chi (some 0)] ++ [.loading { r := some [103], Gamma := some [.fin 100], Lambda := some (.fin 7), nCyl := none }])
    ∃ u v, (w.computeU [⟨3,0,-4⟩] { longi := true, root := true }).1 = .ok u ∧ u[0]? = some (V3.fin v) ∧ swirlAbout ⟨0,0,1⟩ ⟨0,0,0⟩ ⟨3,0,-4⟩ (v - ⟨0,0,10⟩) ≤ -0.3 := by
  intro w
  obtain ⟨f2, f5, f11, f12, f13, f14, f15⟩ := example_state mini 103 103
  obtain ⟨u, hu, H⟩ := C139_upstream_partial mini 103 ⟨0,0,0⟩ ⟨0,0,1⟩ ⟨0,1,0⟩ ⟨0,0,10⟩ none false "VC" ⟨by simp [V3.dot], by simp [V3.dot], by simp [V3.dot]⟩ (by norm_num)
    [.chi (some 0)] [⟨3,0,-4⟩] (by simp) { longi := true, root := true } rfl rfl rfl 103 100 7 (by norm_num) (by norm_num) (by norm_num) le_rfl
    f15 f12 f14 0 (by rw [computeU_state]; change some (match WT.chi _ with | some c => c | none => _) = _; rw [f13])
    (by simp [Num.abs_fin, Num.zero_def, Num.lt_fin]; norm_num)
  rw [f2, f5, f11] at H
  have h3 : axisDist ⟨0,0,1⟩ ⟨0,0,0⟩ ⟨3,0,-4⟩ = 3 := by
    unfold axisDist V3.norm V3.cross
    simp
  obtain ⟨v, v1, v2⟩ := H 0 ⟨3,0,-4⟩ 3 (-4) rfl (by simp [V3.dot]) (by norm_num) h3.symm (by norm_num) (by norm_num)
  refine ⟨u, v, hu, v1, ?_⟩
  simp only [Bool.false_eq_true, if_false] at v2
  generalize swirlAbout _ _ _ _ = S at *
  rw [show (3:ℝ)^2 + (-4)^2 = 5^2 by norm_num, sqrt_sq (by norm_num)] at v2
  have hpi := pi_lt_d2
  have hpi0 := pi_pos
  have h1 := (abs_le.mp v2).2
  rw [show |(-4:ℝ)| = 4 by norm_num, show |(100:ℝ)| = 100 by norm_num] at h1
  have h2 : S ≤ -(1/π) := by
    have e1 : (100:ℝ)/(4*π*3)*(1-4/5) = 5/3*(1/π) := by field_simp; norm_num
    have e2 : (100:ℝ)/(2*π*3)*(103/103)*(4/(4*(103-3))+3/100) = 2/3*(1/π) := by field_simp; norm_num
    rw [e1, e2] at h1
    linarith
  have h4 : (0.3:ℝ) ≤ 1/π := by
    rw [le_div_iff₀ hpi0]
    norm_num at hpi ⊢
    linarith
  linarith

/-- C139 (refuted outside): a rotor of radius 103 loaded at the single station 100 leaves a swirl outside of its streamtube, 3% of the swirl inside; with the default
`nCyl=1` the station is at 0.995 of the radius and the swirl outside is 1/199 of the swirl inside (`C139_one_station_partial`). -/
theorem C139_outside_refuted (mini : (ℝ → Num) → ℝ) :
    let w := (WT.new 103 ⟨0,0,0⟩ ⟨0,0,1⟩ ⟨0,1,0⟩ ⟨0,0,10⟩ none false "VC").run mini
      ([.chi (some 0)] ++ [.loading { r := some [100], Gamma := some [.fin 100], Lambda := some (.fin 7), nCyl := none }])
    ∃ u v, (w.computeU [⟨200,0,0⟩] { longi := true, root := true }).1 = .ok u ∧ u[0]? = some (V3.fin v) ∧ swirlAbout ⟨0,0,1⟩ ⟨0,0,0⟩ ⟨200,0,0⟩ (v - ⟨0,0,10⟩) = 3/(800*π) := by
  intro w
  obtain ⟨f2, f5, f11, f12, f13, f14, f15⟩ := example_state mini 103 100
  obtain ⟨u, hu, H⟩ := C139_one_station_partial mini 103 ⟨0,0,0⟩ ⟨0,0,1⟩ ⟨0,1,0⟩ ⟨0,0,10⟩ none false "VC" ⟨by simp [V3.dot], by simp [V3.dot], by simp [V3.dot]⟩ (by norm_num)
    [.chi (some 0)] [⟨200,0,0⟩] (by simp) { longi := true, root := true } rfl rfl rfl 100 100 7 (by norm_num) (by norm_num) (by norm_num) (by norm_num) _ (Or.inl rfl)
    f15 f12 f14 0 (by rw [computeU_state]; change some (match WT.chi _ with | some c => c | none => _) = _; rw [f13])
    (by simp [Num.abs_fin, Num.zero_def, Num.lt_fin]; norm_num)
  rw [f2, f5, f11] at H
  have h3 : axisDist ⟨0,0,1⟩ ⟨0,0,0⟩ ⟨200,0,0⟩ = 200 := by
    unfold axisDist V3.norm V3.cross
    simp
  obtain ⟨v, v1, v2⟩ := H 0 ⟨200,0,0⟩ 200 rfl (by simp [V3.dot]) h3.symm (by norm_num) (by norm_num)
  refine ⟨u, v, hu, v1, ?_⟩
  simp only [Bool.false_eq_true, if_false] at v2
  rw [v2, if_neg (by norm_num)]
  have := pi_pos
  field_simp
  norm_num

/-- C139 (several stations): with two or more stations the circulations balance and outside of all of them the rotor plane does not swirl, exactly. -/
theorem C139_several_stations_partial (mini : (ℝ → Num) → ℝ) (R : ℝ) (hub shaft vert U0 : V3 ℝ) (L : Option Num) (gr : Bool)
    (M : String) (ho : Orthonormal shaft vert) (hR : 0 < R) (h : List Op) (pts : List (V3 ℝ)) (hp : pts ≠ []) (o : Opts) (hnw : o.no_wake = false)
    (hlo : o.longi = true) (hro : o.root = true)
    (n : ℕ) (r G : ℕ → ℝ) (lam : ℝ) (hl : 0 < lam) (hl20 : lam < 20) (hn : 2 ≤ n) (h0 : 0 < r 0) (hinc : ∀ i j, i < j → j < n → r i < r j) :
    let a : LoadArgs := { r := some ((List.range n).map r), Gamma := some ((List.range n).map fun i => .fin (G i)), Lambda := some (.fin lam), nCyl := none }
    let w := (WT.new R hub shaft vert U0 L gr M).run mini (h ++ [.loading a])
    let s := w.e_shaft_g
    0 < V3.norm w.U0_g → o.ground.getD w.Ground = false → o.Model.getD w.Model = "VC" →
    ∀ chi, (w.computeU pts o).2.chi = some chi → ¬ (Num.fin 1e-7 < Num.abs chi) →
    ∃ u, (w.computeU pts o).1 = .ok u ∧ ∀ (i : ℕ) (p : V3 ℝ), pts[i]? = some p → V3.dot (p - w.r_hub) s = 0 → r (n-1) < axisDist s w.r_hub p →
      ∃ v, u[i]? = some (V3.fin v) ∧ swirlAbout s w.r_hub p (v - if o.only_ind then 0 else w.U0_g) = 0 := by
  intro a w s hU hg hM chi hchi hsk
  obtain ⟨u, hu, H⟩ := C138_loading mini R hub shaft vert U0 L gr M ho hR h pts hp o hnw hlo hro n r G lam hl hl20 hn h0 hinc hU hg hM chi hchi hsk
  refine ⟨u, hu, fun i p hi hz hρ => ?_⟩
  have hlast : ∀ j < n, r j ≤ r (n-1) := by
    intro j hj
    rcases Nat.lt_or_ge j (n-1) with h | h
    · exact (hinc j (n-1) h (by omega)).le
    · rw [show j = n - 1 by omega]
  have hρ0 : 0 < axisDist s w.r_hub p := (h0.trans_le (hlast 0 (by omega))).trans hρ
  obtain ⟨v, v1, v2⟩ := H i p _ n hi hz rfl hρ0 le_rfl (fun j hj => (hlast j hj).trans_lt hρ) (fun j h1 h2 => by omega)
  refine ⟨v, v1, v2.trans ?_⟩
  simp

/-- the hypotheses of `C16_field_multi_all` are met by a turbine with two stations, root vortex and longitudinal vorticity -/
example (mini : (ℝ → Num) → ℝ) :
    let w := (WT.new 50 ⟨1,2,3⟩ ⟨0,0,1⟩ ⟨0,1,0⟩ ⟨0,0,10⟩ none false "VC").run mini
      [.chi (some 0), .loading { r := some ((List.range 2).map fun i : ℕ => 20 * ((i:ℝ) + 1)), Gamma := some ((List.range 2).map fun i : ℕ => Num.fin (60 + 40 * (i:ℝ))), Lambda := some (.fin 7), nCyl := none }]
    ∃ (gt : List ℝ) (g0 g1 : ℝ), gt.length = 2 ∧ w.gamma_t = some (gt.map .fin) ∧ w.gamma_l = some [.fin g0, .fin g1] ∧ g1 ≠ 0 ∧ w.Gamma_r = some (.fin (-60)) ∧ w.r = some [20, 40] := by
  intro w
  have hn : V3.norm (⟨0,0,10⟩ : V3 ℝ) = 10 := by unfold V3.norm; simp
  obtain ⟨gt, g1, -, g2⟩ := loading_gamma mini ((WT.new 50 ⟨1,2,3⟩ ⟨0,0,1⟩ ⟨0,1,0⟩ ⟨0,0,10⟩ none false "VC").run mini [.chi (some 0)]) (by change (0:ℝ) < 50; norm_num)
    (by change 0 < V3.norm (⟨0,0,10⟩ : V3 ℝ); rw [hn]; norm_num) 2 (fun i : ℕ => 20 * ((i:ℝ) + 1)) (fun i => 60 + 40 * (i:ℝ)) 7 (by norm_num) (by norm_num) two_pos (by norm_num)
    (fun i j hij _ => by have : (i:ℝ) < j := by exact_mod_cast hij
                         linarith) (by omega)
    { r := some ((List.range 2).map fun i : ℕ => 20 * ((i:ℝ) + 1)), Gamma := some ((List.range 2).map fun i : ℕ => Num.fin (60 + 40 * (i:ℝ))), Lambda := some (.fin 7), nCyl := none } rfl rfl rfl
  have hw : w = _ := g2
  rw [hw]
  refine ⟨gt, -40/(2*π*20), 100/(2*π*40), g1, rfl, ?_, ?_, ?_, ?_⟩
  · simp [farr, arr, List.range_succ]
    norm_num
  · have := pi_pos
    positivity
  · simp
  · simp [List.range_succ]
    norm_num

end
end Wiz
