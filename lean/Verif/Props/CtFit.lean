import Verif.Model.Blockage
import Verif.Props.Momentum

/-! # C95: fitted thrust functions -/
namespace Wiz
open Spec Real Classical

/-- C95: `gamma_CT_fun(CT,*p)` for real inputs is `-2 Σ_{i<4} p_i CT^(i+1)`; parameters after the fourth are ignored and
fewer than four raise. -/
theorem C95_fit (c : ℝ) (p : List ℝ) :
    (4 ≤ p.length → gammaCTfun (.fin c) p = .ok (.fin (-2 * ∑ i ∈ Finset.range 4, p.getD i 0 * c^(i+1)))) ∧
    (p.length < 4 → ∃ e, gammaCTfun (.fin c) p = .error e) := by
  have key : ∀ p0 p1 p2 p3 : ℝ, ∀ q, gammaCTfun (.fin c) (p0 :: p1 :: p2 :: p3 :: q) =
      .ok (-2 * (.fin p0 * .fin c + .fin p1 * (.fin c)^2 + .fin p2 * (.fin c)^3 + .fin p3 * (.fin c)^4)) := fun _ _ _ _ _ => rfl
  constructor
  · intro h
    match p, h with
    | p0 :: p1 :: p2 :: p3 :: q, _ =>
      rw [key]
      simp only [Num.ofNat_def, Num.fin_neg, Num.fin_mul, Num.fin_add, Num.fin_pow, Finset.sum_range_succ, Finset.sum_range_zero]
      congr 2
      simp
  · intro h
    match p, h with
    | [], _ => exact ⟨_, rfl⟩
    | [_], _ => exact ⟨_, rfl⟩
    | [_, _], _ => exact ⟨_, rfl⟩
    | [_, _, _], _ => exact ⟨_, rfl⟩
    | _ :: _ :: _ :: _ :: _, h => simp at h; omega

theorem fit_arr (cs : List ℝ) (p : List ℝ) (hp : 4 ≤ p.length) :
    gammaCTfunArr (cs.map .fin) p = .ok (cs.map fun c => .fin (-2 * ∑ i ∈ Finset.range 4, p.getD i 0 * c^(i+1))) := by
  unfold gammaCTfunArr
  rw [if_neg (by omega)]
  induction cs with
  | nil => rfl
  | cons c cs ih =>
    rw [List.map_cons, List.mapM_cons, (C95_fit c p).1 hp, ih]
    rfl

/-- C95 on arrays of thrust coefficients: entry by entry, and fewer than four parameters raise whatever the array (an
empty one included). -/
theorem C95_array (p : List ℝ) :
    (4 ≤ p.length → ∀ cs : List ℝ, gammaCTfunArr (cs.map .fin) p
      = .ok (cs.map fun c => .fin (-2 * ∑ i ∈ Finset.range 4, p.getD i 0 * c^(i+1)))) ∧
    (p.length < 4 → ∀ x : List Num, ∃ e, gammaCTfunArr x p = .error e) := by
  refine ⟨fun h cs => fit_arr cs p h, fun h x => ⟨"IndexError", ?_⟩⟩
  unfold gammaCTfunArr
  rw [if_pos h]

example : (∃ e, gammaCTfunArr [] [1, 2, 3] = .error e) ∧
    gammaCTfunArr ([1].map .fin) [1, 2, 3, 4] = .ok [.fin (-20)] := by
  refine ⟨(C95_array [1, 2, 3]).2 (by simp) _, ?_⟩
  rw [(C95_array [1, 2, 3, 4]).1 (by simp)]
  simp [Finset.sum_range_succ]; norm_num

/-- C95: a turbine loaded with a thrust coefficient (one number or a distribution, of mean `C`) through a fitted
function of four or more parameters: at every point of the rotor disk the induced axial velocity is
`-(p_0 C + p_1 C² + p_2 C³ + p_3 C⁴)`, for every history of calls before the loading and whatever the wind speed: zero
thrust induces nothing there, and the velocity is linear in the parameters. -/
theorem C95_disk (mini : (ℝ → Num) → ℝ) (R : ℝ) (hub shaft vert U0 : V3 ℝ) (L : Option Num) (G : Bool)
    (M : String) (ho : Orthonormal shaft vert) (hR : 0 < R) (h : List Op)
    (Cts : List ℝ) (hC : Cts ≠ []) (C : ℝ) (hC' : C = Cts.sum / Cts.length) (Lam : Num)
    (p : List ℝ) (hp4 : 4 ≤ p.length) (φ : List Num → List Num) (hφ : ∀ x, gammaCTfunArr x p = .ok (φ x))
    (pts : List (V3 ℝ)) (o : Opts) (chi : Num) :
    let w0 := (WT.new R hub shaft vert U0 L G M).run mini h
    let w := w0.step mini (.loading { Ct := some (Cts.map .fin), Lambda := some Lam, gamma_t_Ct := some φ })
    PlainEval w o → o.only_ind = true → (w.computeU pts o).2.chi = some chi → ¬ (Num.fin 1e-7 < Num.abs chi) →
    ∃ u, (w.computeU pts o).1 = .ok u ∧ ∀ (i : ℕ) (x : V3 ℝ), pts[i]? = some x → V3.dot (x - w.r_hub) w.e_shaft_g = 0 →
      V3.norm (x - w.r_hub) ≤ (1 - 1e-8) * R →
      ∃ v : V3 ℝ, u[i]? = some (V3.fin v) ∧
        V3.dot v w.e_shaft_g = -(p.getD 0 0 * C + p.getD 1 0 * C^2 + p.getD 2 0 * C^3 + p.getD 3 0 * C^4) := by
  intro w0 w hp hoi hchi hsk
  have hv : w0.updateLoading mini { Ct := some (Cts.map .fin), Lambda := some Lam, gamma_t_Ct := some φ } = (.ok (), { w0 with gamma_t := some (φ [npMean (Cts.map .fin)]), gamma_l := none, Gamma_r := none, Lambda := some Lam, r := some [0.995 * w0.R], Ct := some [npMean (Cts.map .fin)] }) := rfl
  have hg : w.gamma_t = some (φ [npMean (Cts.map .fin)]) := by
    show (w0.updateLoading mini _).2.gamma_t = _
    rw [hv]
  rw [npMean_fin Cts hC, ← hC'] at hg
  have hf : φ [.fin C] = [.fin (-2 * ∑ i ∈ Finset.range 4, p.getD i 0 * C^(i+1))] := by
    have h1 := hφ [.fin C]
    have h2 := fit_arr [C] p hp4
    simp only [List.map_cons, List.map_nil] at h2
    rw [h2] at h1
    exact (Except.ok.inj h1).symm
  rw [hf] at hg
  have hrun : w = (WT.new R hub shaft vert U0 L G M).run mini (h ++ [.loading { Ct := some (Cts.map .fin), Lambda := some Lam, gamma_t_Ct := some φ }]) := by
    show _ = _
    unfold WT.run
    rw [List.foldl_append]
    rfl
  clear_value w
  subst hrun
  obtain ⟨u, hu, hall⟩ := C81_rotor_plane mini R hub shaft vert U0 L G M ho hR _ pts o _ chi hp hoi hg hchi hsk
  refine ⟨u, hu, fun i x hx hpl hin => ?_⟩
  obtain ⟨v, hv1, hv2, -⟩ := hall i x hx hpl
  refine ⟨v, hv1, ?_⟩
  rw [hv2 hin]
  simp only [Finset.sum_range_succ, Finset.sum_range_zero]
  ring

/-- C95: the fit is documented as `gamma_t/U0`, but the loading stores it as the strength itself, so the induced
velocity is not proportional to the wind speed: with `p=(1/4,0,0,0)` and `CT=1` the axial velocity induced at the centre
of a rotor in a wind of speed `U` is `-1/4` for every `U`, not `-U/4`. -/
theorem C95_wind_speed_refuted (mini : (ℝ → Num) → ℝ) (U : ℝ) (hU : 0 < U) (hU1 : U ≠ 1) (φ : List Num → List Num)
    (hφ : ∀ x, gammaCTfunArr x [1/4, 0, 0, 0] = .ok (φ x)) :
    let w := (WT.new 50 ⟨1,2,3⟩ ⟨0,0,1⟩ ⟨0,1,0⟩ ⟨0,0,U⟩ none false "VC").run mini
      [.chi (some 0), .loading { Ct := some [.fin 1], Lambda := some .pinf, gamma_t_Ct := some φ }]
    ∃ (u : List (V3 Num)) (v : V3 ℝ), (w.computeU [w.r_hub] { only_ind := true }).1 = .ok u ∧ u[0]? = some (V3.fin v) ∧
      V3.dot v w.e_shaft_g = -(1/4) ∧ V3.dot v w.e_shaft_g ≠ U * -(1/4) := by
  intro w
  obtain ⟨b1, b2, b3, b4, b5, b6, b7, b8, b9, b10, b11, b12, b13, b14⟩ := loading_frame mini
    ((WT.new 50 ⟨1,2,3⟩ ⟨0,0,1⟩ ⟨0,1,0⟩ ⟨0,0,U⟩ none false "VC").run mini [.chi (some 0)]) { Ct := some ([(1:ℝ)].map .fin), Lambda := some .pinf, gamma_t_Ct := some φ }
  obtain ⟨u, hu, hall⟩ := C95_disk mini 50 ⟨1,2,3⟩ ⟨0,0,1⟩ ⟨0,1,0⟩ ⟨0,0,U⟩ none false "VC" default_orthonormal (by norm_num)
    [.chi (some 0)] [1] (by simp) 1 (by norm_num) .pinf [1/4, 0, 0, 0] (by simp) φ hφ [w.r_hub] { only_ind := true } 0
    ⟨rfl, rfl, rfl, rfl, b14.trans rfl, b12.trans rfl⟩ rfl (by
      rw [computeU_state]
      have : w.chi = some 0 := b13.trans rfl
      change some (usedChi w) = _
      unfold usedChi
      rw [this]) (by
      rw [show (0 : Num) = Num.fin 0 from rfl, Num.abs_fin, Num.lt_fin]; norm_num)
  obtain ⟨v, hv, hd⟩ := hall 0 w.r_hub rfl (by
      change V3.dot (w.r_hub - w.r_hub) _ = 0
      simp [V3.dot]) (by
      change V3.norm (w.r_hub - w.r_hub) ≤ _
      have : V3.norm (w.r_hub - w.r_hub) = 0 := by unfold V3.norm; simp
      rw [this]; norm_num)
  refine ⟨u, v, hu, hv, ?_, ?_⟩
  · change V3.dot v w.e_shaft_g = _ at hd
    rw [hd]; simp
  · change V3.dot v w.e_shaft_g = _ at hd
    rw [hd]
    intro h
    simp at h
    apply hU1
    linarith

/-- with four parameters the fitted function exists on every array -/
theorem fit_exists (p : List ℝ) (hp : 4 ≤ p.length) : ∃ φ : List Num → List Num, ∀ x, gammaCTfunArr x p = .ok (φ x) := by
  have key : ∀ x : List Num, ∃ y, gammaCTfunArr x p = .ok y := by
    intro x
    unfold gammaCTfunArr
    rw [if_neg (by omega)]
    match p, hp with
    | p0 :: p1 :: p2 :: p3 :: q, _ =>
      induction x with
      | nil => exact ⟨_, rfl⟩
      | cons c cs ih =>
        obtain ⟨y, hy⟩ := ih
        rw [List.mapM_cons, hy]
        exact ⟨_, rfl⟩
  exact ⟨fun x => (key x).choose, fun x => (key x).choose_spec⟩

/-- the refutation at 10 m/s -/
example (mini : (ℝ → Num) → ℝ) : ∃ φ : List Num → List Num,
    let w := (WT.new 50 ⟨1,2,3⟩ ⟨0,0,1⟩ ⟨0,1,0⟩ ⟨0,0,10⟩ none false "VC").run mini
      [.chi (some 0), .loading { Ct := some [.fin 1], Lambda := some .pinf, gamma_t_Ct := some φ }]
    ∃ (u : List (V3 Num)) (v : V3 ℝ), (w.computeU [w.r_hub] { only_ind := true }).1 = .ok u ∧ u[0]? = some (V3.fin v) ∧
      V3.dot v w.e_shaft_g = -(1/4) := by
  obtain ⟨φ, hφ⟩ := fit_exists [1/4, 0, 0, 0] (by simp)
  obtain ⟨u, v, h1, h2, h3, -⟩ := C95_wind_speed_refuted mini 10 (by norm_num) (by norm_num) φ hφ
  exact ⟨φ, u, v, h1, h2, h3⟩
end Wiz
