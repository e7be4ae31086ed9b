import Verif.Props.AxialStations
/-! # C144: the axial flow of a turbine with several stations without wake rotation -/
set_option autoImplicit false
namespace Wiz
open Spec Classical Real
noncomputable section

/-- what `update_loading` stores, given the vorticity of the solver -/
theorem loading_vort (mini : (ℝ → Num) → ℝ) (w : WT) (n : ℕ) (r : ℕ → ℝ) (Λ X : Num)
    (a : LoadArgs) (C G0 : Option (List Num)) (v : WakeVort) (hre : reinterp w.R a = .ok (some ((List.range n).map r), C, G0))
    (hla : a.Lambda = some Λ) (hf : a.gamma_t_Ct = none) (hX : Λ * .fin (V3.norm w.U0_g) / .fin w.R = X)
    (hv : (C = none ∧ ∃ g, G0 = some g ∧ wakeVorticityFromGamma (farr n r) g (.fin w.R) (.fin (V3.norm w.U0_g)) X = .ok v) ∨
      ∃ c, C = some c ∧ wakeVorticityFromCt mini (farr n r) c (.fin w.R) (.fin (V3.norm w.U0_g)) X = .ok v) :
    (w.updateLoading mini a).2.gamma_t = some v.gamma_t ∧ (w.updateLoading mini a).2.gamma_l = v.gamma_l ∧
      (w.updateLoading mini a).2.r = some ((List.range n).map r) := by
  have e4 : loadingSolve mini w.R (.fin (V3.norm w.U0_g)) (Λ * .fin (V3.norm w.U0_g) / .fin w.R) (some ((List.range n).map r))
      C G0 none = .ok (v.gamma_t, v.gamma_l, v.Gamma_r) := by
    rw [hX]
    unfold loadingSolve
    rcases hv with ⟨rfl, g, rfl, hv⟩ | ⟨c, rfl, hv⟩
    · simp only
      rw [farr_map, hv]
    · simp only
      rw [farr_map, hv]
  unfold WT.updateLoading
  simp only [hre, hla, hf, e4, and_self]

/-- axial flow of a turbine whose solver returned the jumps of the inductions `A` -/
theorem axial_stored (mini : (ℝ → Num) → ℝ) (R : ℝ) (hub shaft vert U0 : V3 ℝ) (L : Option Num) (gr : Bool)
    (M : String) (ho : Orthonormal shaft vert) (h hist : List Op) (pts : List (V3 ℝ)) (hp : pts ≠ []) (o : Opts) (hnw : o.no_wake = false)
    (hlo : o.longi = false) (hro : o.root = false) (hta : o.tang = true)
    (n : ℕ) (r A : ℕ → ℝ) (Λ X : Num) (hn : 2 ≤ n) (h0 : 0 < r 0) (hinc : ∀ i j, i < j → j < n → r i < r j)
    (a : LoadArgs) (C G0 : Option (List Num)) (hre : reinterp R a = .ok (some ((List.range n).map r), C, G0))
    (hla : a.Lambda = some Λ) (hf : a.gamma_t_Ct = none) (hh : hist = h ++ [.loading a]) (v : WakeVort) (V : ℝ)
    (v2 : v.gamma_t = farr n (fun i => -2 * V * (A i - (if i = n - 1 then 0 else A (i+1))))) (v3 : v.gamma_l = none ∨ ∃ l : List Num, v.gamma_l = some l ∧ l.length = n) :
    let w := (WT.new R hub shaft vert U0 L gr M).run mini hist
    let s := w.e_shaft_g
    V = V3.norm w.U0_g → Λ * .fin V / .fin R = X →
    ((C = none ∧ ∃ g, G0 = some g ∧ wakeVorticityFromGamma (farr n r) g (.fin R) (.fin V) X = .ok v) ∨ ∃ c, C = some c ∧ wakeVorticityFromCt mini (farr n r) c (.fin R) (.fin V) X = .ok v) →
    o.ground.getD w.Ground = false → o.Model.getD w.Model = "VC" →
    ∀ chi, (w.computeU pts o).2.chi = some chi → ¬ (Num.fin 1e-7 < Num.abs chi) →
    ∃ u, (w.computeU pts o).1 = .ok u ∧ ∀ (i : ℕ) (p : V3 ℝ), pts[i]? = some p → ∃ v, u[i]? = some (V3.fin v) ∧
      (∀ k ≤ n, V3.dot (p - w.r_hub) s = 0 → (∀ j < n, 1e-8 * r j ≤ |axisDist s w.r_hub p - r j|) → (∀ j < k, r j < axisDist s w.r_hub p) → (∀ j < n, k ≤ j → axisDist s w.r_hub p < r j) →
        V3.dot (v - if o.only_ind then 0 else w.U0_g) s = -(if k < n then V * A k else 0)) ∧
      (∀ z, p = w.r_hub + V3.smul z s →
        v - (if o.only_ind then 0 else w.U0_g) = V3.smul (-V * ∑ j ∈ Finset.range n, (A j - (if j = n - 1 then 0 else A (j+1))) * (1 + z/√(z^2 + r j^2))) s) := by
  intro w s hV hX hgc hg hM chi hchi hsk
  obtain ⟨w0, hw0⟩ : ∃ w0, w0 = (WT.new R hub shaft vert U0 L gr M).run mini h := ⟨_, rfl⟩
  have hw : w = (w0.updateLoading mini a).2 := by
    simp only [w]; rw [hh, run_append, ← hw0]; rfl
  have hfr := frame_run mini shaft vert R h _ (frame_new R hub shaft vert U0 L gr M)
  rw [← hw0] at hfr
  have hU0 : w.U0_g = w0.U0_g := by
    rw [hw]
    unfold WT.updateLoading
    simp only
    repeat' split
    all_goals rfl
  have hRw : w0.R = R := hfr.R
  have hVw : V3.norm w0.U0_g = V := by rw [← hU0, ← hV]
  obtain ⟨g1, g2, g3⟩ := loading_vort mini w0 n r Λ X a C G0 v (by rw [hRw]; exact hre) hla hf (by rw [hRw, hVw]; exact hX) (by
    rw [hRw, hVw]; exact hgc)
  rw [← hw] at g1 g2 g3
  have hpos : ∀ i < n, 0 < r i := by
    intro i hi
    rcases Nat.eq_zero_or_pos i with rfl | h
    · exact h0
    · exact h0.trans (hinc 0 i h hi)
  rw [v2, ← farr_map] at g1
  obtain ⟨u, hu, H⟩ := axial_multi mini R hub shaft vert U0 L gr M ho hist pts hp o hnw hlo hro hta w rfl _ _ chi g1 (by
    rw [g2]
    rcases v3 with h | ⟨l, h, v4⟩
    · exact Or.inl h
    · exact Or.inr ⟨l, h, by simpa using v4⟩) g3
    (by simp) (by simp; omega) (by
      intro x hx
      obtain ⟨j, hj, rfl⟩ := List.mem_map.mp hx
      exact hpos j (List.mem_range.mp hj)) hg hM hchi hsk
  refine ⟨u, hu, fun i p hpi => ?_⟩
  obtain ⟨x, x1, x2, x3⟩ := H i p hpi
  refine ⟨x, x1, ?_, ?_⟩
  · intro k hk hpl hb hk1 hk2
    rw [x2 hpl (by
      intro x hx
      obtain ⟨j, hj, rfl⟩ := List.mem_map.mp hx
      exact hb j (List.mem_range.mp hj))]
    exact outside_sum n k r A V _ hk hk1 hk2
  · intro z hz
    rw [x3 z hz, zip_range, List.map_map, sum_range_list, Finset.mul_sum]
    congr 1
    apply Finset.sum_congr rfl
    intro j _
    simp only [Function.comp_apply]
    ring

/-- the thrust coefficient the solver works with when there is no swirl -/
def ctNoSwirl (n : ℕ) (r c : ℕ → ℝ) (R V Ω : ℝ) (k : ℕ) : ℝ :=
  c k + V^2/(16*π*Ω^3) * ∑ j ∈ Finset.Ico k n, (c j^2 - (if j = n - 1 then 0 else c (j+1)^2)) / (rcyl n r R j)^2

/-- `WakeVorticityFromGamma` without swirl -/
theorem fromGamma_noswirl (n : ℕ) (r c : ℕ → ℝ) (R U0 Ω : ℝ) (X : Num) (hX : X = .fin Ω ∨ X = .pinf ∧ Ω = 800) (hn : 0 < n) (h0 : 0 < r 0) (hinc : ∀ i j, i < j → j < n → r i < r j)
    (hnR : n = 1 → r 0 ≤ R) (hU : 0 < U0) (hΩ : 0 < Ω) (hL : 20 ≤ Ω*R/U0) (hlow : ∀ i < n, c i ≤ Ctc) (hrad : ∀ i < n, ctNoSwirl n r c R U0 Ω i ≤ 1) :
    ∃ v : WakeVort, wakeVorticityFromGamma (farr n r) (farr n fun i => c i * π * U0^2 / Ω) (.fin R) (.fin U0) X = .ok v ∧
      v.gamma_t = farr n (fun i => -2 * U0 * ((1 - √(1 - ctNoSwirl n r c R U0 Ω i))/2 - (if i = n - 1 then 0 else (1 - √(1 - ctNoSwirl n r c R U0 Ω (i+1)))/2))) ∧ v.gamma_l = none := by
  obtain ⟨h1, h2, h3⟩ := rcyl_ok n r R hn h0 hinc hnR
  have hkO : ∀ i, kOf (1 * (c i * π * U0^2 / Ω)) U0 Ω = c i := by
    intro i
    unfold kOf
    have := pi_pos
    field_simp
  have hq : ∀ i < n, (if i = n - 1 then (1:ℝ) else √(1 - ctNoSwirl n r c R U0 Ω (i+1)))^2 - (c i - (if i = n - 1 then 0 else c (i+1))) * (1 + apOpt true n (fun i => 1 * (c i * π * U0^2 / Ω)) (rcyl n r R) Ω i) =
      1 - ctNoSwirl n r c R U0 Ω i := by
    intro i hi
    have hs : ctNoSwirl n r c R U0 Ω i = c i + U0^2/(16*π*Ω^3) * ((c i^2 - (if i = n - 1 then 0 else c (i+1)^2)) / (rcyl n r R i)^2 +
        ∑ j ∈ Finset.Ico (i+1) n, (c j^2 - (if j = n - 1 then 0 else c (j+1)^2)) / (rcyl n r R j)^2) := by
      unfold ctNoSwirl
      rw [Finset.sum_eq_sum_Ico_succ_bot hi]
    have hap : apOpt true n (fun i => 1 * (c i * π * U0^2 / Ω)) (rcyl n r R) Ω i = U0^2/(16*π*Ω^3) * ((c i + if i = n - 1 then 0 else c (i+1)) / (rcyl n r R i)^2) := by
      change (1 * (c i * π * U0^2 / Ω) + if i = n - 1 then 0 else 1 * (c (i+1) * π * U0^2 / Ω)) / (4 * π * Ω * rcyl n r R i)^2 = _
      have := h2 i hi
      have := pi_pos
      split_ifs <;> field_simp <;> ring
    rw [hap, hs]
    by_cases hl : i = n - 1
    · rw [if_pos hl, if_pos hl, if_pos hl, Finset.Ico_eq_empty (by omega)]
      simp
      ring
    · rw [if_neg hl, if_neg hl, if_neg hl, sq_sqrt (sub_nonneg.mpr (hrad (i+1) (by omega)))]
      unfold ctNoSwirl
      ring
  obtain ⟨h, e, -⟩ := discr_eval_noswirl n r (fun i => c i * π * U0^2 / Ω) (rcyl n r R) (fun i => if i < n then √(1 - ctNoSwirl n r c R U0 Ω i) else 1) (.fin R) U0 Ω 1 true true hn hU.ne' hΩ.ne'
    (fun i hi => (h2 i hi).ne') h3 (if_neg (lt_irrefl n)) (by
      intro i hi
      rw [hkO, hkO]
      refine ⟨fun h => absurd h.2 (not_lt.mpr (hlow i hi)), fun _ => ?_⟩
      have e1 : (if i + 1 < n then √(1 - ctNoSwirl n r c R U0 Ω (i+1)) else (1:ℝ)) = if i = n - 1 then 1 else √(1 - ctNoSwirl n r c R U0 Ω (i+1)) := by
        by_cases hl : i = n - 1
        · rw [if_pos hl, if_neg (by omega)]
        · rw [if_neg hl, if_pos (by omega)]
      rw [e1, hq i hi, if_pos hi]
      exact ⟨sub_nonneg.mpr (hrad i hi), rfl⟩)
  have e := (discr_default n r _ R _ _ _ false true true hn).trans e
  unfold wakeVorticityFromGamma
  have c1 : capOmega X = .fin Ω := by
    unfold capOmega
    rcases hX with rfl | ⟨rfl, rfl⟩
    · rw [if_neg (by intro h; exact h)]
    · rw [if_pos (by simp)]; rfl
  have c2 : decide ((Num.fin Ω * Num.fin R / Num.fin U0 : Num) < 20) = false := by
    rw [decide_eq_false_iff_not, Num.fin_mul, Num.fin_div hU.ne', Num.ofNat_def, Num.lt_fin]
    push_cast
    linarith
  simp only [c1, c2]
  refine ⟨_, e, ?_, rfl⟩
  refine arr_congr n _ _ fun i hi => congrArg Num.fin ?_
  beta_reduce
  rw [if_pos hi]
  by_cases hl : i = n - 1
  · rw [if_neg (by omega), if_pos hl]; ring
  · rw [if_pos (by omega), if_neg hl]; ring

/-- an infinite tip-speed ratio is an infinite rotational speed -/
theorem pinf_scale (V R : ℝ) (hV : 0 < V) (hR : 0 < R) : Num.pinf * Num.fin V / Num.fin R = Num.pinf := by
  have e : Num.pinf * Num.fin V = Num.pinf := by
    change Num.infSign V = _
    unfold Num.infSign
    rw [if_pos hV]
  rw [e]
  change (if R < 0 then Num.ninf else Num.pinf) = _
  rw [if_neg (not_lt.mpr hR.le)]

/-- without swirl the thrust route is the circulation route -/
theorem fromCt_noswirl (mini : (ℝ → Num) → ℝ) (n : ℕ) (r c : ℕ → ℝ) (R U0 Ω : ℝ) (X : Num) (hX : X = .fin Ω ∨ X = .pinf ∧ Ω = 800) (hU : 0 < U0) (hΩ : 0 < Ω) (hL : 20 ≤ Ω*R/U0) :
    wakeVorticityFromCt mini (farr n r) (farr n c) (.fin R) (.fin U0) X = wakeVorticityFromGamma (farr n r) (farr n fun i => c i * π * U0^2 / Ω) (.fin R) (.fin U0) X := by
  unfold wakeVorticityFromCt wakeVorticityFromGamma
  have c1 : capOmega X = .fin Ω := by
    unfold capOmega
    rcases hX with rfl | ⟨rfl, rfl⟩
    · rw [if_neg (by intro h; exact h)]
    · rw [if_pos (by simp)]; rfl
  have c2 : decide ((Num.fin Ω * Num.fin R / Num.fin U0 : Num) < 20) = false := by
    rw [decide_eq_false_iff_not, Num.fin_mul, Num.fin_div hU.ne', Num.ofNat_def, Num.lt_fin]
    push_cast
    linarith
  simp only [c1, c2]
  congr 1
  unfold circulationFromPrescribedCt farr arr
  simp only [Bool.false_eq_true, if_false]
  rw [List.map_map]
  apply List.map_congr_left
  intro i _
  simp only [Function.comp_apply, Num.fin_mul, Num.fin_pow, Num.fin_div hΩ.ne']

/-- bounds of the thrust coefficient the solver works with -/
theorem ctNoSwirl_bounds (n : ℕ) (r c : ℕ → ℝ) (R V Ω C : ℝ) (hΩ : 0 < Ω) (hn : 2 ≤ n) (h0 : 0 < r 0) (hinc : ∀ i j, i < j → j < n → r i < r j)
    (hc : ∀ i < n, 0 ≤ c i ∧ c i ≤ C) (k : ℕ) (hk : k < n) :
    -(V^2 * C^2/(16*π*Ω^3*(rcyl n r R k)^2)) ≤ ctNoSwirl n r c R V Ω k - c k ∧ ctNoSwirl n r c R V Ω k - c k ≤ V^2 * (c k)^2/(16*π*Ω^3*(rcyl n r R k)^2) := by
  have hpos : ∀ i < n, 0 < r i := by
    intro i hi
    rcases Nat.eq_zero_or_pos i with rfl | h
    · exact h0
    · exact h0.trans (hinc 0 i h hi)
  obtain ⟨o1, o2⟩ := rcyl_outside n r R hn hinc
  have hp : ∀ i < n, 0 < rcyl n r R i := fun i hi => (hpos i hi).trans (o1 i hi)
  have key : ∀ m k, k + m + 1 = n → -(C^2/(rcyl n r R k)^2) ≤ ∑ j ∈ Finset.Ico k n, (c j^2 - (if j = n - 1 then 0 else c (j+1)^2)) / (rcyl n r R j)^2 - c k^2/(rcyl n r R k)^2 ∧
      ∑ j ∈ Finset.Ico k n, (c j^2 - (if j = n - 1 then 0 else c (j+1)^2)) / (rcyl n r R j)^2 ≤ c k^2/(rcyl n r R k)^2 := by
    intro m
    induction m with
    | zero =>
      intro k hk
      rw [Finset.sum_eq_sum_Ico_succ_bot (by omega), if_pos (by omega), Finset.Ico_eq_empty (by omega)]
      simp
      positivity
    | succ m ih =>
      intro k hk
      obtain ⟨i1, i2⟩ := ih (k+1) (by omega)
      rw [Finset.sum_eq_sum_Ico_succ_bot (by omega), if_neg (by omega)]
      generalize ∑ j ∈ Finset.Ico (k+1) n, (c j^2 - (if j = n - 1 then 0 else c (j+1)^2)) / (rcyl n r R j)^2 = S at *
      have hk0 := hp k (by omega)
      have hk1 := o2 k (by omega)
      have hinv : 1/(rcyl n r R (k+1))^2 ≤ 1/(rcyl n r R k)^2 := by
        apply one_div_le_one_div_of_le (by positivity)
        exact pow_le_pow_left₀ hk0.le hk1.le 2
      obtain ⟨c1, c2⟩ := hc (k+1) (by omega)
      have c3 : c (k+1)^2 ≤ C^2 := pow_le_pow_left₀ c1 c2 2
      rw [sub_div, div_eq_mul_one_div (c (k+1)^2), div_eq_mul_one_div (C^2), div_eq_mul_one_div (c k^2)]
      rw [div_eq_mul_one_div (C^2), div_eq_mul_one_div (c (k+1)^2)] at i1
      rw [div_eq_mul_one_div (c (k+1)^2)] at i2
      generalize 1/(rcyl n r R k)^2 = x at *
      generalize 1/(rcyl n r R (k+1))^2 = y at *
      have t1 := mul_nonneg (sq_nonneg (c (k+1))) (sub_nonneg.mpr hinv)
      have t2 := mul_nonneg (sub_nonneg.mpr c3) (sub_nonneg.mpr hinv)
      constructor <;> linarith
  obtain ⟨k1, k2⟩ := key (n-1-k) k (by omega)
  unfold ctNoSwirl
  rw [add_sub_cancel_left]
  have hkap : 0 ≤ V^2/(16*π*Ω^3) := by have := pi_pos; positivity
  have e : ∀ x, V^2 * x/(16*π*Ω^3*(rcyl n r R k)^2) = V^2/(16*π*Ω^3) * (x/(rcyl n r R k)^2) := by
    intro x
    have := pi_pos
    have := hp k hk
    field_simp
  rw [e, e, ← mul_neg]
  constructor
  · apply mul_le_mul_of_nonneg_left _ hkap
    have : 0 ≤ c k^2/(rcyl n r R k)^2 := by positivity
    linarith
  · exact mul_le_mul_of_nonneg_left k2 hkap

/-- C144, whatever way the loading reaches the solver -/
theorem noswirl_axial (mini : (ℝ → Num) → ℝ) (R : ℝ) (hub shaft vert U0 : V3 ℝ) (L : Option Num) (gr : Bool)
    (M : String) (ho : Orthonormal shaft vert) (hR : 0 < R) (h : List Op) (pts : List (V3 ℝ)) (hp : pts ≠ []) (o : Opts) (hnw : o.no_wake = false)
    (hlo : o.longi = false) (hro : o.root = false) (hta : o.tang = true)
    (n : ℕ) (r c E A : ℕ → ℝ) (Λ : Num) (Ω V : ℝ) (hn : 2 ≤ n) (h0 : 0 < r 0) (hinc : ∀ i j, i < j → j < n → r i < r j) (hist : List Op) (a : LoadArgs)
    (C G0 : Option (List Num)) (hre : reinterp R a = .ok (some ((List.range n).map r), C, G0)) (hla : a.Lambda = some Λ) (hf : a.gamma_t_Ct = none) (hh : hist = h ++ [.loading a])
    (hCG : C = some (farr n c) ∨ C = none ∧ G0 = some (farr n fun i => c i * π * V^2 / Ω)) :
    let w := (WT.new R hub shaft vert U0 L gr M).run mini hist
    let s := w.e_shaft_g
    V = V3.norm w.U0_g → 0 < V → ((∃ lam, Λ = .fin lam ∧ Ω = lam * V / R) ∨ Λ = .pinf ∧ Ω = 800) → 20 ≤ Ω * R / V →
    (∀ i < n, c i ≤ Ctc) →
    (∀ k < n, E k = c k + V^2/(16*π*Ω^3) * ∑ j ∈ Finset.Ico k n, (c j^2 - (if j = n - 1 then 0 else c (j+1)^2)) / (rcyl n r R j)^2) →
    (∀ k < n, E k ≤ 1) → (∀ k < n, 4 * A k * (1 - A k) = E k ∧ A k ≤ 1/2) →
    o.ground.getD w.Ground = false → o.Model.getD w.Model = "VC" →
    ∀ chi, (w.computeU pts o).2.chi = some chi → ¬ (Num.fin 1e-7 < Num.abs chi) →
    ∃ u, (w.computeU pts o).1 = .ok u ∧ ∀ (i : ℕ) (p : V3 ℝ), pts[i]? = some p → ∃ v, u[i]? = some (V3.fin v) ∧
      (∀ k ≤ n, V3.dot (p - w.r_hub) s = 0 → (∀ j < n, 1e-8 * r j ≤ |axisDist s w.r_hub p - r j|) → (∀ j < k, r j < axisDist s w.r_hub p) → (∀ j < n, k ≤ j → axisDist s w.r_hub p < r j) →
        V3.dot (v - if o.only_ind then 0 else w.U0_g) s = -(if k < n then V * A k else 0)) ∧
      (∀ z, p = w.r_hub + V3.smul z s →
        v - (if o.only_ind then 0 else w.U0_g) = V3.smul (-V * ∑ j ∈ Finset.range n, (A j - (if j = n - 1 then 0 else A (j+1))) * (1 + z/√(z^2 + r j^2))) s) := by
  intro w s hV hV0 hΛ hL hlow hE hrad hA hg hM chi hchi hsk
  have hΩ : 0 < Ω := by
    rcases hΛ with ⟨lam, -, rfl⟩ | ⟨-, rfl⟩
    · rw [div_mul_cancel₀ _ hR.ne', mul_div_assoc, div_self hV0.ne', mul_one] at hL
      have : 0 < lam := by linarith
      positivity
    · norm_num
  obtain ⟨X, hX, hXΩ⟩ : ∃ X, Λ * .fin V / .fin R = X ∧ (X = .fin Ω ∨ X = .pinf ∧ Ω = 800) := by
    rcases hΛ with ⟨lam, rfl, rfl⟩ | ⟨rfl, rfl⟩
    · exact ⟨_, rfl, Or.inl (by rw [Num.fin_mul, Num.fin_div hR.ne'])⟩
    · exact ⟨_, rfl, Or.inr ⟨pinf_scale V R hV0 hR, rfl⟩⟩
  have hEn : ∀ k < n, ctNoSwirl n r c R V Ω k = E k := fun k hk => (hE k hk).symm
  have hAk : ∀ k < n, (1 - √(1 - ctNoSwirl n r c R V Ω k))/2 = A k := by
    intro k hk
    obtain ⟨a1, a2⟩ := hA k hk
    rw [hEn k hk, ← a1, show 1 - 4 * A k * (1 - A k) = (1 - 2 * A k)^2 by ring, sqrt_sq (by linarith)]
    ring
  obtain ⟨v, v1, v2, v3⟩ := fromGamma_noswirl n r c R V Ω X hXΩ (by omega) h0 hinc (by omega) hV0 hΩ hL hlow (fun i hi => by rw [hEn i hi]; exact hrad i hi)
  have v2' : v.gamma_t = farr n (fun i => -2 * V * (A i - (if i = n - 1 then 0 else A (i+1)))) := by
    rw [v2]
    refine arr_congr n _ _ fun i hi => congrArg Num.fin ?_
    beta_reduce
    rw [hAk i hi]
    by_cases hl : i = n - 1
    · rw [if_pos hl, if_pos hl]
    · rw [if_neg hl, if_neg hl, hAk (i+1) (by omega)]
  refine axial_stored mini R hub shaft vert U0 L gr M ho h _ pts hp o hnw hlo hro hta n r A Λ X hn h0 hinc a C G0 hre hla hf hh v V v2' (Or.inl v3) hV hX ?_ hg hM chi hchi hsk
  rcases hCG with rfl | ⟨rfl, rfl⟩
  · exact Or.inr ⟨_, rfl, (fromCt_noswirl mini n r c R V Ω X hXΩ hV0 hΩ hL).trans v1⟩
  · exact Or.inl ⟨rfl, _, rfl, v1⟩

/-- C144: a turbine loaded with the thrust coefficients `c` (or the circulations `c π U0²/Ω`) of `n≥2` stations, none beyond the high-thrust limit, at a tip-speed ratio of 20 or more (`Ω = Λ U0/R`),
or an infinite one (`Ω` = 800 rad/s, `800 R/U0 ≥ 20`). Any earlier history, straight wake. Between the stations `k-1` and `k` of the rotor plane the air is slowed down by exactly `|U0| a_k`
with `4a_k(1-a_k) = E_k`, `a_k ≤ 1/2`, and not at all outside of the stations; on the shaft the velocity is along the shaft with the stated profile. `E_k` is the prescribed thrust coefficient up to the convection term. -/
theorem C144_axial (mini : (ℝ → Num) → ℝ) (R : ℝ) (hub shaft vert U0 : V3 ℝ) (L : Option Num) (gr : Bool)
    (M : String) (ho : Orthonormal shaft vert) (hR : 0 < R) (h : List Op) (pts : List (V3 ℝ)) (hp : pts ≠ []) (o : Opts) (hnw : o.no_wake = false)
    (hlo : o.longi = false) (hro : o.root = false) (hta : o.tang = true)
    (n : ℕ) (r c E A : ℕ → ℝ) (Λ : Num) (Ω V : ℝ) (hn : 2 ≤ n) (h0 : 0 < r 0) (hinc : ∀ i j, i < j → j < n → r i < r j) (a : LoadArgs)
    (ha : a = { r := some ((List.range n).map r), Ct := some ((List.range n).map fun i => .fin (c i)), Lambda := some Λ, nCyl := none } ∨
      a = { r := some ((List.range n).map r), Gamma := some ((List.range n).map fun i => .fin (c i * π * V^2 / Ω)), Lambda := some Λ, nCyl := none }) :
    let w := (WT.new R hub shaft vert U0 L gr M).run mini (h ++ [.loading a])
    let s := w.e_shaft_g
    V = V3.norm w.U0_g → 0 < V → ((∃ lam, Λ = .fin lam ∧ Ω = lam * V / R) ∨ Λ = .pinf ∧ Ω = 800) → 20 ≤ Ω * R / V →
    (∀ i < n, c i ≤ Ctc) →
    (∀ k < n, E k = c k + V^2/(16*π*Ω^3) * ∑ j ∈ Finset.Ico k n, (c j^2 - (if j = n - 1 then 0 else c (j+1)^2)) / (rcyl n r R j)^2) →
    (∀ k < n, E k ≤ 1) → (∀ k < n, 4 * A k * (1 - A k) = E k ∧ A k ≤ 1/2) →
    o.ground.getD w.Ground = false → o.Model.getD w.Model = "VC" →
    ∀ chi, (w.computeU pts o).2.chi = some chi → ¬ (Num.fin 1e-7 < Num.abs chi) →
    ∃ u, (w.computeU pts o).1 = .ok u ∧ ∀ (i : ℕ) (p : V3 ℝ), pts[i]? = some p → ∃ v, u[i]? = some (V3.fin v) ∧
      (∀ k ≤ n, V3.dot (p - w.r_hub) s = 0 → (∀ j < n, 1e-8 * r j ≤ |axisDist s w.r_hub p - r j|) → (∀ j < k, r j < axisDist s w.r_hub p) → (∀ j < n, k ≤ j → axisDist s w.r_hub p < r j) →
        V3.dot (v - if o.only_ind then 0 else w.U0_g) s = -(if k < n then V * A k else 0)) ∧
      (∀ z, p = w.r_hub + V3.smul z s →
        v - (if o.only_ind then 0 else w.U0_g) = V3.smul (-V * ∑ j ∈ Finset.range n, (A j - (if j = n - 1 then 0 else A (j+1))) * (1 + z/√(z^2 + r j^2))) s) := by
  rcases ha with ha | ha
  · exact noswirl_axial mini R hub shaft vert U0 L gr M ho hR h pts hp o hnw hlo hro hta n r c E A Λ Ω V hn h0 hinc _ a _ none (by rw [ha]; rfl) (by rw [ha]) (by rw [ha]) rfl (Or.inl rfl)
  · exact noswirl_axial mini R hub shaft vert U0 L gr M ho hR h pts hp o hnw hlo hro hta n r c E A Λ Ω V hn h0 hinc _ a none _ (by rw [ha]; rfl) (by rw [ha]) (by rw [ha]) rfl (Or.inr ⟨rfl, rfl⟩)

/-- C144 with the thrust coefficients given at any radii and spread by the program over `nCyl=n≥2` stations between 0.5% and 99.5% of the radius: the same, the thrust coefficient of a
station being the value of the piecewise-linear function through the given samples. -/
theorem C144_spread (mini : (ℝ → Num) → ℝ) (R : ℝ) (hub shaft vert U0 : V3 ℝ) (L : Option Num) (gr : Bool)
    (M : String) (ho : Orthonormal shaft vert) (hR : 0 < R) (h : List Op) (pts : List (V3 ℝ)) (hp : pts ≠ []) (o : Opts) (hnw : o.no_wake = false)
    (hlo : o.longi = false) (hro : o.root = false) (hta : o.tang = true)
    (n : ℕ) (r Ct : List ℝ) (hr : r ≠ []) (hincr : r.Pairwise (· < ·)) (hlen : Ct.length = r.length) (T : ℝ → ℝ) (hT : Interpolates r Ct T)
    (x : ℕ → ℝ) (hx : ∀ i, x i = (0.005 + i * (0.99 / ((n:ℝ) - 1))) * R) (E A : ℕ → ℝ) (Λ : Num) (Ω V : ℝ) (hn : 2 ≤ n) :
    let a : LoadArgs := { r := some r, Ct := some (Ct.map .fin), Lambda := some Λ, nCyl := some n }
    let w := (WT.new R hub shaft vert U0 L gr M).run mini (h ++ [.loading a])
    let s := w.e_shaft_g
    V = V3.norm w.U0_g → 0 < V → ((∃ lam, Λ = .fin lam ∧ Ω = lam * V / R) ∨ Λ = .pinf ∧ Ω = 800) → 20 ≤ Ω * R / V →
    (∀ i < n, T (x i) ≤ Ctc) →
    (∀ k < n, E k = T (x k) + V^2/(16*π*Ω^3) * ∑ j ∈ Finset.Ico k n, (T (x j)^2 - (if j = n - 1 then 0 else T (x (j+1))^2)) / (rcyl n x R j)^2) →
    (∀ k < n, E k ≤ 1) → (∀ k < n, 4 * A k * (1 - A k) = E k ∧ A k ≤ 1/2) →
    o.ground.getD w.Ground = false → o.Model.getD w.Model = "VC" →
    ∀ chi, (w.computeU pts o).2.chi = some chi → ¬ (Num.fin 1e-7 < Num.abs chi) →
    ∃ u, (w.computeU pts o).1 = .ok u ∧ ∀ (i : ℕ) (p : V3 ℝ), pts[i]? = some p → ∃ v, u[i]? = some (V3.fin v) ∧
      (∀ k ≤ n, V3.dot (p - w.r_hub) s = 0 → (∀ j < n, 1e-8 * x j ≤ |axisDist s w.r_hub p - x j|) → (∀ j < k, x j < axisDist s w.r_hub p) → (∀ j < n, k ≤ j → axisDist s w.r_hub p < x j) →
        V3.dot (v - if o.only_ind then 0 else w.U0_g) s = -(if k < n then V * A k else 0)) ∧
      (∀ z, p = w.r_hub + V3.smul z s →
        v - (if o.only_ind then 0 else w.U0_g) = V3.smul (-V * ∑ j ∈ Finset.range n, (A j - (if j = n - 1 then 0 else A (j+1))) * (1 + z/√(z^2 + x j^2))) s) := by
  obtain ⟨-, s2, s3⟩ := stations n hn R hR
  exact noswirl_axial mini R hub shaft vert U0 L gr M ho hR h pts hp o hnw hlo hro hta n x (fun i => T (x i)) E A Λ Ω V hn (by rw [hx]; exact s2)
    (fun i j hij hj => by rw [hx, hx]; exact s3 i j hij hj) _ _ _ none (spread_reinterp R hR n hn r Ct hr hincr hlen T hT _ x hx) rfl rfl rfl (Or.inl rfl)

/-- C144: the effective thrust coefficient differs from the prescribed one by no more than `U0² C²/(16πΩ³ r_k²)` below and `U0² c_k²/(16πΩ³ r_k²)` above (`0 ≤ c ≤ C`); the difference
never goes above the prescribed value by more, so it vanishes as the rotor turns faster. For a uniform thrust it is uniform: the whole disc is slowed down alike. -/
theorem C144_bounds (n : ℕ) (r c E : ℕ → ℝ) (R V Ω C : ℝ) (hΩ : 0 < Ω) (hn : 2 ≤ n) (h0 : 0 < r 0) (hinc : ∀ i j, i < j → j < n → r i < r j)
    (hc : ∀ i < n, 0 ≤ c i ∧ c i ≤ C)
    (hE : ∀ k < n, E k = c k + V^2/(16*π*Ω^3) * ∑ j ∈ Finset.Ico k n, (c j^2 - (if j = n - 1 then 0 else c (j+1)^2)) / (rcyl n r R j)^2) :
    (∀ k < n, -(V^2 * C^2/(16*π*Ω^3*(r k)^2)) ≤ E k - c k ∧ E k - c k ≤ V^2 * (c k)^2/(16*π*Ω^3*(r k)^2)) ∧
    ((∀ i < n, c i = C) → ∀ k < n, E k = C + V^2 * C^2/(16*π*Ω^3*(r (n-1) + (r (n-1) - r (n-2))/2)^2)) := by
  have hpos : ∀ i < n, 0 < r i := by
    intro i hi
    rcases Nat.eq_zero_or_pos i with rfl | h
    · exact h0
    · exact h0.trans (hinc 0 i h hi)
  obtain ⟨o1, o2⟩ := rcyl_outside n r R hn hinc
  have hpi := pi_pos
  constructor
  · intro k hk
    obtain ⟨b1, b2⟩ := ctNoSwirl_bounds n r c R V Ω C hΩ hn h0 hinc hc k hk
    unfold ctNoSwirl at b1 b2
    rw [← hE k hk] at b1 b2
    have hrk := hpos k hk
    have hm : ∀ x, 0 ≤ x → V^2 * x/(16*π*Ω^3*(rcyl n r R k)^2) ≤ V^2 * x/(16*π*Ω^3*(r k)^2) := by
      intro x hx
      have := (o1 k hk).le
      gcongr
    have m1 := hm (C^2) (sq_nonneg _)
    have m2 := hm (c k^2) (sq_nonneg _)
    constructor <;> linarith
  · intro hcc k hk
    rw [hE k hk, hcc k hk]
    have e : ∑ j ∈ Finset.Ico k n, (c j^2 - (if j = n - 1 then 0 else c (j+1)^2)) / (rcyl n r R j)^2 = C^2/(rcyl n r R (n-1))^2 := by
      rw [Finset.sum_eq_single_of_mem (n-1) (Finset.mem_Ico.mpr (by omega)), if_pos rfl, hcc _ (by omega), sub_zero]
      intro j hj hne
      have hj := Finset.mem_Ico.mp hj
      rw [if_neg hne, hcc j (by omega), hcc (j+1) (by omega), sub_self, zero_div]
    have hl : rcyl n r R (n-1) = r (n-1) + (r (n-1) - r (n-2))/2 := by
      unfold rcyl; rw [if_neg (by omega), if_pos rfl]
    have hrp : 0 < r (n-1) + (r (n-1) - r (n-2))/2 := by
      have := hpos (n-1) (by omega)
      have := hinc (n-2) (n-1) (by omega) (by omega)
      linarith
    rw [e, hl]
    field_simp

/-- a concrete case: thrust coefficient 1/2 at two stations, 20 m and 40 m, of a 50 m rotor, infinite tip-speed ratio: 30 m from the shaft the air is slowed down as stated, 60 m from it not at all -/
example (mini : (ℝ → Num) → ℝ) (E : ℝ) (hE : E = 1/2 + 10^2 * (1/2)^2/(16*π*800^3*50^2)) :
    let w := (WT.new 50 ⟨1,2,3⟩ ⟨0,0,1⟩ ⟨0,1,0⟩ ⟨0,0,10⟩ none false "VC").run mini
      ([.chi (some 0)] ++ [.loading { r := some ((List.range 2).map fun i : ℕ => 20 * ((i:ℝ) + 1)), Ct := some ((List.range 2).map fun _ : ℕ => Num.fin (1/2)), Lambda := some .pinf, nCyl := none }])
    ∃ u, (w.computeU [⟨31,2,3⟩, ⟨61,2,3⟩] {}).1 = .ok u ∧ ∃ v v', u[0]? = some (V3.fin v) ∧ u[1]? = some (V3.fin v') ∧
      V3.dot (v - ⟨0,0,10⟩) ⟨0,0,1⟩ = -(10 * ((1 - √(1 - E))/2)) ∧ V3.dot (v' - ⟨0,0,10⟩) ⟨0,0,1⟩ = 0 := by
  intro w
  have hn : V3.norm (⟨0,0,10⟩ : V3 ℝ) = 10 := by unfold V3.norm; simp
  obtain ⟨a, ha⟩ : ∃ a : LoadArgs, a = { r := some ((List.range 2).map fun i : ℕ => 20 * ((i:ℝ) + 1)), Ct := some ((List.range 2).map fun _ : ℕ => Num.fin (1/2)), Lambda := some .pinf, nCyl := none } := ⟨_, rfl⟩
  have hw : w = (WT.new 50 ⟨1,2,3⟩ ⟨0,0,1⟩ ⟨0,1,0⟩ ⟨0,0,10⟩ none false "VC").run mini ([.chi (some 0)] ++ [.loading a]) := by rw [ha]
  clear_value w
  obtain ⟨e1, e2, -, -, e5, -, -, -, -, -, e11, e12, e13, e14⟩ := loading_frame mini
    ((WT.new 50 ⟨1,2,3⟩ ⟨0,0,1⟩ ⟨0,1,0⟩ ⟨0,0,10⟩ none false "VC").run mini [.chi (some 0)]) a
  have f2 : w.r_hub = ⟨1,2,3⟩ := by rw [hw]; exact e2
  have f5 : w.e_shaft_g = ⟨0,0,1⟩ := by
    rw [hw]
    refine e5.trans ?_
    have := (frame_run mini ⟨0,0,1⟩ ⟨0,1,0⟩ 50 [.chi (some 0)] _ (frame_new 50 ⟨1,2,3⟩ ⟨0,0,1⟩ ⟨0,1,0⟩ ⟨0,0,10⟩ none false "VC")).e_shaft_g
    rw [turn_eq] at this
    refine this.trans ?_
    change turn _ 0 _ = _
    unfold turn
    ext <;> simp
  have f11 : w.U0_g = ⟨0,0,10⟩ := by rw [hw]; exact e11
  have f12 : w.Ground = false := by rw [hw]; exact e12
  have f13 : w.chi = some 0 := by rw [hw]; exact e13
  have f14 : w.Model = "VC" := by rw [hw]; exact e14
  have hpi := pi_pos
  have hpi3 := pi_gt_three
  have hE1 : E ≤ 6/10 := by
    have : 10^2 * (1/2)^2/(16*π*800^3*50^2) ≤ 10^2 * (1/2)^2/(16*3*800^3*50^2) := by gcongr
    rw [hE]
    norm_num at this ⊢
    linarith
  have hsq : ∀ k < 2, 4 * ((1 - √(1 - E))/2) * (1 - (1 - √(1 - E))/2) = E ∧ (1 - √(1 - E))/2 ≤ 1/2 := by
    intro k _
    have := sq_sqrt (show 0 ≤ 1 - E by linarith)
    exact ⟨by nlinarith, by linarith [sqrt_nonneg (1 - E)]⟩
  have H := C144_axial mini 50 ⟨1,2,3⟩ ⟨0,0,1⟩ ⟨0,1,0⟩ ⟨0,0,10⟩ none false "VC" ⟨by simp [V3.dot], by simp [V3.dot], by simp [V3.dot]⟩ (by norm_num)
    [.chi (some 0)] [⟨31,2,3⟩, ⟨61,2,3⟩] (by simp) {} rfl rfl rfl rfl 2 (fun i => 20 * ((i:ℝ) + 1)) (fun _ => 1/2) (fun _ => E) (fun _ => (1 - √(1 - E))/2) .pinf 800 10 le_rfl (by norm_num)
    (fun i j hij _ => by have : (i:ℝ) < j := by exact_mod_cast hij
                         linarith) a (Or.inl ha)
  simp only [← hw] at H
  obtain ⟨u, hu, H⟩ := H (by rw [f11, hn]) (by norm_num) (Or.inr (by simp)) (by norm_num) (fun i _ => by norm_num [Ctc, ac]) (by
      intro k hk
      rcases (by omega : k = 0 ∨ k = 1) with h | h <;> subst h
      · rw [hE, Finset.sum_Ico_succ_top (by omega), Finset.sum_Ico_succ_top (by omega), Finset.Ico_self, Finset.sum_empty]
        unfold rcyl
        norm_num
        field_simp
        norm_num
      · rw [hE, Finset.sum_Ico_succ_top (by omega), Finset.Ico_self, Finset.sum_empty]
        unfold rcyl
        norm_num
        field_simp
        norm_num) (fun _ _ => by linarith) hsq (by rw [f12]; rfl) (by rw [f14]; rfl) 0
    (by rw [computeU_state]; change some (match w.chi with | some c => c | none => w.chiAuto) = _; rw [f13])
    (by simp [Num.abs_fin, Num.zero_def, Num.lt_fin]; norm_num)
  have hs : ∀ x : ℝ, 0 ≤ x → axisDist ⟨0,0,1⟩ ⟨1,2,3⟩ ⟨1+x,2,3⟩ = x := by
    intro x hx
    unfold axisDist V3.norm V3.cross
    simp [sqrt_sq hx]
  have h30 := hs 30 (by norm_num)
  have h60 := hs 60 (by norm_num)
  norm_num at h30 h60
  rw [f2, f5, f11] at H
  obtain ⟨v, v1, v2, -⟩ := H 0 ⟨31,2,3⟩ rfl
  obtain ⟨v', v1', v2', -⟩ := H 1 ⟨61,2,3⟩ rfl
  have k1 := v2 1 (by norm_num) (by simp [V3.dot]) (by
      intro j hj
      rw [h30]
      rcases (by omega : j = 0 ∨ j = 1) with h | h <;> subst h <;> norm_num) (by
      intro j hj
      have : j = 0 := by omega
      subst this; rw [h30]; norm_num) (by
      intro j h1 h2
      have : j = 1 := by omega
      subst this; rw [h30]; norm_num)
  have k2 := v2' 2 le_rfl (by simp [V3.dot]) (by
      intro j hj
      rw [h60]
      rcases (by omega : j = 0 ∨ j = 1) with h | h <;> subst h <;> norm_num) (by
      intro j hj
      rcases (by omega : j = 0 ∨ j = 1) with h | h <;> subst h <;> rw [h60] <;> norm_num) (by omega)
  refine ⟨u, hu, v, v', v1, v1', k1.trans ?_, k2.trans ?_⟩
  · rw [if_pos (by norm_num)]
  · simp

/-- a concrete case: thrust coefficients 3/4 and 1/2 at 20 m and 40 m, rotor at 4 rad/s in 10 m/s: off by less than 1e-4 -/
example (E : ℕ → ℝ) (hE : ∀ k < 2, E k = (if k = 0 then 3/4 else 1/2) + 10^2/(16*π*4^3) * ∑ j ∈ Finset.Ico k 2, (((if j = 0 then 3/4 else 1/2 : ℝ))^2 - (if j = 2 - 1 then 0 else (if j + 1 = 0 then 3/4 else 1/2 : ℝ)^2)) / (rcyl 2 (fun i => 20 * ((i:ℝ) + 1)) 50 j)^2) :
    |E 0 - 3/4| ≤ 1e-4 := by
  obtain ⟨b, -⟩ := C144_bounds 2 (fun i => 20 * ((i:ℝ) + 1)) (fun i => if i = 0 then 3/4 else 1/2) E 50 10 4 (3/4) (by norm_num) le_rfl (by norm_num)
    (fun i j hij _ => by have : (i:ℝ) < j := by exact_mod_cast hij
                         linarith) (fun i _ => by split_ifs <;> norm_num) hE
  obtain ⟨b1, b2⟩ := b 0 (by norm_num)
  have hpi3 := pi_gt_three
  have : 10^2 * (3/4:ℝ)^2/(16*π*4^3*(20*(0+1))^2) ≤ 10^2 * (3/4)^2/(16*3*4^3*(20*(0+1))^2) := by gcongr
  simp only [Nat.cast_zero, if_true] at b1 b2
  rw [abs_le]
  norm_num at this b1 b2 ⊢
  constructor <;> linarith

end
end Wiz
