import Verif.Props.SolverLoading
import Mathlib.Analysis.Real.Pi.Bounds
import Mathlib.Tactic.IntervalCases

/-! # The wake solvers (C27, C28, C30, C31, C33–C35)

Arrays of ordinary numbers of any length `n` are written `farr n f` (entries `f 0 … f (n-1)`). -/
namespace Wiz
open Spec Real Classical Finset

/-! ### C27 -/

/-- C27: with swirl, for any number of cylinders: the axial induction reported at station `i` is
the momentum/Spera value of the effective thrust coefficient (Kutta–Joukowski thrust minus the
rotational term accumulated outboard); the intensities are the differences of inductions, so that
half the intensities outboard of `i` add up to the induced velocity `-U0 a_i`. -/
theorem C27_effective_thrust (n : ℕ) (r G c : ℕ → ℝ) (R : Num) (U0 Ω nB : ℝ) (bTan : Bool)
    (hn : 0 < n) (hU : U0 ≠ 0) (hΩ : Ω ≠ 0) (hr : ∀ i < n, r i ≠ 0) (hc : ∀ i < n, c i ≠ 0)
    (henc : ∃ i < n, ∀ j < n, r j ≤ c i) :
    ∃ w, wakeVorticityDiscr (farr n r) (farr n G) R (.fin U0) (.fin Ω) (.fin nB) true bTan true (some (farr n c)) = .ok w ∧
      ∃ a γ : ℕ → ℝ, w.misc.a = farr n a ∧ w.gamma_t = farr n γ ∧ ∀ i < n,
        a i = aOfCt (ctEff n (fun j => nB * G j * Ω / (π * U0^2)) (fun j => Ω * c j / U0) i) ∧
        γ i = -2 * U0 * (a i - (if i = n - 1 then 0 else a (i+1))) ∧
        (∑ j ∈ Ico i n, γ j) / 2 = - U0 * a i := by
  obtain ⟨h, e, -⟩ := discr_eval_swirl n r G c R U0 Ω nB bTan true hn hU hΩ hr hc henc (by simp)
  refine ⟨_, e, _, _, rfl, rfl, ?_⟩
  intro i hi
  refine ⟨rfl, rfl, ?_⟩
  generalize hA : (fun i => aOfCt (ctEff n (fun i => kOf (nB * G i) U0 Ω) (fun i => Ω * c i / U0) i)) = A
  have hA' : ∀ i, aOfCt (ctEff n (fun i => kOf (nB * G i) U0 Ω) (fun i => Ω * c i / U0) i) = A i := fun i => by rw [← hA]
  simp only [hA']
  have key : ∀ m lo, lo + m + 1 = n → (∑ j ∈ Ico lo n, -2 * U0 * (A j - (if j = n - 1 then 0 else A (j+1)))) = -2 * U0 * A lo := by
    intro m
    induction m with
    | zero =>
      intro lo hlo
      rw [Finset.sum_eq_sum_Ico_succ_bot (by omega), if_pos (by omega), Finset.Ico_eq_empty (by omega)]; simp
    | succ m ih =>
      intro lo hlo
      rw [Finset.sum_eq_sum_Ico_succ_bot (by omega), ih (lo+1) (by omega), if_neg (by omega)]; ring
  rw [key (n - 1 - i) i (by omega)]; ring

/-- C27: without the high-thrust option the same holds as long as no station exceeds the critical
thrust. -/
theorem C27_without_correction (n : ℕ) (r G c : ℕ → ℝ) (R : Num) (U0 Ω nB : ℝ) (bTan : Bool)
    (hn : 0 < n) (hU : U0 ≠ 0) (hΩ : Ω ≠ 0) (hr : ∀ i < n, r i ≠ 0) (hc : ∀ i < n, c i ≠ 0)
    (henc : ∃ i < n, ∀ j < n, r j ≤ c i)
    (hlow : ∀ i < n, ctEff n (fun j => nB * G j * Ω / (π * U0^2)) (fun j => Ω * c j / U0) i ≤ Ctc) :
    ∃ w, wakeVorticityDiscr (farr n r) (farr n G) R (.fin U0) (.fin Ω) (.fin nB) true bTan false (some (farr n c)) = .ok w ∧
      w.misc.a = farr n fun i => (1 - √(1 - ctEff n (fun j => nB * G j * Ω / (π * U0^2)) (fun j => Ω * c j / U0) i)) / 2 := by
  obtain ⟨h, e, -⟩ := discr_eval_swirl n r G c R U0 Ω nB bTan false hn hU hΩ hr hc henc (fun _ => hlow)
  refine ⟨_, e, ?_⟩
  apply arr_congr
  intro i hi
  have : aOfCt (ctEff n (fun j => nB * G j * Ω / (π * U0^2)) (fun j => Ω * c j / U0) i) =
      (1 - √(1 - ctEff n (fun j => nB * G j * Ω / (π * U0^2)) (fun j => Ω * c j / U0) i)) / 2 := by
    unfold aOfCt
    rw [if_pos (hlow i hi)]
  exact congrArg Num.fin this

/-- the default cylinders: positive increasing stations inside the rotor give nonzero radii that
enclose the stations -/
theorem rcyl_ok (n : ℕ) (r : ℕ → ℝ) (R : ℝ) (hn : 0 < n) (h0 : 0 < r 0) (hinc : ∀ i j, i < j → j < n → r i < r j)
    (hR : n = 1 → r 0 ≤ R) : (∀ i < n, 0 < r i) ∧ (∀ i < n, 0 < rcyl n r R i) ∧ (∃ i < n, ∀ j < n, r j ≤ rcyl n r R i) := by
  have hpos : ∀ i < n, 0 < r i := by
    intro i hi
    rcases Nat.eq_zero_or_pos i with rfl | h
    · exact h0
    · exact h0.trans (hinc 0 i h hi)
  refine ⟨hpos, ?_, ?_⟩
  · intro i hi
    unfold rcyl
    by_cases h1 : n = 1
    · rw [if_pos h1]; exact h0.trans_le (hR h1)
    · rw [if_neg h1]
      by_cases hl : i = n - 1
      · rw [if_pos hl]
        have := hinc (n-2) (n-1) (by omega) (by omega)
        have := hpos (n-1) (by omega)
        linarith
      · rw [if_neg hl]
        have := hpos i hi
        have := hpos (i+1) (by omega)
        linarith
  · refine ⟨n-1, by omega, ?_⟩
    intro j hj
    unfold rcyl
    by_cases h1 : n = 1
    · rw [if_pos h1]
      have : j = 0 := by omega
      rw [this]; exact hR h1
    · rw [if_neg h1, if_pos rfl]
      have := hinc (n-2) (n-1) (by omega) (by omega)
      rcases Nat.lt_or_ge j (n-1) with h | h
      · have := hinc j (n-1) h (by omega)
        linarith
      · rw [show j = n - 1 by omega]; linarith

/-- C27 with the default cylinders, for increasing positive stations. -/
theorem C27_default_cylinders (n : ℕ) (r G : ℕ → ℝ) (R U0 Ω nB : ℝ) (bTan : Bool)
    (hn : 0 < n) (hU : U0 ≠ 0) (hΩ : Ω ≠ 0) (h0 : 0 < r 0) (hinc : ∀ i j, i < j → j < n → r i < r j)
    (hR : n = 1 → r 0 ≤ R) :
    ∃ w, wakeVorticityDiscr (farr n r) (farr n G) (.fin R) (.fin U0) (.fin Ω) (.fin nB) true bTan true none = .ok w ∧
      w.misc.a = farr n fun i => aOfCt (ctEff n (fun j => nB * G j * Ω / (π * U0^2)) (fun j => Ω * rcyl n r R j / U0) i) := by
  obtain ⟨h1, h2, h3⟩ := rcyl_ok n r R hn h0 hinc hR
  obtain ⟨h, e, -⟩ := discr_eval_swirl n r G (rcyl n r R) (.fin R) U0 Ω nB bTan true hn hU hΩ (fun i hi => (h1 i hi).ne')
    (fun i hi => (h2 i hi).ne') h3 (by simp)
  refine ⟨_, (discr_default n r _ R _ _ _ true bTan true hn).trans e, rfl⟩

/-- a rotor with three stations meets the hypotheses -/
example : (0:ℝ) < 0.25 ∧ ∀ i j : ℕ, i < j → j < 3 → (0.25 * ((i:ℝ) + 1) : ℝ) < 0.25 * ((j:ℝ) + 1) := by
  refine ⟨by norm_num, fun i j h _ => ?_⟩
  have : (i:ℝ) < j := by exact_mod_cast h
  linarith

/-- C27: cylinders that do not enclose the control points, or a first cylinder of zero radius, are
rejected (the first through an unintended `NameError`). -/
theorem C27_rejects (n : ℕ) (r G c : ℕ → ℝ) (R U0 Ω nB : Num) (sw bTan hi : Bool) (hn : 0 < n) :
    ((¬ ∃ i < n, ∀ j < n, r j ≤ c i) →
      wakeVorticityDiscr (farr n r) (farr n G) R U0 Ω nB sw bTan hi (some (farr n c)) = .error "NameError: warnings") ∧
    ((∃ i < n, ∀ j < n, r j ≤ c i) → c 0 = 0 →
      wakeVorticityDiscr (farr n r) (farr n G) R U0 Ω nB sw bTan hi (some (farr n c)) = .error "First cylinder at 0, impossible") := by
  constructor
  · intro h
    unfold wakeVorticityDiscr
    simp only [farr_length, ne_eq, not_true, or_false]
    rw [if_neg (by omega), if_pos ((enclose n r c hn).mpr h)]
  · intro h h0
    unfold wakeVorticityDiscr
    simp only [farr_length, ne_eq, not_true, or_false]
    rw [if_neg (by omega), if_neg (by rw [enclose n r c hn]; exact not_not.mpr h), if_pos (by rw [idx_farr _ _ _ hn]; exact h0)]

/-! ### C28 -/

/-- C28: without swirl the wake velocities `q_i = 1-2a_i` are the outboard-to-inboard recursion:
`q_i = √(q_{i+1}² - (k_i-k_{i+1})(1+a'_c,i))` or the Spera value where `k_i` exceeds the critical
thrust; the intensities are the differences of the `q_i`. -/
theorem C28_recursion (n : ℕ) (r G c q : ℕ → ℝ) (R : Num) (U0 Ω nB : ℝ) (hn : 0 < n) (hU : U0 ≠ 0) (hΩ : Ω ≠ 0)
    (hc : ∀ i < n, c i ≠ 0) (henc : ∃ i < n, ∀ j < n, r j ≤ c i)
    (k ap : ℕ → ℝ) (hk : ∀ i < n, k i = nB * G i * Ω / (π * U0^2)) (hkn : k n = 0)
    (hap : ∀ i < n, ap i = (nB * G i + (if i = n - 1 then 0 else nB * G (i+1))) / (4 * π * Ω * c i)^2)
    (hqn : q n = 1)
    (hq : ∀ i < n, if Ctc < k i then q i = 1 - 2 * aOfCt (k i)
      else 0 ≤ q (i+1)^2 - (k i - k (i+1)) * (1 + ap i) ∧ q i = √(q (i+1)^2 - (k i - k (i+1)) * (1 + ap i))) :
    ∃ w, wakeVorticityDiscr (farr n r) (farr n G) R (.fin U0) (.fin Ω) (.fin nB) false true true (some (farr n c)) = .ok w ∧
      w.misc.a = farr n (fun i => (1 - q i) / 2) ∧ w.gamma_t = farr n (fun i => U0 * (q i - q (i+1))) := by
  obtain ⟨h, e, -⟩ := discr_eval_noswirl n r G c q R U0 Ω nB true true hn hU hΩ hc henc hqn (by
    intro i hi
    have h := hq i hi
    have hki : k i = kOf (nB * G i) U0 Ω := hk i hi
    have hki' : k (i+1) = if i = n - 1 then 0 else kOf (nB * G (i+1)) U0 Ω := by
      by_cases hl : i = n - 1
      · rw [if_pos hl, show i + 1 = n by omega, hkn]
      · rw [if_neg hl]; exact hk (i+1) (by omega)
    have hai : ap i = apOpt true n (fun i => nB * G i) c Ω i := by
      rw [hap i hi]; rfl
    rw [← hki, ← hki', ← hai]
    by_cases hct : Ctc < k i
    · rw [if_pos hct] at h
      exact ⟨fun _ => h, fun h' => absurd ⟨rfl, hct⟩ h'⟩
    · rw [if_neg hct] at h
      exact ⟨fun h' => absurd h'.2 hct, fun _ => h⟩)
  exact ⟨_, e, rfl, rfl⟩

/-- C28: when no station triggers the high-thrust correction the recursion telescopes:
`(1-2a_i)² = 1 - Σ_{j≥i}(k_j-k_{j+1})(1+a'_c,j)` and `a_i ≤ 1/2`, for any number of cylinders. -/
theorem C28_telescoped (n : ℕ) (r G c : ℕ → ℝ) (R : Num) (U0 Ω nB : ℝ) (hn : 0 < n) (hU : U0 ≠ 0) (hΩ : Ω ≠ 0)
    (hc : ∀ i < n, c i ≠ 0) (henc : ∃ i < n, ∀ j < n, r j ≤ c i)
    (k ap : ℕ → ℝ) (hk : ∀ i < n, k i = nB * G i * Ω / (π * U0^2)) (hkn : k n = 0)
    (hap : ∀ i < n, ap i = (nB * G i + (if i = n - 1 then 0 else nB * G (i+1))) / (4 * π * Ω * c i)^2)
    (hlow : ∀ i < n, k i ≤ Ctc)
    (hrad : ∀ i < n, 0 ≤ 1 - ∑ j ∈ Ico i n, (k j - k (j+1)) * (1 + ap j)) :
    ∃ w, wakeVorticityDiscr (farr n r) (farr n G) R (.fin U0) (.fin Ω) (.fin nB) false true true (some (farr n c)) = .ok w ∧
      w.gamma_l = none ∧ w.Gamma_r = none ∧
      ∃ a : ℕ → ℝ, w.misc.a = farr n a ∧ ∀ i < n,
        (1 - 2 * a i)^2 = 1 - ∑ j ∈ Ico i n, (k j - k (j+1)) * (1 + ap j) ∧ a i ≤ 1/2 := by
  let q : ℕ → ℝ := fun i => √(1 - ∑ j ∈ Ico i n, (k j - k (j+1)) * (1 + ap j))
  have hqn : q n = 1 := by simp [q]
  have hrad' : ∀ i, 0 ≤ 1 - ∑ j ∈ Ico i n, (k j - k (j+1)) * (1 + ap j) := by
    intro i
    rcases Nat.lt_or_ge i n with h | h
    · exact hrad i h
    · rw [Finset.Ico_eq_empty (by omega)]; simp
  obtain ⟨h, e, -⟩ := discr_eval_noswirl n r G c q R U0 Ω nB true true hn hU hΩ hc henc hqn (by
    intro i hi
    have hki : k i = kOf (nB * G i) U0 Ω := hk i hi
    have hki' : k (i+1) = if i = n - 1 then 0 else kOf (nB * G (i+1)) U0 Ω := by
      by_cases hl : i = n - 1
      · rw [if_pos hl, show i + 1 = n by omega, hkn]
      · rw [if_neg hl]; exact hk (i+1) (by omega)
    have hai : ap i = apOpt true n (fun i => nB * G i) c Ω i := by
      rw [hap i hi]; rfl
    rw [← hki, ← hki', ← hai]
    refine ⟨fun h' => absurd h'.2 (not_lt.mpr (hlow i hi)), fun _ => ?_⟩
    have hs : q (i+1)^2 - (k i - k (i+1)) * (1 + ap i) = 1 - ∑ j ∈ Ico i n, (k j - k (j+1)) * (1 + ap j) := by
      show √(1 - ∑ j ∈ Ico (i+1) n, (k j - k (j+1)) * (1 + ap j))^2 - _ = _
      rw [Real.sq_sqrt (hrad' (i+1)), Finset.sum_eq_sum_Ico_succ_bot hi]; ring
    rw [hs]
    exact ⟨hrad i hi, rfl⟩)
  refine ⟨_, e, rfl, rfl, _, rfl, ?_⟩
  intro i hi
  constructor
  · rw [show 1 - 2 * ((1 - q i) / 2) = q i by ring]
    exact Real.sq_sqrt (hrad i hi)
  · have : 0 ≤ q i := Real.sqrt_nonneg _
    linarith

/-- two equally loaded cylinders, `k=1/2`: hypotheses of `C28_telescoped` -/
example : ∃ (n : ℕ) (k ap : ℕ → ℝ), 1 < n ∧ k n = 0 ∧ (∀ i < n, k i ≤ Ctc) ∧ (∃ i < n, 0 < k i ∧ 0 < ap i) ∧
    ∀ i < n, 0 ≤ 1 - ∑ j ∈ Ico i n, (k j - k (j+1)) * (1 + ap j) := by
  refine ⟨2, fun i => if i < 2 then 1/2 else 0, fun _ => 1/10, by norm_num, by simp, ?_, ⟨0, by norm_num⟩, ?_⟩
  · intro i hi
    simp only [if_pos hi]; unfold Ctc ac; norm_num
  · intro i hi
    rcases (show i = 0 ∨ i = 1 by omega) with rfl | rfl
    · rw [show Ico 0 2 = {0, 1} from rfl]; norm_num
    · rw [show Ico 1 2 = {1} from rfl]; norm_num

/-! ### C30 -/

/-- trailed circulations add up to the bound circulation -/
theorem trailed_sum (n : ℕ) (Γ r : ℕ → ℝ) (hr : ∀ i < n, r i ≠ 0) :
    ∀ m i, i + m + 1 = n →
      ∑ j ∈ Ico i n, 2 * π * r j * ((Γ j - (if j = n - 1 then 0 else Γ (j+1))) / (2 * π * r j)) = Γ i := by
  have e : ∀ j < n, 2 * π * r j * ((Γ j - (if j = n - 1 then 0 else Γ (j+1))) / (2 * π * r j)) =
      Γ j - (if j = n - 1 then 0 else Γ (j+1)) := by
    intro j hj
    have := hr j hj
    have := Real.pi_ne_zero
    field_simp
  intro m
  induction m with
  | zero =>
    intro i hi
    rw [Finset.sum_eq_sum_Ico_succ_bot (by omega), e i (by omega), if_pos (by omega), Finset.Ico_eq_empty (by omega)]; simp
  | succ m ih =>
    intro i hi
    rw [Finset.sum_eq_sum_Ico_succ_bot (by omega), ih (i+1) (by omega), e i (by omega), if_neg (by omega)]; ring

/-- C30 (discrete solver): the longitudinal vorticity `2πr γ_l` trailed outboard of any station
`i` equals the circulation `nB·Γ_i` bound there; over the whole rotor it is cancelled by the root
vortex. -/
theorem C30_discrete (n : ℕ) (r G c : ℕ → ℝ) (R : Num) (U0 Ω nB : ℝ) (bTan : Bool)
    (hn : 0 < n) (hU : U0 ≠ 0) (hΩ : Ω ≠ 0) (hr : ∀ i < n, r i ≠ 0) (hc : ∀ i < n, c i ≠ 0)
    (henc : ∃ i < n, ∀ j < n, r j ≤ c i) :
    ∃ w, wakeVorticityDiscr (farr n r) (farr n G) R (.fin U0) (.fin Ω) (.fin nB) true bTan true (some (farr n c)) = .ok w ∧
      ∃ (γl : ℕ → ℝ) (Γr : ℝ), w.gamma_l = some (farr n γl) ∧ w.Gamma_r = some (.fin Γr) ∧
        (∀ i < n, ∑ j ∈ Ico i n, 2 * π * r j * γl j = nB * G i) ∧
        ∑ j ∈ range n, 2 * π * r j * γl j + Γr = 0 := by
  obtain ⟨h, e, -⟩ := discr_eval_swirl n r G c R U0 Ω nB bTan true hn hU hΩ hr hc henc (by simp)
  refine ⟨_, e, _, _, rfl, rfl, ?_, ?_⟩
  · intro i hi
    exact trailed_sum n (fun j => nB * G j) r hr (n-1-i) i (by omega)
  · rw [Finset.range_eq_Ico, trailed_sum n (fun j => nB * G j) r hr (n-1) 0 (by omega)]; ring

theorem contSafety_nz (f : Num) (n : ℕ) (r : ℕ → ℝ) (h : r 0 ≠ 0) : contSafety f (farr n r) = farr n r := by
  rcases n with _ | _ | n
  · rfl
  · rfl
  · have : farr (n+2) r = .fin (r 0) :: .fin (r 1) :: (farr (n+2) r).tail.tail := by
      simp [farr, arr, List.range_succ_eq_map]
    rw [this]
    unfold contSafety
    simp only
    rw [if_neg (by exact h)]

theorem contSafety_z (f : ℝ) (n : ℕ) (r : ℕ → ℝ) (h : r 0 = 0) (hn : 2 ≤ n) :
    contSafety (.fin f) (farr n r) = farr n (fun i => if i = 0 then r 1 * f else r i) := by
  obtain ⟨m, rfl⟩ : ∃ m, n = m + 2 := ⟨n - 2, by omega⟩
  have e : ∀ r : ℕ → ℝ, farr (m+2) r = .fin (r 0) :: .fin (r 1) :: (List.range m).map fun i => Num.fin (r (i+2)) := by
    intro r
    simp [farr, arr, List.range_succ_eq_map, Function.comp_def]
  rw [e r, e]
  unfold contSafety
  simp only
  rw [if_pos (show Num.Eqv (.fin (r 0)) 0 from h)]
  simp

/-- C30 (continuous solver): same conservation; a first radius equal to zero is first replaced by
half the second one (the radii `ρ` returned). -/
theorem C30_continuous (n : ℕ) (r G : ℕ → ℝ) (R U0 Ω : Num) (bHigh : Bool) (hn : 2 ≤ n) (hr : ∀ i, 0 < i → i < n → r i ≠ 0) :
    let w := wakeVorticityCont (farr n r) (farr n G) R U0 Ω true bHigh
    ∃ (ρ γl : ℕ → ℝ) (Γr : ℝ), w.r_cp = farr n ρ ∧ (∀ i < n, ρ i = if i = 0 ∧ r 0 = 0 then r 1 * 0.5 else r i) ∧
      w.gamma_l = some (farr n γl) ∧ w.Gamma_r = some (.fin Γr) ∧
        (∀ i < n, ∑ j ∈ Ico i n, 2 * π * ρ j * γl j = G i) ∧
        ∑ j ∈ range n, 2 * π * ρ j * γl j + Γr = 0 := by
  intro w
  obtain ⟨ρ, hρ, hρv, hρ0⟩ : ∃ ρ : ℕ → ℝ, contSafety (.fin 0.5) (farr n r) = farr n ρ ∧
      (∀ i < n, ρ i = if i = 0 ∧ r 0 = 0 then r 1 * 0.5 else r i) ∧ ∀ i < n, ρ i ≠ 0 := by
    by_cases h0 : r 0 = 0
    · refine ⟨_, contSafety_z 0.5 n r h0 hn, ?_, ?_⟩
      · intro i _
        simp [h0]
      · intro i hi
        by_cases h : i = 0
        · simp only [if_pos h]
          have := hr 1 (by omega) (by omega)
          positivity
        · simp only [if_neg h]
          exact hr i (by omega) hi
    · refine ⟨_, contSafety_nz _ n r h0, ?_, ?_⟩
      · intro i _
        simp [h0]
      · intro i hi
        by_cases h : i = 0
        · rw [h]; exact h0
        · exact hr i (by omega) hi
  refine ⟨ρ, fun i => (G i - (if i = n - 1 then 0 else G (i+1))) / (2 * π * ρ i), - G 0, ?_, hρv, ?_, ?_, ?_, ?_⟩
  · exact hρ
  · show some (arr (contSafety _ (farr n r)).length _) = _
    rw [hρ, farr_length]
    congr 1
    apply arr_congr
    intro i hi
    have : 2 * π * ρ i ≠ 0 := by have := hρ0 i hi; positivity
    simp only [hρ, idx_farr _ _ _ hi]
    by_cases hl : i = n - 1
    · simp only [if_pos hl, Num.zero_def, Num.ofNat_def, Num.fin_mul, Num.fin_sub, Num.fin_div this]
    · simp only [if_neg hl, idx_farr _ _ (i+1) (show i + 1 < n by omega), Num.ofNat_def, Num.fin_mul, Num.fin_sub, Num.fin_div this]
  · show some (- idx (farr n G) 0) = _
    rw [idx_farr _ _ _ (by omega)]; rfl
  · intro i hi
    exact trailed_sum n G ρ hρ0 (n-1-i) i (by omega)
  · rw [Finset.range_eq_Ico, trailed_sum n G ρ hρ0 (n-1) 0 (by omega)]; ring

example : ∀ i : ℕ, 0 < i → i < 5 → ((i:ℝ) / 4) ≠ 0 := by
  intro i h _
  have : (0:ℝ) < i := by exact_mod_cast h
  positivity

/-! ### C31 -/

theorem discr_no_swirl_none (r G : List Num) (R U0 Ω nB : Num) (bt hi : Bool) (rc : Option (List Num)) (w : WakeVort)
    (h : wakeVorticityDiscr r G R U0 Ω nB false bt hi rc = .ok w) : w.gamma_l = none ∧ w.Gamma_r = none := by
  unfold wakeVorticityDiscr at h
  simp only [Bool.false_eq_true, if_false] at h
  repeat' split at h
  all_goals first | (have h := Except.ok.inj h; rw [← h]; exact ⟨rfl, rfl⟩) | (exact nomatch h)

theorem discr_swirl_some (r G : List Num) (R U0 Ω nB : Num) (bt hi : Bool) (rc : Option (List Num)) (w : WakeVort)
    (h : wakeVorticityDiscr r G R U0 Ω nB true bt hi rc = .ok w) :
    w.gamma_l.isSome ∧ w.Gamma_r = some (- (idx G 0 * nB)) := by
  unfold wakeVorticityDiscr at h
  simp only [if_true] at h
  repeat' split at h
  all_goals first | (have h := Except.ok.inj h; rw [← h]; exact ⟨rfl, rfl⟩) | (exact nomatch h)

/-- C31: the swirl switch of both interfaces: root and longitudinal vorticity are produced exactly
when the tip-speed ratio `ΩR/U0` is below 20, where an infinite `Ω` counts as 800 rad/s. -/
theorem C31_switch (minimize : (ℝ → Num) → ℝ) (r x : List Num) (R U0 : ℝ) (Ω : Num) (Ω' : ℝ) (hU : 0 < U0)
    (hΩ : Ω = .fin Ω' ∨ (Ω = .pinf ∧ Ω' = 800)) (w : WakeVort)
    (h : wakeVorticityFromCt minimize r x (.fin R) (.fin U0) Ω = .ok w ∨ wakeVorticityFromGamma r x (.fin R) (.fin U0) Ω = .ok w) :
    (20 ≤ Ω' * R / U0 → w.gamma_l = none ∧ w.Gamma_r = none) ∧
    (Ω' * R / U0 < 20 → w.gamma_l.isSome ∧ w.Gamma_r.isSome) := by
  have hc : capOmega Ω = .fin Ω' := by
    unfold capOmega
    rcases hΩ with h | ⟨h, h'⟩
    · rw [h, if_neg (by simp)]
    · rw [h, h', if_pos (by simp)]; rfl
  have hd : ∀ b : Bool, decide (capOmega Ω * Num.fin R / .fin U0 < 20) = b ↔ (decide (Ω' * R / U0 < 20) = b) := by
    intro b
    rw [hc, Num.fin_mul, Num.fin_div hU.ne', Num.ofNat_def]
    simp only [Num.lt_fin]
  constructor
  · intro h20
    have hb := (hd false).mpr (decide_eq_false (not_lt.mpr h20))
    rcases h with h | h
    · unfold wakeVorticityFromCt at h
      simp only [hb] at h
      exact discr_no_swirl_none _ _ _ _ _ _ _ _ _ _ h
    · unfold wakeVorticityFromGamma at h
      simp only [hb] at h
      exact discr_no_swirl_none _ _ _ _ _ _ _ _ _ _ h
  · intro h20
    have hb := (hd true).mpr (decide_eq_true h20)
    rcases h with h | h
    · unfold wakeVorticityFromCt at h
      simp only [hb] at h
      have := discr_swirl_some _ _ _ _ _ _ _ _ _ _ h
      exact ⟨this.1, by rw [this.2]; rfl⟩
    · unfold wakeVorticityFromGamma at h
      simp only [hb] at h
      have := discr_swirl_some _ _ _ _ _ _ _ _ _ _ h
      exact ⟨this.1, by rw [this.2]; rfl⟩

/-- C31, the part that holds: with an infinite tip-speed ratio there is no swirl if `R ≥ U0/40`.
Missing: rotors smaller than that, see `C31_refuted`. -/
theorem C31_infinite_partial (minimize : (ℝ → Num) → ℝ) (r x : List Num) (R U0 : ℝ) (hU : 0 < U0) (hR : U0 / 40 ≤ R) (w : WakeVort)
    (h : wakeVorticityFromCt minimize r x (.fin R) (.fin U0) .pinf = .ok w ∨ wakeVorticityFromGamma r x (.fin R) (.fin U0) .pinf = .ok w) :
    w.gamma_l = none ∧ w.Gamma_r = none := by
  refine (C31_switch minimize r x R U0 .pinf 800 hU (Or.inr ⟨rfl, rfl⟩) w h).1 ?_
  rw [le_div_iff₀ hU]
  linarith

/-- C31 refuted: a rotor of radius 0.1 in a wind of 10 with infinite tip-speed ratio gets a root
vortex (of strength `-Γ`). -/
theorem C31_refuted : ∃ (r G : List Num) (R U0 : ℝ) (w : WakeVort), 0 < R ∧ 0 < U0 ∧
    wakeVorticityFromGamma r G (.fin R) (.fin U0) .pinf = .ok w ∧ w.Gamma_r = some (.fin (-1)) := by
  have hc : capOmega .pinf = .fin 800 := by unfold capOmega; rw [if_pos (by simp)]; rfl
  obtain ⟨h, e, -⟩ := discr_eval_swirl 1 (fun _ => 0.09) (fun _ => 1) (rcyl 1 (fun _ => 0.09) 0.1) (.fin 0.1) 10 800 1 true true
    (by norm_num) (by norm_num) (by norm_num) (by intros; norm_num) (by intros; simp [rcyl]; norm_num)
    ⟨0, by norm_num, by intros; simp [rcyl]; norm_num⟩ (by simp)
  rw [← discr_default _ _ _ _ _ _ _ _ _ _ (by norm_num)] at e
  refine ⟨farr 1 fun _ => 0.09, farr 1 fun _ => 1, 0.1, 10, _, by norm_num, by norm_num, Eq.trans ?_ e, ?_⟩
  · unfold wakeVorticityFromGamma
    have hb : decide (Num.fin 800 * Num.fin 0.1 / Num.fin 10 < 20) = true := by
      rw [Num.fin_mul, Num.fin_div (by norm_num), Num.ofNat_def]
      simp only [Num.lt_fin]
      exact decide_eq_true (by norm_num)
    simp only [hc, hb]
    rfl
  · simp

/-! ### C33 -/

/-- C33: with swirl the tangential inductions of the discrete and of the continuous solver are the
same array, `Γ/(4πΩr²)`, for every distribution. -/
theorem C33_agree (n : ℕ) (r G c : ℕ → ℝ) (R : Num) (U0 Ω : ℝ) (bTan bHigh : Bool)
    (hn : 0 < n) (hU : U0 ≠ 0) (hΩ : Ω ≠ 0) (hr : ∀ i < n, r i ≠ 0) (hc : ∀ i < n, c i ≠ 0)
    (henc : ∃ i < n, ∀ j < n, r j ≤ c i) :
    ∃ w, wakeVorticityDiscr (farr n r) (farr n G) R (.fin U0) (.fin Ω) (.fin 1) true bTan true (some (farr n c)) = .ok w ∧
      w.misc.a_prime = (wakeVorticityCont (farr n r) (farr n G) R (.fin U0) (.fin Ω) true bHigh).ind.a_prime ∧
      w.misc.a_prime = farr n fun i => G i / (4 * π * Ω * r i^2) := by
  obtain ⟨h, e, -⟩ := discr_eval_swirl n r G c R U0 Ω 1 bTan true hn hU hΩ hr hc henc (by simp)
  have h1 : (farr n fun i => 1 * G i / (4 * π * Ω * r i^2)) = farr n fun i => G i / (4 * π * Ω * r i^2) := by
    apply arr_congr; intro i _; simp only [one_mul]
  refine ⟨_, e, ?_, h1⟩
  show (farr n fun i => 1 * G i / (4 * π * Ω * r i^2)) = _
  rw [h1]
  unfold wakeVorticityCont inductionsCont
  have hl : (farr n r).map (fun x => Num.fin Ω * x / .fin U0) = farr n fun i => Ω * r i / U0 := by
    unfold farr arr
    rw [List.map_map]
    apply List.map_congr_left
    intro i _
    simp only [Function.comp_def, Num.fin_mul, Num.fin_div hU]
  simp only [contSafety_nz _ n r (hr 0 hn), hl, contSafety_nz _ n (fun i => Ω * r i / U0)
    (by have := hr 0 hn; positivity), if_true, List.length_map, farr_length]
  apply arr_congr
  intro i hi
  have hk : idx ((farr n G).map fun g => Num.fin Ω * g / (.fin π * (.fin U0)^2)) i = .fin (Ω * G i / (π * U0^2)) := by
    have : π * U0^2 ≠ 0 := by positivity
    unfold idx farr arr
    rw [List.map_map]
    simp only [List.getD_eq_getElem?_getD, List.getElem?_map, List.getElem?_range hi, Option.map_some, Option.getD_some,
      Function.comp_def, Num.fin_mul, Num.fin_pow, Num.fin_div this]
  rw [hk, idx_farr _ _ _ hi]
  have hri := hr i hi
  have : 4 * (Ω * r i / U0)^2 ≠ 0 := by positivity
  simp only [Num.ofNat_def, Num.fin_mul, Num.fin_pow, Num.fin_div this, Num.fin_inj]
  have := Real.pi_ne_zero
  field_simp

/-! ### C34 -/

/-- C34 (solver part): one station at radius `r0 ≤ R`, tip-speed ratio at least 20 (no swirl).
Below the high-thrust limit the intensity is `-U0(1-√(1-Ct(1+a'_c)))` (`nan` if the radicand is
negative), above it `-2 U0 a(Ct)`; it is never positive for `Ct ≥ 0`. -/
theorem C34_single (minimize : (ℝ → Num) → ℝ) (r0 Ct R U0 Ω : ℝ) (hr : r0 ≤ R) (hR : 0 < R) (hU : 0 < U0) (hΩ : 0 < Ω)
    (hL : 20 ≤ Ω * R / U0) (apc : ℝ) (hap : apc = Ct * π * U0^2 / Ω / (4 * π * Ω * R)^2) :
    ∃ w, wakeVorticityFromCt minimize [.fin r0] [.fin Ct] (.fin R) (.fin U0) (.fin Ω) = .ok w ∧
      (Ct ≤ Ctc → 0 ≤ 1 - Ct * (1 + apc) → w.gamma_t = [.fin (-U0 * (1 - √(1 - Ct * (1 + apc))))]) ∧
      (Ct ≤ Ctc → 1 - Ct * (1 + apc) < 0 → w.gamma_t = [.nan]) ∧
      (Ctc < Ct → w.gamma_t = [.fin (-2 * U0 * aOfCt Ct)]) ∧
      (0 ≤ Ct → ∀ g : ℝ, w.gamma_t = [.fin g] → g ≤ 0) := by
  have hπ := Real.pi_pos
  have e0 : wakeVorticityFromCt minimize [.fin r0] [.fin Ct] (.fin R) (.fin U0) (.fin Ω) =
      wakeVorticityDiscr (farr 1 fun _ => r0) (farr 1 fun _ => Ct * π * U0^2 / Ω) (.fin R) (.fin U0) (.fin Ω) (.fin 1) false true true
        (some (farr 1 fun _ => R)) := by
    have hc : capOmega (.fin Ω) = .fin Ω := by unfold capOmega; rw [if_neg (by simp)]
    have hb : decide (Num.fin Ω * Num.fin R / Num.fin U0 < 20) = false := by
      rw [Num.fin_mul, Num.fin_div hU.ne', Num.ofNat_def]
      simp only [Num.lt_fin]
      exact decide_eq_false (not_lt.mpr hL)
    unfold wakeVorticityFromCt
    simp only [hc, hb, C26_no_swirl]
    have := discr_default 1 (fun _ => r0) (farr 1 fun _ => Ct * π * U0^2 / Ω) R (.fin U0) (.fin Ω) (.fin 1) false true true (by norm_num)
    have hrc : rcyl 1 (fun _ => r0) R = fun _ => R := by funext i; simp [rcyl]
    rw [hrc] at this
    rw [← this]
    have h1 : [Num.fin r0] = farr 1 fun _ => r0 := rfl
    have h2 : [Num.fin Ct].map (fun k => k * Num.fin π * (Num.fin U0)^2 / Num.fin Ω) = farr 1 fun _ => Ct * π * U0^2 / Ω := by
      simp only [List.map_cons, List.map_nil, Num.fin_mul, Num.fin_pow, Num.fin_div hΩ.ne']
      rfl
    rw [h1, h2]
    rfl
  have hk : kOf (1 * (Ct * π * U0^2 / Ω)) U0 Ω = Ct := by
    unfold kOf; field_simp
  have hapc : apOpt true 1 (fun _ => 1 * (Ct * π * U0^2 / Ω)) (fun _ => R) Ω 0 = apc := by
    rw [hap]; unfold apOpt apConv; simp
  have hev := discr_eval 1 (fun _ => r0) (fun _ => Ct * π * U0^2 / Ω) (fun _ => R) (.fin R) U0 Ω 1 false true true
    (by norm_num) hU.ne' hΩ.ne' (fun _ _ => hR.ne') ⟨0, by norm_num, fun _ _ => hr⟩
  rw [e0, hev]
  refine ⟨_, rfl, ?_⟩
  simp only [Bool.false_eq_true, if_false]
  have hloop : ∀ (ap : ℕ → ℝ) (l : ℕ → Num), (discrLoop 1 (fun _ => .fin Ct) (fun i => .fin (ap i)) (fun i => .fin (Ct * (1 + ap i))) l false true).gamma_t_bar 0 =
      if Ctc < Ct then .fin (-2 * aOfCt Ct) else .fin (-1) + Num.sqrt (.fin (1 - Ct * (1 + ap 0))) := by
    intro ap l
    have : (discrLoop 1 (fun _ => Num.fin Ct) (fun i => .fin (ap i)) (fun i => .fin (Ct * (1 + ap i))) l false true) =
      discrStep 1 (fun _ => Num.fin Ct) (fun i => .fin (ap i)) (fun i => .fin (Ct * (1 + ap i))) l false true dZeros 0 := rfl
    rw [this]
    have h0 : (Num.fin Ct - 0 : Num) = .fin Ct := by simp
    unfold discrStep
    simp only [upd, if_true, Bool.false_eq_true, not_false_eq_true, if_false, h0, ctcN_fin, Num.lt_fin, Nat.sub_self]
    by_cases hct : Ctc < Ct
    · rw [if_pos hct, if_pos hct, spera_fin]
      unfold aOfCt
      rw [if_neg (not_le.mpr hct)]
      simp only [Num.ofNat_def, Num.one_def, Num.fin_mul, Num.fin_sub, Num.fin_neg, Num.fin_add]
      congr 1; ring
    · rw [if_neg hct, if_neg hct]
      simp only [Num.one_def, Num.fin_sub, Num.fin_neg]
  have harr : ∀ f : ℕ → Num, arr 1 f = [f 0] := fun f => rfl
  simp only [hk, harr]
  rw [hloop, hapc]
  have key : 0 ≤ 1 - Ct * (1 + apc) → (Num.fin (-1) + Num.sqrt (.fin (1 - Ct * (1 + apc)))) * .fin U0 =
      .fin (-U0 * (1 - √(1 - Ct * (1 + apc)))) := by
    intro h
    rw [Num.sqrt_fin h, Num.fin_add, Num.fin_mul]; congr 1; ring
  refine ⟨?_, ?_, ?_, ?_⟩
  · intro h1 h2
    rw [if_neg (not_lt.mpr h1), key h2]
  · intro h1 h2
    rw [if_neg (not_lt.mpr h1), Num.sqrt_fin_neg h2, Num.add_nan, Num.nan_mul]
  · intro h1
    rw [if_pos h1, Num.fin_mul]; congr 2; ring
  · intro h0 g hg
    by_cases h1 : Ctc < Ct
    · rw [if_pos h1, Num.fin_mul] at hg
      simp only [List.cons.injEq, Num.fin_inj, and_true] at hg
      have := C29_monotone_continuous.2.1.monotone h0
      rw [C29_monotone_continuous.2.2.1] at this
      nlinarith
    · rw [if_neg h1] at hg
      by_cases h2 : 0 ≤ 1 - Ct * (1 + apc)
      · rw [key h2] at hg
        simp only [List.cons.injEq, Num.fin_inj, and_true] at hg
        have h3 : √(1 - Ct * (1 + apc)) ≤ 1 := by
          rw [Real.sqrt_le_one]
          have : 0 ≤ apc := by rw [hap]; positivity
          have : 0 ≤ Ct * (1 + apc) := by positivity
          linarith
        nlinarith
      · rw [Num.sqrt_fin_neg (not_le.mp h2), Num.add_nan, Num.nan_mul] at hg
        simp at hg

example : ((0.995:ℝ) * 50 ≤ 50) ∧ (20:ℝ) ≤ 5 * 50 / 10 := by norm_num

/-! ### C35 -/

/-- C35: change of units (lengths times `s`, times times `t`), with swirl: same inductions, and
intensities and circulations scale as their dimensions require. -/
theorem C35_units_swirl (n : ℕ) (r G c : ℕ → ℝ) (R : Num) (U0 Ω nB s t : ℝ) (R' : Num) (bTan : Bool)
    (hs : 0 < s) (ht : 0 < t) (hn : 0 < n) (hU : U0 ≠ 0) (hΩ : Ω ≠ 0) (hr : ∀ i < n, r i ≠ 0) (hc : ∀ i < n, c i ≠ 0)
    (henc : ∃ i < n, ∀ j < n, r j ≤ c i) :
    ∃ w w', wakeVorticityDiscr (farr n r) (farr n G) R (.fin U0) (.fin Ω) (.fin nB) true bTan true (some (farr n c)) = .ok w ∧
      wakeVorticityDiscr (farr n fun i => s * r i) (farr n fun i => s^2/t * G i) R' (.fin (s/t * U0)) (.fin (Ω/t)) (.fin nB) true bTan true
        (some (farr n fun i => s * c i)) = .ok w' ∧
      w'.misc.a = w.misc.a ∧ w'.misc.a_prime = w.misc.a_prime ∧
      ∃ (γt γl : ℕ → ℝ) (Γr : ℝ), w.gamma_t = farr n γt ∧ w'.gamma_t = (farr n fun i => s/t * γt i) ∧
        w.gamma_l = some (farr n γl) ∧ w'.gamma_l = some (farr n fun i => s/t * γl i) ∧
        w.Gamma_r = some (.fin Γr) ∧ w'.Gamma_r = some (.fin (s^2/t * Γr)) := by
  obtain ⟨h, e, -⟩ := discr_eval_swirl n r G c R U0 Ω nB bTan true hn hU hΩ hr hc henc (by simp)
  obtain ⟨h', e', -⟩ := discr_eval_swirl n (fun i => s * r i) (fun i => s^2/t * G i) (fun i => s * c i) R' (s/t * U0) (Ω/t) nB bTan true hn
    (by positivity) (by positivity) (fun i hi => by have := hr i hi; positivity) (fun i hi => by have := hc i hi; positivity)
    (by
      obtain ⟨i, hi, h⟩ := henc
      exact ⟨i, hi, fun j hj => mul_le_mul_of_nonneg_left (h j hj) hs.le⟩) (by simp)
  have hπ := Real.pi_ne_zero
  have hk : (fun i => kOf (nB * (s^2/t * G i)) (s/t * U0) (Ω/t)) = fun i => kOf (nB * G i) U0 Ω := by
    funext i; unfold kOf; field_simp
  have hl : (fun i => Ω / t * (s * c i) / (s/t * U0)) = fun i => Ω * c i / U0 := by
    funext i; field_simp
  rw [hk, hl] at e'
  refine ⟨_, _, e, e', rfl, ?_, _, _, _, rfl, ?_, rfl, ?_, rfl, ?_⟩
  · apply arr_congr
    intro i hi
    have := hr i hi
    simp only [Num.fin_inj]
    field_simp
  · apply arr_congr
    intro i hi
    simp only [Num.fin_inj]
    ring
  · simp only [Option.some.injEq]
    apply arr_congr
    intro i hi
    have := hr i hi
    simp only [Num.fin_inj]
    by_cases hl : i = n - 1
    · simp only [if_pos hl]; field_simp; ring
    · simp only [if_neg hl]; field_simp
  · simp only [Option.some.injEq, Num.fin_inj]; ring

/-- C35 refuted without swirl: a change of the unit of time alone changes the inductions (a single
cylinder with `k=1/2`). -/
theorem C35_no_swirl_refuted : ∃ (r G c : ℕ → ℝ) (U0 Ω t : ℝ) (w w' : WakeVort), 0 < t ∧
    wakeVorticityDiscr (farr 1 r) (farr 1 G) (.fin 1) (.fin U0) (.fin Ω) (.fin 1) false true true (some (farr 1 c)) = .ok w ∧
    wakeVorticityDiscr (farr 1 r) (farr 1 fun i => 1/t * G i) (.fin 1) (.fin (1/t * U0)) (.fin (Ω/t)) (.fin 1) false true true
      (some (farr 1 c)) = .ok w' ∧ w'.misc.a ≠ w.misc.a := by
  have hπ := Real.pi_pos
  have hπ3 := Real.pi_gt_three
  have ev : ∀ t : ℝ, 0 < t → t ≤ 2 → ∃ w, wakeVorticityDiscr (farr 1 fun _ => 1/2) (farr 1 fun _ => 1/t * (π/2)) (.fin 1) (.fin (1/t * 1)) (.fin (1/t))
      (.fin 1) false true true (some (farr 1 fun _ => 1)) = .ok w ∧
      w.misc.a = farr 1 fun _ => (1 - √(1 - 1/2 * (1 + t / (32 * π)))) / 2 := by
    intro t ht ht2
    have hk : kOf (1 * (1/t * (π/2))) (1/t * 1) (1/t) = 1/2 := by
      unfold kOf; field_simp
    have ha : apOpt true 1 (fun _ => 1 * (1/t * (π/2))) (fun _ => 1) (1/t) 0 = t / (32 * π) := by
      unfold apOpt apConv; simp; field_simp; ring
    have hrad : 0 ≤ 1 - 1/2 * (1 + t / (32 * π)) := by
      have : t / (32 * π) ≤ 1 := by rw [div_le_one (by positivity)]; linarith
      linarith
    obtain ⟨h, e, -⟩ := discr_eval_noswirl 1 (fun _ => 1/2) (fun _ => 1/t * (π/2)) (fun _ => 1)
      (fun i => if i = 0 then √(1 - 1/2 * (1 + t / (32 * π))) else 1) (.fin 1) (1/t * 1) (1/t) 1 true true (by norm_num) (by positivity)
      (by positivity) (by simp) ⟨0, by norm_num, by intros; norm_num⟩ (by simp) (by
        intro i hi
        have : i = 0 := by omega
        subst this
        rw [hk, ha]
        refine ⟨fun h => absurd h.2 (not_lt.mpr (by unfold Ctc ac; norm_num)), fun _ => ?_⟩
        simpa using hrad)
    refine ⟨_, e, ?_⟩
    apply arr_congr
    intro i hi
    have : i = 0 := by omega
    subst this
    simp
  obtain ⟨w, e1, a1⟩ := ev 1 (by norm_num) (by norm_num)
  obtain ⟨w', e2, a2⟩ := ev 2 (by norm_num) (by norm_num)
  refine ⟨fun _ => 1/2, fun _ => π/2, fun _ => 1, 1, 1, 2, w, w', by norm_num, ?_, e2, ?_⟩
  · simpa using e1
  · rw [a1, a2]
    intro h
    have h := congrArg (fun l => idx l 0) h
    simp only [idx_farr _ _ _ (show 0 < 1 by norm_num), Num.fin_inj] at h
    have h32 : 2 / (32 * π) < 1 := by rw [div_lt_one (by positivity)]; linarith
    have h12 : 1 / (32 * π) < 2 / (32 * π) := div_lt_div_of_pos_right (by norm_num) (by positivity)
    have := Real.sqrt_lt_sqrt (show 0 ≤ 1 - 1/2 * (1 + 2 / (32 * π)) by linarith)
      (show 1 - 1/2 * (1 + 2 / (32 * π)) < 1 - 1/2 * (1 + 1 / (32 * π)) by linarith)
    linarith

/-- C35, the part that holds without swirl: changing the unit of length alone (`t=1`) leaves the
whole wake recursion unchanged: any solution `q` for the original rotor is the answer for both. -/
theorem C35_lengths_no_swirl_partial (n : ℕ) (r G c q : ℕ → ℝ) (R R' : Num) (U0 Ω nB s : ℝ) (hs : 0 < s) (hn : 0 < n) (hU : U0 ≠ 0) (hΩ : Ω ≠ 0)
    (hc : ∀ i < n, c i ≠ 0) (henc : ∃ i < n, ∀ j < n, r j ≤ c i)
    (k ap : ℕ → ℝ) (hk : ∀ i < n, k i = nB * G i * Ω / (π * U0^2)) (hkn : k n = 0)
    (hap : ∀ i < n, ap i = (nB * G i + (if i = n - 1 then 0 else nB * G (i+1))) / (4 * π * Ω * c i)^2)
    (hqn : q n = 1)
    (hq : ∀ i < n, if Ctc < k i then q i = 1 - 2 * aOfCt (k i)
      else 0 ≤ q (i+1)^2 - (k i - k (i+1)) * (1 + ap i) ∧ q i = √(q (i+1)^2 - (k i - k (i+1)) * (1 + ap i))) :
    ∃ w w', wakeVorticityDiscr (farr n r) (farr n G) R (.fin U0) (.fin Ω) (.fin nB) false true true (some (farr n c)) = .ok w ∧
      wakeVorticityDiscr (farr n fun i => s * r i) (farr n fun i => s^2 * G i) R' (.fin (s * U0)) (.fin Ω) (.fin nB) false true true
        (some (farr n fun i => s * c i)) = .ok w' ∧
      w'.misc.a = w.misc.a ∧ w.gamma_t = farr n (fun i => U0 * (q i - q (i+1))) ∧
      w'.gamma_t = farr n (fun i => s * U0 * (q i - q (i+1))) := by
  obtain ⟨w, e, a, g⟩ := C28_recursion n r G c q R U0 Ω nB hn hU hΩ hc henc k ap hk hkn hap hqn hq
  have hπ := Real.pi_ne_zero
  obtain ⟨w', e', a', g'⟩ := C28_recursion n (fun i => s * r i) (fun i => s^2 * G i) (fun i => s * c i) q R' (s * U0) Ω nB hn (by positivity) hΩ
    (fun i hi => by have := hc i hi; positivity)
    (by
      obtain ⟨i, hi, h⟩ := henc
      exact ⟨i, hi, fun j hj => mul_le_mul_of_nonneg_left (h j hj) hs.le⟩)
    k ap (by intro i hi; rw [hk i hi]; field_simp) hkn
    (by
      intro i hi
      rw [hap i hi]
      have := hc i hi
      by_cases hl : i = n - 1
      · simp only [if_pos hl]; field_simp; ring
      · simp only [if_neg hl]; field_simp)
    hqn hq
  exact ⟨w, w', e, e', by rw [a, a'], g, g'⟩

end Wiz
