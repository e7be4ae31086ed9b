import Verif.Props.Solver
/-! C108: the pitch of the helical vortex sheets and their tangential intensity (discrete solver).

A sheet trailed by the jump of circulation `Γ_i-Γ_{i+1}` and wound with pitch `h_i` has the tangential intensity
`γ_t,i = -(Γ_i-Γ_{i+1})/h_i`.  The code has this line commented out (wiz/Solver.py:274) and returns the intensity of the
recursion instead. -/
namespace Wiz
open Spec Real Classical Finset

/-- C108, the part that holds: without swirl, while no station triggers the high-thrust correction, the intensities returned
are those of helices of the pitch returned, for any number of cylinders and with or without tangential convection. -/
theorem C108_no_swirl_partial (n : ℕ) (r G c : ℕ → ℝ) (R : Num) (U0 Ω nB : ℝ) (bTan : Bool) (hn : 0 < n) (hU : U0 ≠ 0) (hΩ : Ω ≠ 0)
    (hc : ∀ i < n, c i ≠ 0) (henc : ∃ i < n, ∀ j < n, r j ≤ c i)
    (k ap : ℕ → ℝ) (hk : ∀ i < n, k i = nB * G i * Ω / (π * U0^2)) (hkn : k n = 0)
    (hap : ∀ i < n, ap i = if bTan then (nB * G i + (if i = n - 1 then 0 else nB * G (i+1))) / (4 * π * Ω * c i)^2 else 0)
    (hap0 : ∀ i < n, 1 + ap i ≠ 0)
    (hlow : ∀ i < n, k i ≤ Ctc)
    (hrad : ∀ i < n, 0 ≤ 1 - ∑ j ∈ Ico i n, (k j - k (j+1)) * (1 + ap j)) :
    ∃ w, wakeVorticityDiscr (farr n r) (farr n G) R (.fin U0) (.fin Ω) (.fin nB) false bTan true (some (farr n c)) = .ok w ∧
      ∃ γ h : ℕ → ℝ, w.gamma_t = farr n γ ∧ w.misc.h = farr n h ∧ ∀ i < n,
        γ i * h i = -(nB * G i - (if i = n - 1 then 0 else nB * G (i+1))) := by
  let q : ℕ → ℝ := fun i => √(1 - ∑ j ∈ Ico i n, (k j - k (j+1)) * (1 + ap j))
  have hqn : q n = 1 := by simp [q]
  have hrad' : ∀ i, 0 ≤ 1 - ∑ j ∈ Ico i n, (k j - k (j+1)) * (1 + ap j) := by
    intro i
    rcases Nat.lt_or_ge i n with h | h
    · exact hrad i h
    · rw [Finset.Ico_eq_empty (by omega)]; simp
  have hki : ∀ i < n, k i = kOf (nB * G i) U0 Ω := hk
  have hki' : ∀ i < n, k (i+1) = if i = n - 1 then 0 else kOf (nB * G (i+1)) U0 Ω := by
    intro i hi
    by_cases hl : i = n - 1
    · rw [if_pos hl, show i + 1 = n by omega, hkn]
    · rw [if_neg hl]; exact hk (i+1) (by omega)
  have hai : ∀ i < n, ap i = apOpt bTan n (fun i => nB * G i) c Ω i := by
    intro i hi
    rw [hap i hi]; rfl
  have hs : ∀ i < n, q (i+1)^2 - (k i - k (i+1)) * (1 + ap i) = 1 - ∑ j ∈ Ico i n, (k j - k (j+1)) * (1 + ap j) := by
    intro i hi
    show √(1 - ∑ j ∈ Ico (i+1) n, (k j - k (j+1)) * (1 + ap j))^2 - _ = _
    rw [Real.sq_sqrt (hrad' (i+1)), Finset.sum_eq_sum_Ico_succ_bot hi]; ring
  obtain ⟨h, e, eh⟩ := discr_eval_noswirl n r G c q R U0 Ω nB bTan true hn hU hΩ hc henc hqn (by
    intro i hi
    rw [← hki i hi, ← hki' i hi, ← hai i hi]
    refine ⟨fun h' => absurd h'.2 (not_lt.mpr (hlow i hi)), fun _ => ?_⟩
    rw [hs i hi]
    exact ⟨hrad i hi, rfl⟩)
  refine ⟨_, e, _, fun i => 2 * π * (U0 * ((q i + q (i+1)) / 2)) / (Ω * (1 + ap i)), rfl, ?_, ?_⟩
  · apply arr_congr
    intro i hi
    rw [eh i hi, ← hai i hi, Num.fin_div (mul_ne_zero hΩ (hap0 i hi))]
  · intro i hi
    have hq2 : q i^2 = q (i+1)^2 - (k i - k (i+1)) * (1 + ap i) := by
      rw [hs i hi]; exact Real.sq_sqrt (hrad i hi)
    have hk1 : nB * G i = k i * π * U0^2/Ω := by
      rw [hk i hi]; have := pi_ne_zero; field_simp
    have hk2 : (if i = n - 1 then 0 else nB * G (i+1)) = k (i+1) * π * U0^2/Ω := by
      rw [hki' i hi]
      unfold kOf
      have := pi_ne_zero
      by_cases hl : i = n - 1
      · rw [if_pos hl, if_pos hl]; ring
      · rw [if_neg hl, if_neg hl]; field_simp
    rw [hk2, hk1]
    have h0 := hap0 i hi
    beta_reduce
    generalize q i = a at *
    generalize q (i+1) = b at *
    generalize ap i = α at *
    generalize k (i+1) = κ' at *
    generalize k i = κ at *
    have : (a - b) * (a + b) = -((κ - κ') * (1+α)) := by linarith
    calc U0 * (a - b) * (2 * π * (U0 * ((a+b)/2))/(Ω * (1+α))) = π * U0^2/(Ω * (1+α)) * ((a-b)*(a+b)) := by field_simp
      _ = _ := by rw [this]; field_simp

/-- C108 with swirl, what the intensities satisfy instead: with `Ct_i` the effective thrust coefficient of the stations (`0`
outside the rotor), `γ_t h = -(π U0²/Ω)(Ct_i - Ct_{i+1})/(1+a'_c,i)`. -/
theorem C108_swirl (n : ℕ) (r G c : ℕ → ℝ) (R : Num) (U0 Ω nB : ℝ) (bTan : Bool)
    (hn : 0 < n) (hU : U0 ≠ 0) (hΩ : Ω ≠ 0) (hr : ∀ i < n, r i ≠ 0) (hc : ∀ i < n, c i ≠ 0)
    (henc : ∃ i < n, ∀ j < n, r j ≤ c i) (Ct ap : ℕ → ℝ)
    (hCt : ∀ i < n, Ct i = ctEff n (fun j => nB * G j * Ω / (π * U0^2)) (fun j => Ω * c j / U0) i) (hCtn : Ct n = 0)
    (hap : ∀ i < n, ap i = if bTan then (nB * G i + (if i = n - 1 then 0 else nB * G (i+1))) / (4 * π * Ω * c i)^2 else 0)
    (hap0 : ∀ i < n, 1 + ap i ≠ 0) (hlow : ∀ i < n, Ct i ≤ Ctc) :
    ∃ w, wakeVorticityDiscr (farr n r) (farr n G) R (.fin U0) (.fin Ω) (.fin nB) true bTan true (some (farr n c)) = .ok w ∧
      ∃ γ h : ℕ → ℝ, w.gamma_t = farr n γ ∧ w.misc.h = farr n h ∧ ∀ i < n,
        γ i * h i = -(π * U0^2/Ω * (Ct i - Ct (i+1))/(1 + ap i)) := by
  obtain ⟨h, e, eh⟩ := discr_eval_swirl n r G c R U0 Ω nB bTan true hn hU hΩ hr hc henc (by simp)
  have hA : ∀ i < n, aOfCt (ctEff n (fun i => kOf (nB * G i) U0 Ω) (fun i => Ω * c i / U0) i) = (1 - √(1 - Ct i))/2 := by
    intro i hi
    have e1 : ctEff n (fun i => kOf (nB * G i) U0 Ω) (fun i => Ω * c i / U0) i = Ct i := (hCt i hi).symm
    rw [e1]
    unfold aOfCt
    rw [if_pos (hlow i hi)]
  have hA' : ∀ i < n, (if i = n - 1 then 0 else aOfCt (ctEff n (fun i => kOf (nB * G i) U0 Ω) (fun i => Ω * c i / U0) (i+1))) = (1 - √(1 - Ct (i+1)))/2 := by
    intro i hi
    by_cases hl : i = n - 1
    · rw [if_pos hl, show i + 1 = n by omega, hCtn]; simp
    · rw [if_neg hl, hA (i+1) (by omega)]
  have hai : ∀ i < n, ap i = apOpt bTan n (fun i => nB * G i) c Ω i := by
    intro i hi
    rw [hap i hi]; rfl
  have h1 : ∀ i ≤ n, 0 ≤ 1 - Ct i := by
    intro i hi
    rcases Nat.lt_or_ge i n with h | h
    · have := hlow i h; have := Ctc_lt_one; linarith
    · rw [show i = n by omega, hCtn]; norm_num
  refine ⟨_, e, fun i => U0 * (√(1 - Ct i) - √(1 - Ct (i+1))),
    fun i => 2 * π * (U0 * ((√(1 - Ct i) + √(1 - Ct (i+1)))/2))/(Ω * (1 + ap i)), ?_, ?_, ?_⟩
  · apply arr_congr
    intro i hi
    simp only [Num.fin_inj]
    rw [hA i hi, hA' i hi]; ring
  · apply arr_congr
    intro i hi
    rw [eh i hi, ← hai i hi, Num.fin_div (mul_ne_zero hΩ (hap0 i hi)), hA i hi, hA' i hi]
    congr 2
    ring
  · intro i hi
    have q1 := Real.sq_sqrt (h1 i hi.le)
    have q2 := Real.sq_sqrt (h1 (i+1) hi)
    have h0 := hap0 i hi
    simp only
    generalize √(1 - Ct i) = a at *
    generalize √(1 - Ct (i+1)) = b at *
    have h3 : Ct i - Ct (i+1) = -((a-b)*(a+b)) := by linarith
    rw [h3]
    field_simp

/-- C108 refuted with swirl: one cylinder of radius 1 with `k=1/2` at `Ω=U0=1`. -/
theorem C108_swirl_refuted : ∃ (w : WakeVort) (γ h : ℝ),
    wakeVorticityDiscr [.fin (1/2)] [.fin (π/2)] (.fin 1) (.fin 1) (.fin 1) (.fin 1) true true true none = .ok w ∧
      w.gamma_t = [.fin γ] ∧ w.misc.h = [.fin h] ∧ γ * h ≠ -(π/2) := by
  have hpi := pi_pos
  have hpi3 := pi_gt_three
  have e9 : ctEff 1 (fun _ => 1 * (π/2) * 1/(π * 1^2)) (fun _ => 1 * 1/1) 0 = 9/16 := by
    unfold ctEff ctKJ ctRot
    simp only [show Ico (0+1) (1-1) = (∅ : Finset ℕ) from rfl, Finset.sum_empty]
    field_simp
    norm_num
  obtain ⟨w, e, γ, h, e1, e2, e3⟩ := C108_swirl 1 (fun _ => 1/2) (fun _ => π/2) (fun _ => 1) (.fin 1) 1 1 1 true (by norm_num) (by norm_num)
    (by norm_num) (by intros; norm_num) (by intros; norm_num) ⟨0, by norm_num, by intros; norm_num⟩ (fun i => if i = 0 then 9/16 else 0)
    (fun _ => 1/(32*π)) (by
      intro i hi
      have : i = 0 := by omega
      subst this
      rw [if_pos rfl]; exact e9.symm) (by simp) (by
      intro i hi
      have : i = 0 := by omega
      subst this
      simp only [if_pos]
      field_simp
      norm_num
      ring) (by intros; positivity) (by
      intro i hi
      have : i = 0 := by omega
      subst this
      rw [if_pos rfl]; unfold Ctc ac; norm_num)
  have ed := discr_default 1 (fun _ => 1/2) (farr 1 fun _ => π/2) 1 (.fin 1) (.fin 1) (.fin 1) true true true (by norm_num)
  have hrc : rcyl 1 (fun _ => (1/2 : ℝ)) 1 = fun _ => 1 := by funext i; simp [rcyl]
  rw [hrc] at ed
  refine ⟨w, γ 0, h 0, ?_, e1, e2, ?_⟩
  · exact ed.trans e
  · rw [e3 0 (by norm_num)]
    simp only [if_pos]
    norm_num
    intro h
    field_simp at h
    nlinarith

/-- two equally loaded cylinders meet the hypotheses of `C108_no_swirl_partial` on the load -/
example : ∃ k ap : ℕ → ℝ, k 2 = 0 ∧ (∀ i < 2, 0 < k i ∧ k i ≤ Ctc ∧ 0 < ap i) ∧
    ∀ i < 2, 0 ≤ 1 - ∑ j ∈ Ico i 2, (k j - k (j+1)) * (1 + ap j) := by
  refine ⟨fun i => if i < 2 then 1/2 else 0, fun _ => 1/10, by simp, ?_, ?_⟩
  · intro i hi
    simp only [if_pos hi]; unfold Ctc ac; norm_num
  · intro i hi
    rcases (show i = 0 ∨ i = 1 by omega) with rfl | rfl
    · rw [show Ico 0 2 = {0, 1} from rfl]; norm_num
    · rw [show Ico 1 2 = {1} from rfl]; norm_num
end Wiz
