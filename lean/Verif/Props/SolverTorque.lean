import Verif.Props.SolverCont
/-! C109: a prescribed torque coefficient in the continuous formulation. -/
namespace Wiz
open Spec Real Classical

/-- C109: with a torque coefficient the axial induction and the thrust coefficients are those computed without it; at every
station where the axial induction is a number other than one, the tangential induction balances the torque,
`4 a'(1-a) λ = Cq`, the circulation reported is `k_Cq = Cq λ/(1-a)`, and when `Cq` is the torque `k(1-a)/λ` of the circulation
itself the reported circulation is `k` and the tangential induction is the `k/(4λ²)` of the swirling wake. -/
theorem C109_torque (n : ℕ) (vr : List Num) (lam k q : ℕ → ℝ) (sw hi : Bool) (hlam : ∀ i < n, lam i ≠ 0) :
    let c := inductionsContCq vr (farr n lam) (farr n k) sw hi none
    let d := inductionsContCq vr (farr n lam) (farr n k) sw hi (some (farr n q))
    c.2 = none ∧ d.1.a = c.1.a ∧ d.1.Ct_KJ = c.1.Ct_KJ ∧ d.1.Ct_eff = c.1.Ct_eff ∧ d.1.Ct_rot = c.1.Ct_rot ∧
      ∃ k2, d.2 = some k2 ∧ k2.length = n ∧ d.1.a_prime.length = n ∧
      ∀ i < n, ∀ a : ℝ, idx c.1.a i = .fin a → a ≠ 1 → ∃ a' κ : ℝ, idx d.1.a_prime i = .fin a' ∧ idx k2 i = .fin κ ∧
        4 * a' * (1 - a) * lam i = q i ∧ κ * (1 - a) = q i * lam i ∧
        (q i = k i * (1 - a)/lam i → κ = k i ∧ a' = k i/(4 * lam i^2)) := by
  intro c d
  refine ⟨rfl, rfl, rfl, rfl, rfl, _, rfl, ?_, ?_, ?_⟩
  · simp [arr, farr]
  · simp [d, inductionsContCq, arr, farr]
  · intro i hi' a ha h1
    have hl := hlam i hi'
    have h2 : 1 - a ≠ 0 := sub_ne_zero.mpr (Ne.symm h1)
    have ha' : idx (inductionsCont vr (farr n lam) (farr n k) sw hi).a i = .fin a := ha
    have hk2 : idx (arr n fun i => idx (farr n q) i * idx (farr n lam) i / (1 - idx (inductionsCont vr (farr n lam) (farr n k) sw hi).a i)) i =
        .fin (q i * lam i/(1-a)) := by
      rw [idx_arr _ _ _ hi', ha', idx_farr _ _ _ hi', idx_farr _ _ _ hi']
      simp only [Num.one_def, Num.fin_mul, Num.fin_sub, Num.fin_div h2]
    refine ⟨q i * lam i/(1-a)/(4 * lam i^2), q i * lam i/(1-a), ?_, ?_, ?_, ?_, ?_⟩
    · show idx (arr (farr n k).length fun i => idx (arr (farr n k).length fun i => idx (farr n q) i * idx (farr n lam) i /
        (1 - idx (inductionsCont vr (farr n lam) (farr n k) sw hi).a i)) i / (4 * (idx (farr n lam) i)^2)) i = _
      rw [farr_length, idx_arr _ _ _ hi', hk2, idx_farr _ _ _ hi']
      simp only [Num.ofNat_def, Num.fin_pow, Num.fin_mul, Num.fin_div (show 4 * lam i^2 ≠ 0 by positivity)]
    · rw [farr_length]; exact hk2
    · field_simp
    · field_simp
    · intro hq
      rw [hq]
      constructor <;> field_simp

/-- C109: with the high-thrust correction the axial induction is a number at every station whose effective thrust is (so the
theorem above applies), and differs from one below the thrust coefficient `4ac²+4(1-2ac)`. -/
theorem C109_applies (c : ℝ) : ∃ a : ℝ, contA true (.fin c) = .fin a ∧ (c < 4*ac^2 + 4*(1-2*ac) → a ≠ 1) := by
  refine ⟨_, (C29_continuous_solver c).1, ?_⟩
  intro h
  unfold aOfCt
  split_ifs with h1
  · have := Real.sqrt_nonneg (1-c)
    intro h2; linarith
  · have : (0:ℝ) < 4*(1-2*ac) := by unfold ac; norm_num
    rw [Ne, div_eq_one_iff_eq this.ne']
    intro h2; linarith

/-- C109: contrary to what the switch says, a torque coefficient gives a tangential induction also without swirl. -/
theorem C109_ignores_swirl_switch (vr : List Num) : ∃ a' : ℝ, 0 < a' ∧
    (inductionsContCq vr [.fin 2] [.fin (1/2)] false true (some [.fin (1/4)])).1.a_prime = [.fin a'] := by
  have hpos : (0:ℝ) < 1 - aOfCt (1/2) := by
    unfold aOfCt
    rw [if_pos (by unfold Ctc ac; norm_num)]
    have := Real.sqrt_nonneg (1-1/2)
    linarith
  refine ⟨1/4*2/(1 - aOfCt (1/2))/(4*2^2), by positivity, ?_⟩
  have h0 : (Num.fin (1/2) * (1 + Num.fin (1/2) * 0) - Num.fin (1/2) * 0) = .fin (1/2) := by
    simp only [Num.zero_def, Num.one_def, Num.fin_mul, Num.fin_add, Num.fin_sub]; norm_num
  unfold inductionsContCq inductionsCont
  simp only [Bool.false_eq_true, if_false, List.length_singleton, List.map_cons, List.map_nil, arr, List.range_one, idx,
    List.getD_cons_zero, h0, (C29_continuous_solver (1/2)).1]
  simp only [Num.one_def, Num.ofNat_def, Num.fin_sub, Num.fin_mul, Num.fin_pow, Num.fin_div hpos.ne', Num.fin_div (show (4*2^2:ℝ) ≠ 0 by norm_num)]

/-- a station with `k=1/2`, `λ=2`: hypotheses of `C109_torque` -/
example : (2:ℝ) ≠ 0 ∧ (1/2:ℝ) < 4*ac^2 + 4*(1-2*ac) := by unfold ac; norm_num
end Wiz
