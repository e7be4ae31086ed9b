import Verif.Lemmas.CarlsonLimit
import Verif.Lemmas.Carlson
import Verif.Props.Elliptic

/-! # C76: what the Carlson recursion converges to -/
namespace Wiz
open Spec Real MeasureTheory Set Filter Topology

/-- C76 (invariants): one pass of the loop for `RF` replaces the arguments by others with the same
integral `RF`; one pass of `RC` likewise. -/
theorem C76_pass_invariant (x y z : ℝ) (q : Num) (hx : 0 ≤ x) (hy : 0 < y) (hz : 0 < z) :
    (∃ x' y' z' v : ℝ, rfStep ⟨.fin x, .fin y, .fin z, q⟩ = ⟨.fin x', .fin y', .fin z', .fin v⟩ ∧ RF x' y' z' = RF x y z) ∧
    (∃ x' y' v : ℝ, rcStep ⟨.fin x, .fin y, q⟩ = ⟨.fin x', .fin y', .fin v⟩ ∧ RC x' y' = RC x y) := by
  constructor
  · exact ⟨_, _, _, _, rfStep_fin x y z q hx hy.le hz.le (by linarith), (RF_dup hx hy hz).symm⟩
  · refine ⟨_, _, _, rcStep_fin x y q hx hy.le (by linarith), ?_⟩
    exact RC_rcIter hx hy 1

/-- C76 (duplication of `RJ`): one pass with the exact value of `RC` at the arguments the code
passes to it preserves `rhs1 + 4^-k RJ(x,y,z,p)`. -/
theorem C76_rj_pass_invariant (k : ℕ) (x y z p h : ℝ) (q : Num) (hx : 0 ≤ x) (hy : 0 < y) (hz : 0 < z) (hp : 0 < p) :
    ∃ a b : ℝ, rjAlfa ⟨.fin x, .fin y, .fin z, .fin p, .fin h, q⟩ = .fin a ∧
      rjBet ⟨.fin x, .fin y, .fin z, .fin p, .fin h, q⟩ = .fin b ∧
      ∃ x' y' z' p' h' v : ℝ, rjStep k ⟨.fin x, .fin y, .fin z, .fin p, .fin h, q⟩ (.fin (RC a b)) =
        ⟨.fin x', .fin y', .fin z', .fin p', .fin h', .fin v⟩ ∧
      h' + ((4:ℝ)^(k+1))⁻¹ * RJ x' y' z' p' = h + ((4:ℝ)^k)⁻¹ * RJ x y z p := by
  refine ⟨_, _, rjAlfa_fin x y z p (.fin h) q hx hy.le hz.le, rjBet_fin x y z p (.fin h) q hx hy.le hz.le, ?_⟩
  refine ⟨_, _, _, _, _, _, rjStep_fin k x y z p h _ q hx hy.le hz.le (by linarith), ?_⟩
  rw [RJ_dup hx hy hz hp, pow_succ, mul_inv]
  ring

/-- C76 (accuracy of one pass of `RF`): when the arguments are within a relative distance `e ≤ 1/8`
of their mean `A`, the value computed is within `3·10⁷ e⁷/√A` of the integral. -/
theorem C76_rf_accuracy (x y z A e : ℝ) (q : Num) (hA : A = (x+y+z)/3) (hA0 : 0 < A) (he : e ≤ 1/8)
    (h : ∀ w ∈ [x, y, z], |w - A| ≤ e*A) :
    ∃ v : ℝ, (rfStep ⟨.fin x, .fin y, .fin z, q⟩).RF = .fin v ∧ |v - RF x y z| ≤ 30000000*e^7/√A := by
  have hdev : ∀ w, |w - A| ≤ e*A → |1 - w/A| ≤ e := by
    intro w hw
    rw [show 1 - w/A = -((w - A)/A) by field_simp; ring, abs_neg, abs_div, abs_of_pos hA0, div_le_iff₀ hA0]; exact hw
  have hpos : ∀ w, |w - A| ≤ e*A → 0 ≤ w := by
    intro w hw
    have := (abs_le.mp hw).1
    nlinarith
  have h1 := h x (by simp)
  have h2 := h y (by simp)
  have h3 := h z (by simp)
  have he0 : 0 ≤ e := by
    have := (abs_nonneg _).trans h1
    exact nonneg_of_mul_nonneg_left this hA0
  rw [rfStep_fin x y z q (hpos x h1) (hpos y h2) (hpos z h3) (by linarith)]
  refine ⟨_, rfl, ?_⟩
  have := rfVal_close (hpos x h1) (hpos y h2) (hpos z h3) (by rw [← hA]; exact hA0) he0 he (by rw [← hA]; exact hdev x h1)
    (by rw [← hA]; exact hdev y h2) (by rw [← hA]; exact hdev z h3)
  rw [← hA] at this
  rwa [one_div_mul_eq_div] at this

/-- C76 (accuracy of one pass of `RC`). -/
theorem C76_rc_accuracy (x y A e : ℝ) (q : Num) (hA : A = (x+2*y)/3) (hA0 : 0 < A) (he : e ≤ 1/8)
    (h : ∀ w ∈ [x, y], |w - A| ≤ e*A) :
    ∃ v : ℝ, (rcStep ⟨.fin x, .fin y, q⟩).RC = .fin v ∧ |v - RC x y| ≤ 30000000*e^7/√A := by
  have hdev : ∀ w, |w - A| ≤ e*A → |1 - w/A| ≤ e := by
    intro w hw
    rw [show 1 - w/A = -((w - A)/A) by field_simp; ring, abs_neg, abs_div, abs_of_pos hA0, div_le_iff₀ hA0]; exact hw
  have hpos : ∀ w, |w - A| ≤ e*A → 0 < w := by
    intro w hw
    have := (abs_le.mp hw).1
    nlinarith
  have h1 := h x (by simp)
  have h2 := h y (by simp)
  have he0 : 0 ≤ e := by
    have := (abs_nonneg _).trans h1
    exact nonneg_of_mul_nonneg_left this hA0
  have hA' : A = (x+y+y)/3 := by rw [hA]; ring
  rw [rcStep_fin x y q (hpos x h1).le (hpos y h2).le (by linarith)]
  refine ⟨_, rfl, ?_⟩
  have := rcVal_close (hpos x h1).le (hpos y h2) he0 he (by rw [← hA']; exact hdev x h1)
    (by rw [← hA']; exact hdev y h2)
  rw [← hA'] at this
  rwa [one_div_mul_eq_div] at this

/-- C76 (accuracy of the tail of `RJ`): the value of one pass differs from
`rhs1 + 3·4^-k rc + 4^-(k+1) RJ(x,y,z,p)` — with the arguments *before* the duplication — by a
seventh-order term. -/
theorem C76_rj_accuracy (k : ℕ) (x y z p h c A e : ℝ) (q : Num) (hA : A = (x+y+z+2*p)/5) (hA0 : 0 < A) (he : e ≤ 1/8)
    (hw : ∀ w ∈ [x, y, z, p], |w - A| ≤ e*A) :
    ∃ v : ℝ, (rjStep k ⟨.fin x, .fin y, .fin z, .fin p, .fin h, q⟩ (.fin c)).RJ = .fin v ∧
      |v - (h + 3*c/4^k + RJ x y z p/4^(k+1))| ≤ 30000000*e^7/(√A*A)/4^(k+1) := by
  have hdev : ∀ w, |w - A| ≤ e*A → |1 - w/A| ≤ e := by
    intro w hw
    rw [show 1 - w/A = -((w - A)/A) by field_simp; ring, abs_neg, abs_div, abs_of_pos hA0, div_le_iff₀ hA0]; exact hw
  have hpos : ∀ w, |w - A| ≤ e*A → 0 ≤ w := by
    intro w hw
    have := (abs_le.mp hw).1
    nlinarith
  have h1 := hw x (by simp)
  have h2 := hw y (by simp)
  have h3 := hw z (by simp)
  have h4 := hw p (by simp)
  have he0 : 0 ≤ e := by
    have := (abs_nonneg _).trans h1
    exact nonneg_of_mul_nonneg_left this hA0
  rw [rjStep_fin k x y z p h c q (hpos x h1) (hpos y h2) (hpos z h3) (by linarith)]
  refine ⟨_, rfl, ?_⟩
  have := rjTail_close (hpos x h1) (hpos y h2) (hpos z h3) (hpos p h4) (by rw [← hA]; exact hA0) he0 he (by rw [← hA]; exact hdev x h1)
    (by rw [← hA]; exact hdev y h2) (by rw [← hA]; exact hdev z h3) (by rw [← hA]; exact hdev p h4)
  rw [← hA] at this
  generalize rjTail x y z p = T at *
  generalize RJ x y z p = R at *
  have h4 : (0:ℝ) < 4^(k+1) := by positivity
  rw [show h + 3 * ((4:ℝ)^k)⁻¹ * c + ((4:ℝ)^(k+1))⁻¹ * T - (h + 3*c/4^k + R/4^(k+1)) = (T - R)/4^(k+1) by field_simp; ring,
    abs_div, abs_of_pos h4]
  rw [one_div_mul_eq_div] at this
  gcongr

/-- C76 (first kind): for every `m<1` the value of the `RF` loop after `k+1` passes converges to
`K(m)`, with an error `O(4^{-7k})`. -/
theorem C76_first_kind (m : ℝ) (hm : m < 1) :
    ∃ C N : ℝ, ∀ k : ℕ, N ≤ k → ∃ v : ℝ, carlsonRF (k+1) (.fin (1-m)) = .fin v ∧ |v - ellK m| ≤ C/4^(7*k) := by
  obtain ⟨C, N, _, h⟩ := rf_rate le_rfl (show 0 < 1 - m by linarith) one_pos (x := 0)
  refine ⟨C, N, fun k hk => ⟨_, carlsonRF_fin k _ (by linarith), ?_⟩⟩
  rw [ellK_eq_RF m hm]
  exact h k hk

/-- C76: for every `n<1`, `m<1` the value of `Π(n,m)` computed with `kF`, `kJ` and `kC j` passes
of the three loops converges to the complete elliptic integral of the third kind; the error is
`O(4^{-7 kF} + 16^{-kJ} + 4^{-7 min kC})`. -/
theorem C76_rate (n m : ℝ) (hn : n < 1) (hm : m < 1) :
    ∃ (C : ℝ) (N : ℕ), ∀ (kF kJ K : ℕ) (kC : ℕ → ℕ), N ≤ kF → N ≤ kJ → N ≤ K → (∀ j, K + 1 ≤ kC j) →
      ∃ v : ℝ, carlsonPi (kF+1) (kJ+1) kC (.fin n) (.fin m) = .fin v ∧
        |v - ellPi n m| ≤ C*(1/4^(7*kF) + 1/16^kJ + 1/4^(7*K)) := by
  have hy : 0 < 1 - m := by linarith
  have hp : 0 < 1 - n := by linarith
  obtain ⟨C1, N1, hC1, h1⟩ := rf_rate le_rfl hy one_pos (x := 0)
  obtain ⟨C2, N2, hC2, h2⟩ := rj_rate hy hp
  refine ⟨C1 + |1/3*n| * C2, max ⌈N1⌉₊ N2, ?_⟩
  intro kF kJ K kC hF hJ hK hC
  refine ⟨_, carlsonPi_fin (kF+1) (kJ+1) kC (by omega) (by omega) (fun j => by have := hC j; omega) n m hn hm.le, ?_⟩
  have e1 := h1 kF ((Nat.le_ceil N1).trans (by exact_mod_cast (le_max_left _ _).trans hF))
  have e2 := h2 kJ K kC ((le_max_right _ _).trans hJ) ((le_max_right _ _).trans hK) hC
  rw [ellPi_eq n m hn hm]
  simp only [Nat.add_sub_cancel]
  generalize rfVal _ _ _ = a at *
  generalize RF _ _ _ = b at *
  generalize RJ _ _ _ _ = d at *
  generalize rjAcc kC (1-m) (1-n) (kJ+1) + _ = c at *
  rw [show a + 1/3*n*c - (b + 1/3*n*d) = (a - b) + (1/3*n)*(c - d) by ring]
  refine (abs_add_le _ _).trans ?_
  rw [abs_mul]
  have hn0 := abs_nonneg (1/3*n)
  have q1 : (0:ℝ) ≤ 1/4^(7*kF) := by positivity
  have q2 : (0:ℝ) ≤ 1/16^kJ := by positivity
  have q3 : (0:ℝ) ≤ 1/4^(7*K) := by positivity
  have hprod : 0 ≤ |1/3*n| * C2 := by positivity
  calc |a - b| + |1/3*n| * |c - d| ≤ C1/4^(7*kF) + |1/3*n| * (C2/16^kJ + C2/4^(7*K)) := by gcongr
    _ = C1*(1/4^(7*kF)) + |1/3*n| * C2*(1/16^kJ + 1/4^(7*K)) := by ring
    _ ≤ (C1 + |1/3*n| * C2)*(1/4^(7*kF) + 1/16^kJ + 1/4^(7*K)) := by nlinarith [mul_nonneg hC1 q2, mul_nonneg hC1 q3, mul_nonneg hprod q1]

/-- C76 (convergence), as a limit. -/
theorem C76_converges (n m : ℝ) (hn : n < 1) (hm : m < 1) (ε : ℝ) (hε : 0 < ε) :
    ∃ N : ℕ, ∀ (kF kJ : ℕ) (kC : ℕ → ℕ), N ≤ kF → N ≤ kJ → (∀ j, N ≤ kC j) →
      ∃ v : ℝ, carlsonPi kF kJ kC (.fin n) (.fin m) = .fin v ∧ |v - ellPi n m| < ε := by
  obtain ⟨C, N, h⟩ := C76_rate n m hn hm
  have hlim : Tendsto (fun k : ℕ => C*(1/4^(7*k) + 1/16^k + 1/4^(7*k)) : ℕ → ℝ) atTop (𝓝 (C*(0 + 0 + 0))) := by
    have t1 : Tendsto (fun k : ℕ => (1/4^(7*k) : ℝ)) atTop (𝓝 0) := by
      have : (fun k : ℕ => (1/4^(7*k) : ℝ)) = fun k => ((1/4^7 : ℝ))^k := by
        funext k; rw [pow_mul, div_pow, one_pow]
      rw [this]
      exact tendsto_pow_atTop_nhds_zero_of_lt_one (by norm_num) (by norm_num)
    have t2 : Tendsto (fun k : ℕ => (1/16^k : ℝ)) atTop (𝓝 0) := by
      have : (fun k : ℕ => (1/16^k : ℝ)) = fun k => ((1/16 : ℝ))^k := by
        funext k; rw [div_pow, one_pow]
      rw [this]
      exact tendsto_pow_atTop_nhds_zero_of_lt_one (by norm_num) (by norm_num)
    exact ((t1.add t2).add t1).const_mul C
  rw [show C*(0+0+0) = 0 by ring] at hlim
  obtain ⟨M, hM⟩ := ((hlim.eventually (gt_mem_nhds hε)).and (eventually_ge_atTop N)).exists
  refine ⟨M + 1, fun kF kJ kC hF hJ hC => ?_⟩
  obtain ⟨a, rfl⟩ : ∃ a, kF = a + 1 := ⟨kF - 1, by omega⟩
  obtain ⟨b, rfl⟩ : ∃ b, kJ = b + 1 := ⟨kJ - 1, by omega⟩
  obtain ⟨v, e, hv⟩ := h a b M kC (by omega) (by omega) hM.2 hC
  refine ⟨v, e, lt_of_le_of_lt hv (lt_of_le_of_lt ?_ hM.1)⟩
  have hC0 : 0 ≤ C := by
    have := (abs_nonneg _).trans hv
    exact nonneg_of_mul_nonneg_left this (by positivity)
  have g1 : M ≤ a := by omega
  have g2 : M ≤ b := by omega
  gcongr <;> norm_num

example : (0.5:ℝ) < 1 ∧ (0.6:ℝ) < 1 := by norm_num
/-- the accuracy hypotheses are met, e.g. by `(7,8,9)` with mean `8` and `e = 1/8` -/
example : ∀ w ∈ [(7:ℝ), 8, 9], |w - 8| ≤ 1/8*8 := by
  intro w hw
  simp only [List.mem_cons, List.not_mem_nil, or_false] at hw
  rcases hw with rfl | rfl | rfl <;> norm_num
end Wiz
