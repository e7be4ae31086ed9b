import Verif.Lemmas.CarlsonContract

/-! # Properties of `ellipticPiCarlson` (C37–C39) -/
namespace Wiz
open Spec Real

/-- C37: on every batch (any size, any values, even `nan`/`inf`) each entry of
`ellipticPiCarlson` is Carlson's scalar recursion at that entry, run with iteration counts
that are common to the whole batch and lie between 1 and 20 (so the loops terminate). -/
theorem C37_shared_schedule (nm : List (Num × Num)) :
    ∃ (kF kJ : ℕ) (kC : ℕ → ℕ), (1 ≤ kF ∧ kF ≤ 20) ∧ (1 ≤ kJ ∧ kJ ≤ 20) ∧ (∀ j, 1 ≤ kC j ∧ kC j ≤ 20) ∧
      ellipticPiCarlson nm = nm.map fun p => carlsonPi kF kJ kC p.1 p.2 :=
  carlson_schedule nm

/-- C37: one output per input. -/
theorem C37_length (nm : List (Num × Num)) : (ellipticPiCarlson nm).length = nm.length := by
  obtain ⟨_, _, _, _, _, _, e⟩ := carlson_schedule nm
  rw [e, List.length_map]

/-- C38: for `m ≤ 1` (all the code ever passes) every entry with `n < 1` is an ordinary
finite number and every entry with `n ≥ 1` is `+inf`, whatever the rest of the batch. -/
theorem C38_finite (nm : List (ℝ × ℝ)) (h : ∀ p ∈ nm, p.2 ≤ 1) :
    ∃ out : List Num, ellipticPiCarlson (nm.map fun p => (.fin p.1, .fin p.2)) = out ∧
      out.length = nm.length ∧
      ∀ (i : ℕ) (hi : i < nm.length) (ho : i < out.length),
        (nm[i].1 < 1 → ∃ v : ℝ, out[i] = .fin v) ∧ (1 ≤ nm[i].1 → out[i] = .pinf) := by
  obtain ⟨kF, kJ, kC, hF, hJ, hC, e⟩ := carlson_schedule (nm.map fun p => ((.fin p.1, .fin p.2) : Num × Num))
  refine ⟨_, rfl, by rw [e]; simp, ?_⟩
  intro i hi ho
  have hm := h nm[i] (List.getElem_mem hi)
  have ei : (ellipticPiCarlson (nm.map fun p => ((.fin p.1, .fin p.2) : Num × Num)))[i]
      = carlsonPi kF kJ kC (.fin nm[i].1) (.fin nm[i].2) := by
    simp only [e, List.getElem_map]
  rw [ei]
  exact ⟨fun hn => ⟨_, carlsonPi_fin kF kJ kC hF.1 hJ.1 (fun j => (hC j).1) _ _ hn hm⟩,
    fun hn => carlsonPi_inf kF kJ kC hF.1 _ _ hn hm⟩

example : ∀ p ∈ [((0.5:ℝ), (0.6:ℝ)), (-3, 0), (1, 1), (2, -7)], p.2 ≤ 1 := by
  intro p hp; simp at hp; rcases hp with rfl | rfl | rfl | rfl <;> norm_num

/-- C38: when `n=0` in the whole batch, the result is the first-kind recursion `RF(1-m)`. -/
theorem C38_n_zero (ms : List ℝ) (h : ∀ m ∈ ms, m ≤ 1) :
    ellipticPiCarlson (ms.map fun m => (.fin 0, .fin m)) = ellipticRF (ms.map fun m => .fin (1 - m)) := by
  by_cases h0 : ms = []
  · subst h0
    obtain ⟨k, _, _, e⟩ := ellipticRF_schedule []
    simpa [ellipticPiCarlson] using e.symm
  · have hne : (ms.map fun m => ((.fin 0, .fin m) : Num × Num)) ≠ [] := by simpa using h0
    unfold ellipticPiCarlson
    rw [if_neg hne]
    obtain ⟨kJ, kC, b1, b2, b3, e2⟩ := ellipticRJ_schedule
      ((ms.map fun m => ((.fin 0, .fin m) : Num × Num)).map fun p => (1 - p.2, 1 - p.1))
    simp only [e2]
    obtain ⟨k, _, _, e⟩ := ellipticRF_schedule (ms.map fun m => .fin (1 - m))
    have hz : List.zipWith (fun (p : Num × Num) rj => Num.fin (1/3) * p.1 * rj) (ms.map fun m => ((.fin 0, .fin m) : Num × Num))
        (((ms.map fun m => ((.fin 0, .fin m) : Num × Num)).map fun p => (1 - p.2, 1 - p.1)).map fun p => carlsonRJ kC kJ p.1 p.2)
        = ms.map fun _ => Num.fin 0 := by
      simp only [List.map_map]
      rw [List.zipWith_map, List.zipWith_self]
      apply List.map_congr_left
      intro m hm
      simp only [Function.comp_def, Num.one_def, Num.fin_sub, sub_zero]
      obtain ⟨a, rfl⟩ : ∃ a, kJ = a + 1 := ⟨kJ - 1, by omega⟩
      have := h m hm
      rw [carlsonRJ_fin kC (fun j => (b3 j).1) _ _ (by linarith) one_pos]
      simp
    rw [hz]
    have hl : (ms.map fun m => ((.fin 0, .fin m) : Num × Num)).map (fun p => 1 - p.2) = ms.map fun m => Num.fin (1 - m) := by
      simp [List.map_map, Function.comp_def]
    rw [hl, e, List.map_map, List.zipWith_map, List.zipWith_self]
    apply List.map_congr_left
    intro m hm
    exact add_zero _

/-- C39: each pass of `RF` divides all differences between the arguments by exactly 4 and
keeps them finite, non-negative and not all zero. -/
theorem C39_rf_step (x y z : ℝ) (q : Num) (hx : 0 ≤ x) (hy : 0 ≤ y) (hz : 0 ≤ z) (hs : 0 < x + y + z) :
    ∃ x' y' z' v : ℝ, rfStep ⟨.fin x, .fin y, .fin z, q⟩ = ⟨.fin x', .fin y', .fin z', .fin v⟩ ∧
      0 ≤ x' ∧ 0 ≤ y' ∧ 0 ≤ z' ∧ 0 < x' + y' + z' ∧
      x' - y' = (x - y)/4 ∧ x' - z' = (x - z)/4 ∧ y' - z' = (y - z)/4 := by
  refine ⟨_, _, _, _, rfStep_fin x y z q hx hy hz hs, ?_⟩
  have := lam_nonneg x y z
  refine ⟨by positivity, by positivity, by positivity, by linarith, by ring, by ring, by ring⟩

/-- C39: the same for `RJ` (with its fourth argument `rho`), for any finite value of the
inner `RC`. -/
theorem C39_rj_step (k : ℕ) (x y z p h c : ℝ) (q : Num) (hx : 0 ≤ x) (hy : 0 ≤ y) (hz : 0 ≤ z) (hp : 0 < p) :
    ∃ x' y' z' p' a v : ℝ, rjStep k ⟨.fin x, .fin y, .fin z, .fin p, .fin h, q⟩ (.fin c)
        = ⟨.fin x', .fin y', .fin z', .fin p', .fin a, .fin v⟩ ∧
      0 ≤ x' ∧ 0 ≤ y' ∧ 0 ≤ z' ∧ 0 < p' ∧
      x' - y' = (x - y)/4 ∧ x' - z' = (x - z)/4 ∧ y' - z' = (y - z)/4 ∧ p' - x' = (p - x)/4 := by
  refine ⟨_, _, _, _, _, _, rjStep_fin k x y z p h c q hx hy hz (by linarith), ?_⟩
  have := lam_nonneg x y z
  refine ⟨by positivity, by positivity, by positivity, by positivity, by ring, by ring, by ring, by ring⟩

/-- C39: the same for `RC`. -/
theorem C39_rc_step (x y : ℝ) (q : Num) (hx : 0 ≤ x) (hy : 0 < y) :
    ∃ x' y' v : ℝ, rcStep ⟨.fin x, .fin y, q⟩ = ⟨.fin x', .fin y', .fin v⟩ ∧
      0 ≤ x' ∧ 0 < y' ∧ x' - y' = (x - y)/4 := by
  refine ⟨_, _, _, rcStep_fin x y q hx hy.le (by linarith), ?_⟩
  have := rcLam_nonneg (x := x) hy.le
  exact ⟨by positivity, by positivity, by ring⟩

/-- C39: consequently, when at most one argument is zero, the relative deviations
`1 - x/mu`, `1 - y/mu`, `1 - z/mu` at pass `k+1` of `RF` are at most `C·4^{-(k+1)}`, with `C`
depending only on the starting values. -/
theorem C39_rf_deviation (x y z : ℝ) (hx : 0 ≤ x) (hy : 0 < y) (hz : 0 < z) :
    ∃ C : ℝ, ∀ k : ℕ, ∃ xk yk zk v : ℝ,
      rfStep^[k+1] ⟨.fin x, .fin y, .fin z, 0⟩ = ⟨.fin xk, .fin yk, .fin zk, .fin v⟩ ∧
      ∀ w, (w = xk ∨ w = yk ∨ w = zk) → |1 - w / ((xk + yk + zk)/3)| ≤ C / 4^(k+1) := by
  have hl : 0 < lam x y z / 4 := by
    have : 0 < √(y*z) := by positivity
    have h1 : 0 ≤ √(x*y) := by positivity
    have h2 : 0 ≤ √(x*z) := by positivity
    unfold lam; linarith
  refine ⟨(|x - y| + |x - z| + |y - z|) / (lam x y z / 4), fun k => ⟨_, _, _, _, rfStep_iter x y z hx hy.le hz.le (by linarith) k, ?_⟩⟩
  intro w hw
  obtain ⟨d1, d2, d3⟩ := dupIter_diff x y z (k+1)
  obtain ⟨l1, l2, l3⟩ := dupIter_lower' x y z hx hy.le hz.le k
  have h4 : (0:ℝ) < 4^(k+1) := by positivity
  have := dev_bound (d := (|x - y| + |x - z| + |y - z|) / 4^(k+1)) hl l1 l2 l3
    (by rw [d1, abs_div, abs_of_pos h4]; gcongr; linarith [abs_nonneg (x - z), abs_nonneg (y - z)])
    (by rw [d2, abs_div, abs_of_pos h4]; gcongr; linarith [abs_nonneg (x - y), abs_nonneg (y - z)])
    (by rw [d3, abs_div, abs_of_pos h4]; gcongr; linarith [abs_nonneg (x - y), abs_nonneg (x - z)]) hw
  rw [div_right_comm]
  exact this

end Wiz
