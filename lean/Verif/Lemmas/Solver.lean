import Verif.Model.Solver
import Verif.Spec.Solver
import Mathlib.Algebra.BigOperators.Field
/-! Evaluation of the discrete solver. -/
namespace Wiz
open Spec Classical Finset Real

theorem npSum_fin (l : List ℕ) (x : ℕ → Num) (f : ℕ → ℝ) (h : ∀ j ∈ l, x j = .fin (f j)) :
    npSum (l.map x) = .fin ((l.map f).sum) := by
  induction l with
  | nil => rfl
  | cons a l ih =>
    have ih := ih fun j hj => h j (by simp [hj])
    unfold npSum at ih ⊢
    simp only [List.map_cons, List.foldr_cons, List.sum_cons]
    rw [ih, h a (by simp)]; rfl

theorem range'_sum (f : ℕ → ℝ) (lo m : ℕ) : ((List.range' lo m).map f).sum = ∑ j ∈ Ico lo (lo+m), f j := by
  induction m generalizing lo with
  | zero => simp
  | succ m ih =>
    rw [List.range'_succ, List.map_cons, List.sum_cons, ih,
      Finset.sum_eq_sum_Ico_succ_bot (show lo < lo + (m+1) by omega),
      show lo + 1 + m = lo + (m+1) by ring]

theorem sumFrom_fin (n : ℕ) (x : ℕ → Num) (f : ℕ → ℝ) (lo : ℕ) (h : ∀ j, lo ≤ j → j < n → x j = .fin (f j)) :
    sumFrom n x lo = .fin (∑ j ∈ Ico lo n, f j) := by
  unfold sumFrom
  rw [npSum_fin _ _ f, range'_sum]
  · rcases le_total lo n with h1 | h1
    · rw [Nat.add_sub_cancel' h1]
    · rw [Nat.sub_eq_zero_of_le h1]; simp [h1]
  · intro j hj
    rw [List.mem_range'_1] at hj
    exact h j hj.1 (by omega)

theorem sumFrom_congr (n : ℕ) (x y : ℕ → Num) (lo : ℕ) (h : ∀ j, lo ≤ j → j < n → x j = y j) :
    sumFrom n x lo = sumFrom n y lo := by
  unfold sumFrom
  congr 1
  apply List.map_congr_left
  intro j hj
  rw [List.mem_range'_1] at hj
  exact h j hj.1 (by omega)

/-! ### The loop: every entry satisfies its own pass -/

theorem discrStep_congr (n : ℕ) (k_r ap C lR : ℕ → Num) (sw hi : Bool) (s s' : DState) (i : ℕ)
    (h1 : ∀ j, i < j → j < n → s.gamma_t_bar j = s'.gamma_t_bar j)
    (h2 : ∀ j, i < j → j < n → s.Ctrot_loc j = s'.Ctrot_loc j) :
    (discrStep n k_r ap C lR sw hi s i).gamma_t_bar i = (discrStep n k_r ap C lR sw hi s' i).gamma_t_bar i ∧
    (discrStep n k_r ap C lR sw hi s i).Ctrot_loc i = (discrStep n k_r ap C lR sw hi s' i).Ctrot_loc i ∧
    (discrStep n k_r ap C lR sw hi s i).b i = (discrStep n k_r ap C lR sw hi s' i).b i ∧
    (discrStep n k_r ap C lR sw hi s i).Cteff i = (discrStep n k_r ap C lR sw hi s' i).Cteff i := by
  have e1 : sumFrom n s.gamma_t_bar (i+1) = sumFrom n s'.gamma_t_bar (i+1) := sumFrom_congr _ _ _ _ (fun j hj => h1 j hj)
  have e2 : ∀ v, sumFrom n (upd s.Ctrot_loc i v) (i+1) = sumFrom n (upd s'.Ctrot_loc i v) (i+1) := by
    intro v
    apply sumFrom_congr
    intro j hj hn
    unfold upd
    rw [if_neg (by omega), if_neg (by omega)]
    exact h2 j hj hn
  unfold discrStep
  simp only [e1, e2]
  split_ifs <;> simp [upd]

theorem discrStep_other (n : ℕ) (k_r ap C lR : ℕ → Num) (sw hi : Bool) (s : DState) (i j : ℕ) (h : j ≠ i) :
    (discrStep n k_r ap C lR sw hi s i).gamma_t_bar j = s.gamma_t_bar j ∧
    (discrStep n k_r ap C lR sw hi s i).Ctrot_loc j = s.Ctrot_loc j ∧
    (discrStep n k_r ap C lR sw hi s i).b j = s.b j ∧
    (discrStep n k_r ap C lR sw hi s i).Cteff j = s.Cteff j := by
  unfold discrStep
  split_ifs <;> simp [upd, h]

/-- state after the passes `n-1,…,i` -/
noncomputable def discrFrom (n : ℕ) (k_r ap C lR : ℕ → Num) (sw hi : Bool) (i : ℕ) : DState :=
  (List.range' i (n - i)).foldr (fun i s => discrStep n k_r ap C lR sw hi s i) dZeros

theorem discrFrom_zero (n : ℕ) (k_r ap C lR : ℕ → Num) (sw hi : Bool) :
    discrLoop n k_r ap C lR sw hi = discrFrom n k_r ap C lR sw hi 0 := by
  unfold discrLoop discrFrom
  rw [List.foldl_reverse, List.range_eq_range']; rfl

theorem discrFrom_succ (n : ℕ) (k_r ap C lR : ℕ → Num) (sw hi : Bool) (i : ℕ) (h : i < n) :
    discrFrom n k_r ap C lR sw hi i = discrStep n k_r ap C lR sw hi (discrFrom n k_r ap C lR sw hi (i+1)) i := by
  unfold discrFrom
  obtain ⟨m, hm⟩ : ∃ m, n - i = m + 1 := ⟨n - i - 1, by omega⟩
  rw [hm, List.range'_succ, List.foldr_cons, show n - (i+1) = m by omega]

/-- entries above `i` are not touched by the passes below -/
theorem discrFrom_stable (n : ℕ) (k_r ap C lR : ℕ → Num) (sw hi : Bool) (i d j : ℕ) (h : i + d ≤ j) (hj : j < n) :
    (discrFrom n k_r ap C lR sw hi i).gamma_t_bar j = (discrFrom n k_r ap C lR sw hi (i+d)).gamma_t_bar j ∧
    (discrFrom n k_r ap C lR sw hi i).Ctrot_loc j = (discrFrom n k_r ap C lR sw hi (i+d)).Ctrot_loc j ∧
    (discrFrom n k_r ap C lR sw hi i).b j = (discrFrom n k_r ap C lR sw hi (i+d)).b j ∧
    (discrFrom n k_r ap C lR sw hi i).Cteff j = (discrFrom n k_r ap C lR sw hi (i+d)).Cteff j := by
  induction d with
  | zero => simp
  | succ d ih =>
    have ih := ih (by omega)
    have := discrStep_other n k_r ap C lR sw hi (discrFrom n k_r ap C lR sw hi (i+d+1)) (i+d) j (by omega)
    rw [← discrFrom_succ n k_r ap C lR sw hi (i+d) (by omega)] at this
    rw [show i + (d+1) = i+d+1 by ring]
    exact ⟨ih.1.trans this.1, ih.2.1.trans this.2.1, ih.2.2.1.trans this.2.2.1, ih.2.2.2.trans this.2.2.2⟩

/-- every entry of the final arrays satisfies the assignments of its pass, read on the final arrays -/
theorem discrLoop_fix (n : ℕ) (k_r ap C lR : ℕ → Num) (sw hi : Bool) (i : ℕ) (h : i < n) :
    (discrLoop n k_r ap C lR sw hi).gamma_t_bar i =
      (discrStep n k_r ap C lR sw hi (discrLoop n k_r ap C lR sw hi) i).gamma_t_bar i ∧
    (discrLoop n k_r ap C lR sw hi).Ctrot_loc i =
      (discrStep n k_r ap C lR sw hi (discrLoop n k_r ap C lR sw hi) i).Ctrot_loc i ∧
    (discrLoop n k_r ap C lR sw hi).b i =
      (discrStep n k_r ap C lR sw hi (discrLoop n k_r ap C lR sw hi) i).b i ∧
    (discrLoop n k_r ap C lR sw hi).Cteff i =
      (discrStep n k_r ap C lR sw hi (discrLoop n k_r ap C lR sw hi) i).Cteff i := by
  rw [discrFrom_zero]
  have s1 := discrFrom_stable n k_r ap C lR sw hi 0 i i (by omega) h
  rw [zero_add] at s1
  rw [discrFrom_succ n k_r ap C lR sw hi i h] at s1
  have c := discrStep_congr n k_r ap C lR sw hi (discrFrom n k_r ap C lR sw hi (i+1)) (discrFrom n k_r ap C lR sw hi 0) i
    (fun j h1 h2 => by
      have := (discrFrom_stable n k_r ap C lR sw hi 0 (i+1) j (by omega) h2).1
      rw [zero_add] at this; exact this.symm)
    (fun j h1 h2 => by
      have := (discrFrom_stable n k_r ap C lR sw hi 0 (i+1) j (by omega) h2).2.1
      rw [zero_add] at this; exact this.symm)
  exact ⟨s1.1.trans c.1, s1.2.1.trans c.2.1, s1.2.2.1.trans c.2.2.1, s1.2.2.2.trans c.2.2.2⟩

/-! ### `cumsum` on the reversed array -/

theorem cumsumAux_append (s x : Num) (l : List Num) :
    cumsumAux s (l ++ [x]) = cumsumAux s l ++ [l.foldl (· + ·) s + x] := by
  induction l generalizing s with
  | nil => rfl
  | cons a l ih => simp only [List.cons_append, cumsumAux, ih, List.foldl_cons]

theorem foldl_fin (l : List ℕ) (f : ℕ → ℝ) (s : ℝ) :
    (l.map fun i => Num.fin (f i)).foldl (· + ·) (.fin s) = .fin (s + (l.map f).sum) := by
  induction l generalizing s with
  | nil => simp
  | cons a l ih =>
    simp only [List.map_cons, List.foldl_cons, List.sum_cons, Num.fin_add]
    rw [ih, add_assoc]

theorem cumsum_reverse (f : ℕ → ℝ) (s : ℝ) (lo m : ℕ) :
    (cumsumAux (.fin s) ((List.range' lo m).map fun i => Num.fin (f i)).reverse).reverse =
      (List.range' lo m).map fun i => .fin (s + ∑ j ∈ Ico i (lo+m), f j) := by
  induction m generalizing lo with
  | zero => rfl
  | succ m ih =>
    rw [List.range'_succ, List.map_cons, List.reverse_cons, cumsumAux_append, List.reverse_append, ih,
      List.map_cons, ← List.map_reverse, foldl_fin, List.map_reverse, List.sum_reverse, range'_sum]
    simp only [List.reverse_cons, List.reverse_nil, List.nil_append, List.cons_append]
    congr 1
    · rw [Num.fin_add, Finset.sum_eq_sum_Ico_succ_bot (show lo < lo + (m+1) by omega), show lo + 1 + m = lo + (m+1) by ring]
      congr 1; ring
    · rw [show lo + 1 + m = lo + (m+1) by ring]

theorem idx_arr (n : ℕ) (f : ℕ → Num) (i : ℕ) (h : i < n) : idx (arr n f) i = f i := by
  unfold idx arr
  simp [List.getD_eq_getElem?_getD, h]

theorem arr_congr (n : ℕ) (f g : ℕ → Num) (h : ∀ i < n, f i = g i) : arr n f = arr n g := by
  unfold arr
  apply List.map_congr_left
  intro i hi
  exact h i (List.mem_range.mp hi)

/-- the induction returned by the discrete solver -/
theorem cumsum_arr (n : ℕ) (x : ℕ → Num) (f : ℕ → ℝ) (h : ∀ i < n, x i = .fin (f i)) :
    ((cumsum (arr n fun i => x i / 2).reverse).map fun x => -x).reverse =
      arr n fun i => .fin (-(∑ j ∈ Ico i n, f j) / 2) := by
  have e : arr n (fun i => x i / 2) = (List.range' 0 n).map fun i => Num.fin (f i / 2) := by
    rw [← List.range_eq_range']
    unfold arr
    apply List.map_congr_left
    intro i hi
    rw [h i (List.mem_range.mp hi)]
    simp only [Num.ofNat_def, Num.fin_div (two_ne_zero)]
  rw [e, ← List.map_reverse]
  unfold cumsum
  have := cumsum_reverse (fun i => f i / 2) 0 0 n
  rw [show (0:Num) = .fin 0 from rfl, this, ← List.range_eq_range', List.map_map]
  unfold arr
  apply List.map_congr_left
  intro i _
  simp only [Function.comp_def, Num.fin_neg, zero_add, Num.fin_inj, ← Finset.sum_div]
  ring

/-! ### Real values -/

theorem ctcN_fin : ctcN = .fin Ctc := by
  unfold ctcN acN Ctc ac
  simp only [Num.ofNat_def, Num.one_def, Num.fin_mul, Num.fin_sub]

theorem spera_fin (c : ℝ) : (.fin c - 4 * acN^2) / (4 * (1 - 2 * acN)) = Num.fin ((c - 4*ac^2)/(4*(1-2*ac))) := by
  unfold acN ac
  simp only [Num.ofNat_def, Num.one_def, Num.fin_mul, Num.fin_sub, Num.fin_pow]
  rw [Num.fin_div (by norm_num)]

theorem Ctc_lt_one : Ctc < 1 := by unfold Ctc ac; norm_num

/-- `gamma_t_bar` entry from `b` and the effective thrust (with swirl) -/
theorem swirl_gamma (hi : Bool) (b c : ℝ) (h : hi = false → c ≤ Ctc) :
    (if hi = true then (if ctcN < Num.fin c then - Num.fin b + (1 - 2 * ((.fin c - 4 * acN^2) / (4 * (1 - 2 * acN))))
        else - Num.fin b + Num.sqrt (1 - .fin c)) else - Num.fin b + Num.sqrt (1 - .fin c))
      = .fin (-b + (1 - 2 * aOfCt c)) := by
  have h1 : ∀ c ≤ Ctc, - Num.fin b + Num.sqrt (1 - .fin c) = .fin (-b + (1 - 2 * aOfCt c)) := by
    intro c hc
    have hp : 0 ≤ 1 - c := by linarith [Ctc_lt_one]
    unfold aOfCt
    rw [if_pos hc]
    simp only [Num.one_def, Num.fin_sub, Num.sqrt_fin hp, Num.fin_neg, Num.fin_add]
    congr 1; ring
  cases hi
  · simp only [Bool.false_eq_true, if_false]; exact h1 c (h rfl)
  · simp only [if_true, ctcN_fin, Num.lt_fin]
    by_cases hc : Ctc < c
    · rw [if_pos hc, spera_fin]
      unfold aOfCt
      rw [if_neg (not_le.mpr hc)]
      simp only [Num.ofNat_def, Num.one_def, Num.fin_mul, Num.fin_sub, Num.fin_neg, Num.fin_add]
    · rw [if_neg hc]; exact h1 c (not_lt.mp hc)

/-- with swirl, the loop computes the effective thrusts and the telescoping intensities -/
theorem discr_swirl (n : ℕ) (k l : ℕ → ℝ) (ap C : ℕ → Num) (hi : Bool) (hl : ∀ i < n, l i ≠ 0)
    (hb : hi = false → ∀ i < n, ctEff n k l i ≤ Ctc) (d : ℕ) : ∀ i, i < n → n - 1 - i = d →
    (discrLoop n (fun i => .fin (k i)) ap C (fun i => .fin (l i)) true hi).gamma_t_bar i =
      .fin ((1 - 2 * aOfCt (ctEff n k l i)) - (if i = n - 1 then 1 else 1 - 2 * aOfCt (ctEff n k l (i+1)))) ∧
    (discrLoop n (fun i => .fin (k i)) ap C (fun i => .fin (l i)) true hi).Ctrot_loc i =
      .fin (if i = n - 1 then 0 else (k (i+1) / 2)^2 * (1 / l i^2 - 1 / l (i+1)^2)) ∧
    (discrLoop n (fun i => .fin (k i)) ap C (fun i => .fin (l i)) true hi).b i =
      .fin (if i = n - 1 then 1 else 1 - 2 * aOfCt (ctEff n k l (i+1))) ∧
    (discrLoop n (fun i => .fin (k i)) ap C (fun i => .fin (l i)) true hi).Cteff i = .fin (ctEff n k l i) := by
  induction d using Nat.strong_induction_on with
  | _ d ih =>
  intro i hin hd
  obtain ⟨f1, f2, f3, f4⟩ := discrLoop_fix n (fun i => .fin (k i)) ap C (fun i => .fin (l i)) true hi i hin
  generalize discrLoop n (fun i => Num.fin (k i)) ap C (fun i => .fin (l i)) true hi = s at *
  have hg : ∀ j, i + 1 ≤ j → j < n → s.gamma_t_bar j =
      .fin ((1 - 2 * aOfCt (ctEff n k l j)) - (if j = n - 1 then 1 else 1 - 2 * aOfCt (ctEff n k l (j+1)))) :=
    fun j h1 h2 => (ih (n-1-j) (by omega) j h2 rfl).1
  have hlc : ∀ j, i + 1 ≤ j → j < n → s.Ctrot_loc j =
      .fin (if j = n - 1 then 0 else (k (j+1) / 2)^2 * (1 / l j^2 - 1 / l (j+1)^2)) :=
    fun j h1 h2 => (ih (n-1-j) (by omega) j h2 rfl).2.1
  -- telescoping of the intensities
  have tele : ∀ m lo, lo + m = n - 1 → ∑ j ∈ Ico lo n, ((1 - 2 * aOfCt (ctEff n k l j)) -
      (if j = n - 1 then 1 else 1 - 2 * aOfCt (ctEff n k l (j+1)))) = (1 - 2 * aOfCt (ctEff n k l lo)) - 1 := by
    intro m
    induction m with
    | zero =>
      intro lo hlo
      rw [Finset.sum_eq_sum_Ico_succ_bot (by omega), if_pos (by omega)]
      rw [Finset.Ico_eq_empty (by omega)]; simp
    | succ m ihm =>
      intro lo hlo
      rw [Finset.sum_eq_sum_Ico_succ_bot (by omega), ihm (lo+1) (by omega), if_neg (by omega)]; ring
  have loc_sum : ∀ v, sumFrom n (upd s.Ctrot_loc i v) (i+1) = .fin (ctRot n k l i) := by
    intro v
    rw [sumFrom_fin n _ (fun j => if j = n - 1 then 0 else (k (j+1) / 2)^2 * (1 / l j^2 - 1 / l (j+1)^2))]
    · congr 1
      unfold ctRot
      rcases Nat.lt_or_ge (i+1) n with h1 | h1
      · obtain ⟨m, rfl⟩ : ∃ m, n = m + 1 := ⟨n - 1, by omega⟩
        rw [Finset.sum_Ico_succ_top (by omega), Nat.add_sub_cancel, if_pos rfl, add_zero]
        apply Finset.sum_congr rfl
        intro j hj
        rw [Finset.mem_Ico] at hj
        rw [if_neg (by omega)]
      · rw [Finset.Ico_eq_empty (by omega), Finset.Ico_eq_empty (by omega)]; simp
    · intro j h1 h2
      unfold upd; rw [if_neg (by omega)]; exact hlc j h1 h2
  have hkj : (Num.fin (k i) * (1 + .fin (k i) / (4 * (.fin (l i))^2)) : Num) = .fin (ctKJ (k i) (l i)) := by
    have : 4 * (l i)^2 ≠ 0 := by have := hl i hin; positivity
    simp only [Num.ofNat_def, Num.one_def, Num.fin_mul, Num.fin_pow, Num.fin_div this, Num.fin_add]
    rfl
  have hsub : (Num.fin (ctKJ (k i) (l i)) - .fin (ctRot n k l i) : Num) = .fin (ctEff n k l i) := by
    rw [Num.fin_sub]; rfl
  unfold discrStep at f1 f2 f3 f4
  by_cases hlast : i = n - 1
  · simp only [if_pos hlast, upd, if_true, not_true, if_false] at f1 f2 f3 f4 ⊢
    simp only [loc_sum, hkj, hsub] at f1 f4
    refine ⟨?_, by rw [f2]; rfl, by rw [f3]; rfl, f4⟩
    rw [f1]
    rw [show (1:Num) = .fin 1 from rfl]
    have := swirl_gamma hi 1 (ctEff n k l i) (fun h => hb h i hin)
    rw [show (1:Num) = .fin 1 from rfl] at this
    rw [this]
    congr 1; ring
  · have hb' : (1 : Num) + sumFrom n s.gamma_t_bar (i+1) = .fin (1 - 2 * aOfCt (ctEff n k l (i+1))) := by
      rw [sumFrom_fin n _ _ _ hg, tele (n - 1 - (i+1)) (i+1) (by omega)]
      simp only [Num.one_def, Num.fin_add]
      congr 1; ring
    have hlocv : ((Num.fin (k (i+1)) / 2)^2 * (1 / (.fin (l i))^2 - 1 / (.fin (l (i+1)))^2) : Num) =
        .fin ((k (i+1) / 2)^2 * (1 / l i^2 - 1 / l (i+1)^2)) := by
      have h1 : (l i)^2 ≠ 0 := by have := hl i hin; positivity
      have h2 : (l (i+1))^2 ≠ 0 := by have := hl (i+1) (by omega); positivity
      simp only [Num.ofNat_def, Num.one_def, Num.fin_mul, Num.fin_pow, Num.fin_div (two_ne_zero), Num.fin_div h1, Num.fin_div h2,
        Num.fin_sub]
    simp only [if_neg hlast, upd, if_true, not_true, if_false, hlocv, hb'] at f1 f2 f3 f4 ⊢
    simp only [loc_sum, hkj, hsub] at f1 f4
    refine ⟨?_, f2, f3, f4⟩
    rw [f1, swirl_gamma hi _ (ctEff n k l i) (fun h => hb h i hin)]
    congr 1; ring


/-! ### Without swirl -/

/-- without swirl, the loop solves the recursion of the wake velocities `q` -/
theorem discr_noswirl (n : ℕ) (k ap q : ℕ → ℝ) (l : ℕ → Num) (hi : Bool) (hn : q n = 1)
    (hq : ∀ i < n, (hi = true ∧ Ctc < k i → q i = 1 - 2 * aOfCt (k i)) ∧
      (¬ (hi = true ∧ Ctc < k i) →
        0 ≤ q (i+1)^2 - (k i - (if i = n - 1 then 0 else k (i+1))) * (1 + ap i) ∧
        q i = √(q (i+1)^2 - (k i - (if i = n - 1 then 0 else k (i+1))) * (1 + ap i))))
    (d : ℕ) : ∀ i, i < n → n - 1 - i = d →
    (discrLoop n (fun i => .fin (k i)) (fun i => .fin (ap i)) (fun i => .fin (k i * (1 + ap i))) l false hi).gamma_t_bar i =
      .fin (q i - q (i+1)) ∧
    (discrLoop n (fun i => .fin (k i)) (fun i => .fin (ap i)) (fun i => .fin (k i * (1 + ap i))) l false hi).b i =
      .fin (q (i+1)) := by
  induction d using Nat.strong_induction_on with
  | _ d ih =>
  intro i hin hd
  obtain ⟨f1, -, f3, -⟩ := discrLoop_fix n (fun i => .fin (k i)) (fun i => .fin (ap i))
    (fun i => .fin (k i * (1 + ap i))) l false hi i hin
  generalize discrLoop n (fun i => Num.fin (k i)) (fun i => .fin (ap i)) (fun i => .fin (k i * (1 + ap i))) l false hi = s at *
  have hg : ∀ j, i + 1 ≤ j → j < n → s.gamma_t_bar j = .fin (q j - q (j+1)) :=
    fun j h1 h2 => (ih (n-1-j) (by omega) j h2 rfl).1
  have tele : ∀ m lo, lo + m = n → ∑ j ∈ Ico lo n, (q j - q (j+1)) = q lo - 1 := by
    intro m
    induction m with
    | zero => intro lo hlo; rw [show lo = n by omega]; simp [hn]
    | succ m ihm =>
      intro lo hlo
      rw [Finset.sum_eq_sum_Ico_succ_bot (by omega), ihm (lo+1) (by omega)]; ring
  have hk0 : (Num.fin (k i) - (0:Num)) = .fin (k i) := by
    simp only [Num.zero_def, Num.fin_sub, sub_zero]
  have fin_of : ∀ b S : ℝ, b = q (i+1) →
      S = q (i+1)^2 - (k i - (if i = n - 1 then 0 else k (i+1))) * (1 + ap i) →
      (if hi = true then (if ctcN < Num.fin (k i) then - Num.fin b + (1 - 2 * ((.fin (k i) - 4 * acN^2) / (4 * (1 - 2 * acN))))
        else - Num.fin b + Num.sqrt (.fin S)) else - Num.fin b + Num.sqrt (.fin S)) = .fin (q i - q (i+1)) := by
    intro b S hb hS
    obtain ⟨q1, q2⟩ := hq i hin
    by_cases hc : hi = true ∧ Ctc < k i
    · rw [if_pos hc.1, ctcN_fin, if_pos (Num.lt_fin.mpr hc.2), spera_fin, q1 hc]
      unfold aOfCt
      rw [if_neg (not_le.mpr hc.2), hb]
      simp only [Num.ofNat_def, Num.one_def, Num.fin_mul, Num.fin_sub, Num.fin_neg, Num.fin_add]
      congr 1; ring
    · obtain ⟨p1, p2⟩ := q2 hc
      have : - Num.fin b + Num.sqrt (.fin S) = .fin (q i - q (i+1)) := by
        rw [hS, Num.sqrt_fin p1, ← p2, hb]
        simp only [Num.fin_neg, Num.fin_add]; congr 1; ring
      rw [this]
      cases hi
      · simp
      · have : ¬ (Ctc < k i) := fun h => hc ⟨rfl, h⟩
        simp [ctcN_fin, this]
  unfold discrStep at f1 f3
  by_cases hlast : i = n - 1
  · have hq1 : q (i+1) = 1 := by rw [show i + 1 = n by omega, hn]
    simp only [if_pos hlast, upd, if_true, not_true, if_false, Bool.false_eq_true, not_false_eq_true] at f1 f3
    constructor
    · rw [f1]
      have := fin_of 1 (1 - k i * (1 + ap i)) hq1.symm (by rw [if_pos hlast, hq1]; ring)
      rw [← this]
      simp only [hk0, ← Num.fin_sub, Num.one_def]
    · rw [f3, hq1]; rfl
  · have hb' : (1 : Num) + sumFrom n s.gamma_t_bar (i+1) = .fin (q (i+1)) := by
      rw [sumFrom_fin n _ _ _ hg, tele (n - (i+1)) (i+1) (by omega)]
      simp only [Num.one_def, Num.fin_add]
      congr 1; ring
    simp only [if_neg hlast, upd, if_true, not_true, if_false, Bool.false_eq_true, not_false_eq_true, hb'] at f1 f3
    constructor
    · rw [f1]
      have := fin_of (q (i+1)) (q (i+1)^2 - (k i - k (i+1)) * (1 + ap i)) rfl (by rw [if_neg hlast])
      rw [← this]
      simp only [hk0, Num.fin_pow, Num.fin_sub, Num.one_def, Num.fin_add, Num.fin_mul]
    · exact f3

/-! ### Evaluation of the whole function -/

/-- array of ordinary numbers -/
noncomputable def farr (n : ℕ) (f : ℕ → ℝ) : List Num := arr n fun i => .fin (f i)

theorem farr_length (n : ℕ) (f : ℕ → ℝ) : (farr n f).length = n := by simp [farr, arr]
theorem idx_farr (n : ℕ) (f : ℕ → ℝ) (i : ℕ) (h : i < n) : idx (farr n f) i = .fin (f i) := idx_arr n _ i h

theorem farr_eq_map (n : ℕ) (f : ℕ → ℝ) : farr n f = ((List.range n).map f).map Num.fin := by
  simp [farr, arr]

theorem amax_fin (a : ℝ) (l : List ℝ) :
    ∃ m, amax (.fin a) (l.map Num.fin) = .fin m ∧ m ∈ a :: l ∧ ∀ x ∈ a :: l, x ≤ m := by
  induction l generalizing a with
  | nil => exact ⟨a, rfl, by simp, by simp⟩
  | cons b l ih =>
    simp only [List.map_cons, amax]
    have e : numMax (.fin a) (.fin b) = .fin (max a b) := by
      unfold numMax
      rcases lt_or_ge a b with h | h
      · rw [if_pos (Num.lt_fin.mpr h), max_eq_right h.le]
      · rw [if_neg (fun h' => absurd (Num.lt_fin.mp h') (not_lt.mpr h)), if_pos (Num.le_fin.mpr h), max_eq_left h]
    rw [e]
    obtain ⟨m, h1, h2, h3⟩ := ih (max a b)
    refine ⟨m, h1, ?_, ?_⟩
    · rcases List.mem_cons.mp h2 with h | h
      · rcases max_choice a b with hm | hm <;> rw [h, hm] <;> simp
      · simp [h]
    · intro x hx
      have hm := h3 (max a b) (by simp)
      rcases List.mem_cons.mp hx with rfl | hx
      · exact le_trans (le_max_left _ _) hm
      · rcases List.mem_cons.mp hx with rfl | hx
        · exact le_trans (le_max_right _ _) hm
        · exact h3 x (by simp [hx])

theorem amax_farr (n : ℕ) (f : ℕ → ℝ) (hn : 0 < n) :
    ∃ i < n, amax (idx (farr n f) 0) (farr n f).tail = .fin (f i) ∧ ∀ j < n, f j ≤ f i := by
  obtain ⟨m, rfl⟩ : ∃ m, n = m + 1 := ⟨n - 1, by omega⟩
  rw [idx_farr _ _ _ hn]
  have : (farr (m+1) f).tail = (((List.range m).map (fun i => f (i+1)))).map Num.fin := by
    rw [farr_eq_map, List.range_succ_eq_map]; simp [Function.comp_def]
  rw [this]
  obtain ⟨M, h1, h2, h3⟩ := amax_fin (f 0) ((List.range m).map (fun i => f (i+1)))
  have hall : ∀ j < m+1, f j ≤ M := by
    intro j hj
    rcases j with _ | j
    · exact h3 _ (by simp)
    · exact h3 _ (by simp only [List.mem_cons, List.mem_map, List.mem_range]; exact Or.inr ⟨j, by omega, rfl⟩)
  rcases List.mem_cons.mp h2 with h | h
  · exact ⟨0, by omega, by rw [h1, h], by rw [← h]; exact hall⟩
  · simp only [List.mem_map, List.mem_range] at h
    obtain ⟨j, hj, rfl⟩ := h
    exact ⟨j+1, by omega, h1, hall⟩

/-- the cylinders enclose the control points -/
theorem enclose (n : ℕ) (r c : ℕ → ℝ) (hn : 0 < n) :
    (amax (idx (farr n c) 0) (farr n c).tail < amax (idx (farr n r) 0) (farr n r).tail) ↔
      ¬ ∃ i < n, ∀ j < n, r j ≤ c i := by
  obtain ⟨i, hi, e1, h1⟩ := amax_farr n c hn
  obtain ⟨j, hj, e2, h2⟩ := amax_farr n r hn
  rw [e1, e2, Num.lt_fin]
  constructor
  · rintro h ⟨i', hi', h'⟩
    have := h' j hj
    have := h1 i' hi'
    linarith
  · intro h
    by_contra hlt
    push Not at hlt
    exact h ⟨i, hi, fun j' hj' => le_trans (h2 j' hj') hlt⟩

theorem defaultRcyl_fin (n : ℕ) (r : ℕ → ℝ) (R : ℝ) (hn : 0 < n) :
    defaultRcyl (farr n r) (.fin R) = farr n (rcyl n r R) := by
  unfold defaultRcyl
  simp only [farr_length]
  by_cases h1 : n = 1
  · subst h1
    simp [farr, arr, rcyl]
  · rw [if_neg h1]
    apply arr_congr
    intro i hi
    unfold rcyl
    rw [if_neg h1]
    by_cases hl : i = n - 1
    · rw [if_pos hl, if_pos hl, idx_farr _ _ _ (by omega), idx_farr _ _ _ (by omega)]
      simp only [Num.ofNat_def, Num.fin_sub, Num.fin_div two_ne_zero, Num.fin_add]
    · rw [if_neg hl, if_neg hl, idx_farr _ _ _ (by omega), idx_farr _ _ _ (by omega)]
      simp only [Num.ofNat_def, Num.fin_sub, Num.fin_div two_ne_zero, Num.fin_add]

/-- the default radii are the explicit radii `rcyl` -/
theorem discr_default (n : ℕ) (r : ℕ → ℝ) (G : List Num) (R : ℝ) (U0 Omega nB : Num) (sw bt hi : Bool) (hn : 0 < n) :
    wakeVorticityDiscr (farr n r) G (.fin R) U0 Omega nB sw bt hi none =
      wakeVorticityDiscr (farr n r) G (.fin R) U0 Omega nB sw bt hi (some (farr n (rcyl n r R))) := by
  unfold wakeVorticityDiscr
  simp only [defaultRcyl_fin n r R hn]

/-- quantities of the loop, in real numbers -/
theorem discr_inputs (n : ℕ) (G c : ℕ → ℝ) (U0 Ω nB : ℝ) (bt : Bool) (hU : U0 ≠ 0) (hΩ : Ω ≠ 0)
    (hc : ∀ i < n, c i ≠ 0) (i : ℕ) (hi : i < n) :
    idx (farr n G) i * .fin nB = .fin (nB * G i) ∧
    (Num.fin (nB * G i) * .fin Ω / (.fin π * (.fin U0)^2) = .fin (kOf (nB * G i) U0 Ω)) ∧
    (Num.fin Ω * idx (farr n c) i / .fin U0 = .fin (Ω * c i / U0)) := by
  refine ⟨?_, ?_, ?_⟩
  · rw [idx_farr _ _ _ hi, Num.fin_mul, mul_comm]
  · have : π * U0^2 ≠ 0 := by positivity
    simp only [Num.fin_mul, Num.fin_pow, Num.fin_div this]; rfl
  · rw [idx_farr _ _ _ hi, Num.fin_mul, Num.fin_div hU]

theorem discrLoop_congr (n : ℕ) (k k' ap ap' C C' l l' : ℕ → Num) (sw hi : Bool)
    (h1 : ∀ i < n, k i = k' i) (h2 : ∀ i < n, ap i = ap' i) (h3 : ∀ i < n, C i = C' i) (h4 : ∀ i < n, l i = l' i) :
    discrLoop n k ap C l sw hi = discrLoop n k' ap' C' l' sw hi := by
  unfold discrLoop
  apply List.foldl_ext
  intro s i hi'
  rw [List.mem_reverse, List.mem_range] at hi'
  unfold discrStep
  by_cases hl : i = n - 1
  · simp only [if_pos hl, h1 i hi', h3 i hi', h4 i hi']
  · simp only [if_neg hl, h1 i hi', h2 i hi', h4 i hi', h1 (i+1) (by omega), h4 (i+1) (by omega)]

theorem apCylConv_fin (n : ℕ) (G c : ℕ → ℝ) (Ω : ℝ) (g : ℕ → Num) (hΩ : Ω ≠ 0) (hc : ∀ i < n, c i ≠ 0)
    (hg : ∀ i < n, g i = .fin (G i)) (i : ℕ) (hi : i < n) :
    apCylConv n g (idx (farr n c)) (.fin Ω) i = .fin (apConv n G c Ω i) := by
  have h0 : (4 * π * Ω * c i)^2 ≠ 0 := by
    have := hc i hi
    have := Real.pi_ne_zero
    positivity
  unfold apCylConv apConv
  by_cases hl : i = n - 1
  · rw [if_pos hl, if_pos hl, idx_farr _ _ _ hi, hg i hi]
    simp only [Num.ofNat_def, Num.fin_mul, Num.fin_pow, Num.fin_div h0, add_zero]
  · rw [if_neg hl, if_neg hl, idx_farr _ _ _ hi, hg i hi, hg (i+1) (by omega)]
    simp only [Num.ofNat_def, Num.fin_mul, Num.fin_pow, Num.fin_add, Num.fin_div h0]

/-- convection induction of the cylinders with the option `bTanInd_k` -/
noncomputable def apOpt (bt : Bool) (n : ℕ) (G c : ℕ → ℝ) (Ω : ℝ) (i : ℕ) : ℝ := if bt then apConv n G c Ω i else 0

/-- the solver runs to its end when the cylinders enclose the control points -/
theorem discr_eval (n : ℕ) (r G c : ℕ → ℝ) (R : Num) (U0 Ω nB : ℝ) (sw bt hi : Bool) (hn : 0 < n) (hU : U0 ≠ 0) (hΩ : Ω ≠ 0)
    (hc : ∀ i < n, c i ≠ 0) (henc : ∃ i < n, ∀ j < n, r j ≤ c i) :
    wakeVorticityDiscr (farr n r) (farr n G) R (.fin U0) (.fin Ω) (.fin nB) sw bt hi (some (farr n c)) =
    (let s := discrLoop n (fun i => .fin (kOf (nB * G i) U0 Ω)) (fun i => .fin (apOpt bt n (fun i => nB * G i) c Ω i))
      (fun i => .fin (kOf (nB * G i) U0 Ω * (1 + apOpt bt n (fun i => nB * G i) c Ω i))) (fun i => .fin (Ω * c i / U0)) sw hi
     let a := ((cumsum ((arr n fun i => s.gamma_t_bar i / 2).reverse)).map fun x => -x).reverse
     let misc : DMisc := ⟨a, if sw then arr n fun i => .fin (nB * G i) / (4 * .fin Real.pi * .fin Ω * (.fin (r i))^2) else a.map fun x => x * 0,
       farr n (fun i => nB * G i), farr n r, arr n fun i => 2 * .fin Real.pi * (.fin U0 * (s.b i + s.gamma_t_bar i / 2)) /
        (.fin Ω * (1 + .fin (apOpt bt n (fun i => nB * G i) c Ω i)))⟩
     let gt := arr n fun i => s.gamma_t_bar i * .fin U0
     .ok (if sw then ⟨gt, some (arr n fun i => .fin (nB * G i - (if i = n - 1 then 0 else nB * G (i+1))) / (2 * .fin Real.pi * .fin (r i))),
        some (.fin (- (nB * G 0))), misc⟩ else ⟨gt, none, none, misc⟩)) := by
  have hin := fun i hi' => discr_inputs n G c U0 Ω nB bt hU hΩ hc i hi'
  unfold wakeVorticityDiscr
  simp only [farr_length, ne_eq, not_true, or_false]
  rw [if_neg (by omega), if_neg (by rw [enclose n r c hn]; exact not_not.mpr henc),
    if_neg (by rw [idx_farr _ _ _ hn]; exact hc 0 hn)]
  have hap : ∀ i < n, (if bt = true then apCylConv n (fun i => idx (farr n G) i * Num.fin nB) (idx (farr n c)) (Num.fin Ω) i
      else 0 * (idx (farr n G) i * Num.fin nB)) = .fin (apOpt bt n (fun i => nB * G i) c Ω i) := by
    intro i hi'
    cases bt
    · rw [if_neg (by simp), (hin i hi').1]
      simp [apOpt]
    · rw [if_pos rfl, apCylConv_fin n (fun i => nB * G i) c Ω _ hΩ hc (fun i hi' => (hin i hi').1) i hi']
      simp [apOpt]
  have hloop : discrLoop n (fun i => idx (farr n G) i * Num.fin nB * Num.fin Ω / (Num.fin π * Num.fin U0 ^ 2))
      (fun i => if bt = true then apCylConv n (fun i => idx (farr n G) i * Num.fin nB) (idx (farr n c)) (Num.fin Ω) i
        else 0 * (idx (farr n G) i * Num.fin nB))
      (fun i => idx (farr n G) i * Num.fin nB * Num.fin Ω / (Num.fin π * Num.fin U0 ^ 2) * (1 +
        if bt = true then apCylConv n (fun i => idx (farr n G) i * Num.fin nB) (idx (farr n c)) (Num.fin Ω) i
        else 0 * (idx (farr n G) i * Num.fin nB)))
      (fun i => Num.fin Ω * idx (farr n c) i / Num.fin U0) sw hi =
      discrLoop n (fun i => .fin (kOf (nB * G i) U0 Ω)) (fun i => .fin (apOpt bt n (fun i => nB * G i) c Ω i))
      (fun i => .fin (kOf (nB * G i) U0 Ω * (1 + apOpt bt n (fun i => nB * G i) c Ω i))) (fun i => .fin (Ω * c i / U0)) sw hi := by
    apply discrLoop_congr
    · intro i hi'
      rw [(hin i hi').1, (hin i hi').2.1]
    · exact hap
    · intro i hi'
      rw [hap i hi', (hin i hi').1, (hin i hi').2.1]
      simp only [Num.one_def, Num.fin_add, Num.fin_mul]
    · intro i hi'
      exact (hin i hi').2.2
  rw [hloop]
  generalize discrLoop n (fun i => Num.fin (kOf (nB * G i) U0 Ω)) (fun i => .fin (apOpt bt n (fun i => nB * G i) c Ω i))
      (fun i => .fin (kOf (nB * G i) U0 Ω * (1 + apOpt bt n (fun i => nB * G i) c Ω i))) (fun i => .fin (Ω * c i / U0)) sw hi = s
  have e1 : (arr n fun i => 2 * Num.fin π * (Num.fin U0 * (s.b i + s.gamma_t_bar i / 2)) / (Num.fin Ω * (1 +
      if bt = true then apCylConv n (fun i => idx (farr n G) i * Num.fin nB) (idx (farr n c)) (Num.fin Ω) i
        else 0 * (idx (farr n G) i * Num.fin nB)))) = arr n fun i => 2 * .fin Real.pi * (.fin U0 * (s.b i + s.gamma_t_bar i / 2)) /
        (.fin Ω * (1 + .fin (apOpt bt n (fun i => nB * G i) c Ω i))) := by
    apply arr_congr
    intro i hi'
    rw [hap i hi']
  have e2 : (arr n fun i => idx (farr n G) i * Num.fin nB / (4 * Num.fin π * Num.fin Ω * idx (farr n r) i ^ 2)) =
      arr n fun i => .fin (nB * G i) / (4 * .fin Real.pi * .fin Ω * (.fin (r i))^2) := by
    apply arr_congr
    intro i hi'
    rw [(hin i hi').1, idx_farr _ _ _ hi']
  have e3 : (arr n fun i => idx (farr n G) i * Num.fin nB) = farr n fun i => nB * G i := by
    apply arr_congr
    intro i hi'
    rw [(hin i hi').1]
  have e4 : (arr n fun i => (idx (farr n G) i * Num.fin nB - (if i = n - 1 then 0 else idx (farr n G) (i+1) * Num.fin nB)) /
      (2 * Num.fin π * idx (farr n r) i)) =
      arr n fun i => .fin (nB * G i - (if i = n - 1 then 0 else nB * G (i+1))) / (2 * .fin Real.pi * .fin (r i)) := by
    apply arr_congr
    intro i hi'
    rw [(hin i hi').1, idx_farr _ _ _ hi']
    by_cases hl : i = n - 1
    · rw [if_pos hl, if_pos hl, Num.zero_def, Num.fin_sub]
    · rw [if_neg hl, if_neg hl, (hin (i+1) (by omega)).1, Num.fin_sub]
  have e5 : - (idx (farr n G) 0 * Num.fin nB) = .fin (-(nB * G 0)) := by rw [(hin 0 hn).1]; rfl
  simp only [e1, e2, e3, e4, e5]

/-- with swirl -/
theorem discr_eval_swirl (n : ℕ) (r G c : ℕ → ℝ) (R : Num) (U0 Ω nB : ℝ) (bt hi : Bool) (hn : 0 < n) (hU : U0 ≠ 0) (hΩ : Ω ≠ 0)
    (hr : ∀ i < n, r i ≠ 0) (hc : ∀ i < n, c i ≠ 0) (henc : ∃ i < n, ∀ j < n, r j ≤ c i)
    (hb : hi = false → ∀ i < n, ctEff n (fun i => kOf (nB * G i) U0 Ω) (fun i => Ω * c i / U0) i ≤ Ctc) :
    ∃ h, wakeVorticityDiscr (farr n r) (farr n G) R (.fin U0) (.fin Ω) (.fin nB) true bt hi (some (farr n c)) =
     .ok ⟨farr n fun i => -2 * U0 * (aOfCt (ctEff n (fun i => kOf (nB * G i) U0 Ω) (fun i => Ω * c i / U0) i) -
            (if i = n - 1 then 0 else aOfCt (ctEff n (fun i => kOf (nB * G i) U0 Ω) (fun i => Ω * c i / U0) (i+1)))),
       some (farr n fun i => (nB * G i - (if i = n - 1 then 0 else nB * G (i+1))) / (2 * π * r i)), some (.fin (-(nB * G 0))),
       ⟨farr n fun i => aOfCt (ctEff n (fun i => kOf (nB * G i) U0 Ω) (fun i => Ω * c i / U0) i),
        farr n fun i => nB * G i / (4 * π * Ω * r i^2), farr n fun i => nB * G i, farr n r, arr n h⟩⟩ ∧
     ∀ i < n, h i = .fin (2 * π * (U0 * (1 - aOfCt (ctEff n (fun i => kOf (nB * G i) U0 Ω) (fun i => Ω * c i / U0) i) -
            (if i = n - 1 then 0 else aOfCt (ctEff n (fun i => kOf (nB * G i) U0 Ω) (fun i => Ω * c i / U0) (i+1)))))) /
        (.fin (Ω * (1 + apOpt bt n (fun i => nB * G i) c Ω i))) := by
  rw [discr_eval n r G c R U0 Ω nB true bt hi hn hU hΩ hc henc]
  have hs := fun i hi' => discr_swirl n (fun i => kOf (nB * G i) U0 Ω) (fun i => Ω * c i / U0)
    (fun i => .fin (apOpt bt n (fun i => nB * G i) c Ω i)) (fun i => .fin (kOf (nB * G i) U0 Ω * (1 + apOpt bt n (fun i => nB * G i) c Ω i)))
    hi (fun i hi' => by have := hc i hi'; positivity) hb _ i hi' rfl
  generalize discrLoop n (fun i => Num.fin (kOf (nB * G i) U0 Ω)) (fun i => .fin (apOpt bt n (fun i => nB * G i) c Ω i))
      (fun i => .fin (kOf (nB * G i) U0 Ω * (1 + apOpt bt n (fun i => nB * G i) c Ω i))) (fun i => .fin (Ω * c i / U0)) true hi = s at *
  generalize hA : (fun i => aOfCt (ctEff n (fun i => kOf (nB * G i) U0 Ω) (fun i => Ω * c i / U0) i)) = A
  have hA' : ∀ i, aOfCt (ctEff n (fun i => kOf (nB * G i) U0 Ω) (fun i => Ω * c i / U0) i) = A i := fun i => by rw [← hA]
  simp only [hA'] at hs ⊢
  refine ⟨fun i => 2 * Num.fin π * (Num.fin U0 * (s.b i + s.gamma_t_bar i / 2)) /
      (Num.fin Ω * (1 + Num.fin (apOpt bt n (fun i => nB * G i) c Ω i))), ?_, ?_⟩
  rotate_left
  · intro i hi'
    obtain ⟨h1, -, h3, -⟩ := hs i hi'
    simp only [h1, h3, Num.ofNat_def, Num.one_def, Num.fin_mul, Num.fin_div two_ne_zero, Num.fin_add]
    congr 2
    by_cases hl : i = n - 1
    · simp only [if_pos hl]; ring
    · simp only [if_neg hl]; ring
  · simp only [if_true]
    have tele : ∀ m lo, lo + m = n - 1 → ∑ j ∈ Ico lo n, ((1 - 2 * A j) - (if j = n - 1 then 1 else 1 - 2 * A (j+1)))
        = (1 - 2 * A lo) - 1 := by
      intro m
      induction m with
      | zero =>
        intro lo hlo
        rw [Finset.sum_eq_sum_Ico_succ_bot (by omega), if_pos (by omega)]
        rw [Finset.Ico_eq_empty (by omega)]; simp
      | succ m ihm =>
        intro lo hlo
        rw [Finset.sum_eq_sum_Ico_succ_bot (by omega), ihm (lo+1) (by omega), if_neg (by omega)]; ring
    have ea : ((cumsum ((arr n fun i => s.gamma_t_bar i / 2).reverse)).map fun x => -x).reverse = farr n A := by
      rw [cumsum_arr n s.gamma_t_bar _ (fun i hi' => (hs i hi').1)]
      apply arr_congr
      intro i hi'
      rw [tele (n-1-i) i (by omega)]
      congr 1; ring
    have eg : (arr n fun i => s.gamma_t_bar i * .fin U0) =
        farr n fun i => -2 * U0 * (A i - (if i = n - 1 then 0 else A (i+1))) := by
      apply arr_congr
      intro i hi'
      rw [(hs i hi').1, Num.fin_mul]
      congr 1
      by_cases hl : i = n - 1
      · simp only [if_pos hl]; ring
      · simp only [if_neg hl]; ring
    have ep : (arr n fun i => .fin (nB * G i) / (4 * .fin Real.pi * .fin Ω * (.fin (r i))^2)) = farr n fun i => nB * G i / (4 * π * Ω * r i^2) := by
      apply arr_congr
      intro i hi'
      have : 4 * π * Ω * r i^2 ≠ 0 := by have := hr i hi'; positivity
      simp only [Num.ofNat_def, Num.fin_mul, Num.fin_pow, Num.fin_div this]
    have el : (arr n fun i => .fin (nB * G i - (if i = n - 1 then 0 else nB * G (i+1))) / (2 * .fin Real.pi * .fin (r i))) =
        farr n fun i => (nB * G i - (if i = n - 1 then 0 else nB * G (i+1))) / (2 * π * r i) := by
      apply arr_congr
      intro i hi'
      have : 2 * π * r i ≠ 0 := by have := hr i hi'; positivity
      simp only [Num.ofNat_def, Num.fin_mul, Num.fin_pow, Num.fin_div this]
    rw [ea, eg, ep, el]

/-- without swirl -/
theorem discr_eval_noswirl (n : ℕ) (r G c q : ℕ → ℝ) (R : Num) (U0 Ω nB : ℝ) (bt hi : Bool) (hn : 0 < n) (hU : U0 ≠ 0) (hΩ : Ω ≠ 0)
    (hc : ∀ i < n, c i ≠ 0) (henc : ∃ i < n, ∀ j < n, r j ≤ c i) (hqn : q n = 1)
    (hq : ∀ i < n, (hi = true ∧ Ctc < kOf (nB * G i) U0 Ω → q i = 1 - 2 * aOfCt (kOf (nB * G i) U0 Ω)) ∧
      (¬ (hi = true ∧ Ctc < kOf (nB * G i) U0 Ω) →
        0 ≤ q (i+1)^2 - (kOf (nB * G i) U0 Ω - (if i = n - 1 then 0 else kOf (nB * G (i+1)) U0 Ω)) *
          (1 + apOpt bt n (fun i => nB * G i) c Ω i) ∧
        q i = √(q (i+1)^2 - (kOf (nB * G i) U0 Ω - (if i = n - 1 then 0 else kOf (nB * G (i+1)) U0 Ω)) *
          (1 + apOpt bt n (fun i => nB * G i) c Ω i)))) :
    ∃ h, wakeVorticityDiscr (farr n r) (farr n G) R (.fin U0) (.fin Ω) (.fin nB) false bt hi (some (farr n c)) =
     .ok ⟨farr n fun i => U0 * (q i - q (i+1)), none, none,
       ⟨farr n fun i => (1 - q i) / 2, farr n fun _ => 0, farr n fun i => nB * G i, farr n r, arr n h⟩⟩ ∧
     ∀ i < n, h i = .fin (2 * π * (U0 * ((q i + q (i+1)) / 2))) / (.fin (Ω * (1 + apOpt bt n (fun i => nB * G i) c Ω i))) := by
  rw [discr_eval n r G c R U0 Ω nB false bt hi hn hU hΩ hc henc]
  have hs := fun i hi' => discr_noswirl n (fun i => kOf (nB * G i) U0 Ω) (fun i => apOpt bt n (fun i => nB * G i) c Ω i) q
    (fun i => .fin (Ω * c i / U0)) hi hqn hq _ i hi' rfl
  generalize discrLoop n (fun i => Num.fin (kOf (nB * G i) U0 Ω)) (fun i => .fin (apOpt bt n (fun i => nB * G i) c Ω i))
      (fun i => .fin (kOf (nB * G i) U0 Ω * (1 + apOpt bt n (fun i => nB * G i) c Ω i))) (fun i => .fin (Ω * c i / U0)) false hi = s at *
  refine ⟨fun i => 2 * Num.fin π * (Num.fin U0 * (s.b i + s.gamma_t_bar i / 2)) /
      (Num.fin Ω * (1 + Num.fin (apOpt bt n (fun i => nB * G i) c Ω i))), ?_, ?_⟩
  rotate_left
  · intro i hi'
    obtain ⟨h1, h3⟩ := hs i hi'
    simp only [h1, h3, Num.ofNat_def, Num.one_def, Num.fin_mul, Num.fin_div two_ne_zero, Num.fin_add]
    congr 2
    ring
  · simp only [Bool.false_eq_true, if_false]
    have tele : ∀ m lo, lo + m = n → ∑ j ∈ Ico lo n, (q j - q (j+1)) = q lo - 1 := by
      intro m
      induction m with
      | zero => intro lo hlo; rw [show lo = n by omega]; simp [hqn]
      | succ m ihm =>
        intro lo hlo
        rw [Finset.sum_eq_sum_Ico_succ_bot (by omega), ihm (lo+1) (by omega)]; ring
    have ea : ((cumsum ((arr n fun i => s.gamma_t_bar i / 2).reverse)).map fun x => -x).reverse = farr n fun i => (1 - q i) / 2 := by
      rw [cumsum_arr n s.gamma_t_bar _ (fun i hi' => (hs i hi').1)]
      apply arr_congr
      intro i hi'
      rw [tele (n-i) i (by omega)]
      congr 1; ring
    have eg : (arr n fun i => s.gamma_t_bar i * .fin U0) = farr n fun i => U0 * (q i - q (i+1)) := by
      apply arr_congr
      intro i hi'
      rw [(hs i hi').1, Num.fin_mul]
      congr 1; ring
    rw [ea, eg]
    have ez : (farr n fun i => (1 - q i) / 2).map (fun x => x * 0) = farr n fun _ => 0 := by
      unfold farr arr
      rw [List.map_map]
      apply List.map_congr_left
      intro i _
      simp
    rw [ez]

end Wiz
