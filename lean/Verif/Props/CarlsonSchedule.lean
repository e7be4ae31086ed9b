import Verif.Props.Elliptic
/-! # When the Carlson loops stop (C37) -/
namespace Wiz
open Spec Real Classical

theorem amax_lt (e : ℝ) (l : List ℝ) : Num.fin e < npAmax (l.map Num.fin) ↔ ∃ x ∈ l, e < x := by
  have fold : ∀ (l : List ℝ) (a : ℝ), (l.map Num.fin).foldl npMaximum (.fin a) = .fin (l.foldl max a) := by
    intro l
    induction l with
    | nil => intro a; rfl
    | cons b l ih =>
      intro a
      simp only [List.map_cons, List.foldl_cons]
      have : npMaximum (.fin a) (.fin b) = .fin (max a b) := by
        unfold npMaximum
        simp only [Num.lt_fin]
        split_ifs with h
        · rw [max_eq_right h.le]
        · rw [max_eq_left (not_lt.mp h)]
      rw [this]
      exact ih _
  have mx : ∀ (l : List ℝ) (a : ℝ), e < l.foldl max a ↔ e < a ∨ ∃ x ∈ l, e < x := by
    intro l
    induction l with
    | nil => intro a; simp
    | cons b l ih =>
      intro a
      simp only [List.foldl_cons, ih, lt_max_iff, List.mem_cons, exists_eq_or_imp]
      tauto
  cases l with
  | nil => simp only [List.map_nil, npAmax, List.not_mem_nil, false_and, exists_false, iff_false]; exact fun h => h
  | cons a l =>
    simp only [List.map_cons, npAmax, fold, Num.lt_fin, mx, List.mem_cons, exists_eq_or_imp]

/-- the test of the loops on a batch of finite values -/
theorem res_test {α : Type} (val val' : α → Num) (s : List α) (h : ∀ a ∈ s, (∃ x, val a = .fin x) ∧ ∃ x, val' a = .fin x) :
    (carlsonRES < npAmax (s.map fun a => Num.abs (val' a - val a)) ↔ ∃ a ∈ s, Num.fin 1e-12 < Num.abs (val' a - val a)) ∧
    (¬ carlsonRES < npAmax (s.map fun a => Num.abs (val' a - val a)) → ∀ a ∈ s, Num.abs (val' a - val a) ≤ Num.fin 1e-12) := by
  have : ∃ f : α → ℝ, ∀ a ∈ s, Num.abs (val' a - val a) = .fin (f a) := by
    have : ∀ a, ∃ r : ℝ, a ∈ s → Num.abs (val' a - val a) = .fin r := by
      intro a
      by_cases ha : a ∈ s
      · obtain ⟨⟨x, hx⟩, y, hy⟩ := h a ha
        exact ⟨|y - x|, fun _ => by rw [hx, hy, Num.fin_sub, Num.abs_fin]⟩
      · exact ⟨0, fun h => absurd h ha⟩
    choose f hf using this
    exact ⟨f, hf⟩
  obtain ⟨f, hf⟩ := this
  have e : (s.map fun a => Num.abs (val' a - val a)) = (s.map f).map Num.fin := by
    rw [List.map_map]
    apply List.map_congr_left
    intro a ha; exact hf a ha
  have h1 : carlsonRES < npAmax (s.map fun a => Num.abs (val' a - val a)) ↔ ∃ a ∈ s, (1e-12:ℝ) < f a := by
    rw [e, carlsonRES, amax_lt]; simp
  constructor
  · rw [h1]
    constructor
    · rintro ⟨a, ha, hx⟩; exact ⟨a, ha, by rw [hf a ha]; exact Num.lt_fin.mpr hx⟩
    · rintro ⟨a, ha, hx⟩; rw [hf a ha] at hx; exact ⟨a, ha, Num.lt_fin.mp hx⟩
  · rw [h1]
    intro hn a ha
    rw [hf a ha]
    push Not at hn
    exact hn a ha

/-- a loop that repeats an elementwise pass -/
theorem loop_stops {α : Type} (loop : ℕ → List α → List α) (step : α → α) (val : α → Num) (h0 : ∀ s, loop 0 s = s)
    (hs : ∀ f s, loop (f+1) s = if carlsonRES < npAmax (List.zipWith (fun a b => Num.abs (val b - val a)) s (s.map step))
      then loop f (s.map step) else s.map step) (fuel : ℕ) (s : List α) (hf : ∀ a ∈ s, ∀ j, ∃ x, val (step^[j] a) = .fin x) (hfu : 1 ≤ fuel) :
    ∃ k, loop fuel s = s.map step^[k] ∧ StopsAt 1e-12 fuel (fun j a => val (step^[j] a)) s k := by
  induction fuel generalizing s with
  | zero => omega
  | succ f ih =>
    have ez : List.zipWith (fun a b => Num.abs (val b - val a)) s (s.map step) = s.map fun a => Num.abs (val (step a) - val a) := by
      rw [List.zipWith_map_right, List.zipWith_self]
    obtain ⟨t1, t2⟩ := res_test val (fun a => val (step a)) s (fun a ha => ⟨hf a ha 0, hf a ha 1⟩)
    rw [hs, ez]
    by_cases hc : carlsonRES < npAmax (s.map fun a => Num.abs (val (step a) - val a))
    · rw [if_pos hc]
      rcases Nat.eq_zero_or_pos f with rfl | hfp
      · refine ⟨1, by rw [h0]; rfl, le_rfl, le_rfl, fun j h1 h2 => by omega, fun h => by omega⟩
      · obtain ⟨k, e, k1, k2, k3, k4⟩ := ih (s.map step) (by
          intro a ha j
          obtain ⟨b, hb, rfl⟩ := List.mem_map.mp ha
          exact hf b hb (j+1)) hfp
        refine ⟨k+1, by rw [e, List.map_map]; rfl, by omega, by omega, fun j h1 h2 => ?_, fun hk a ha => ?_⟩
        · rcases Nat.lt_or_ge 1 j with h | h
          · obtain ⟨b, hb, hx⟩ := k3 (j-1) (by omega) (by omega)
            obtain ⟨a, ha, rfl⟩ := List.mem_map.mp hb
            refine ⟨a, ha, ?_⟩
            obtain ⟨i, rfl⟩ : ∃ i, j = i + 2 := ⟨j-2, by omega⟩
            exact hx
          · have : j = 1 := by omega
            subst this
            exact t1.mp hc
        · obtain ⟨i, rfl⟩ : ∃ i, k = i + 1 := ⟨k-1, by omega⟩
          exact k4 (by omega) (step a) (List.mem_map.mpr ⟨a, ha, rfl⟩)
    · rw [if_neg hc]
      exact ⟨1, rfl, le_rfl, by omega, fun j h1 h2 => by omega, fun _ a ha => t2 hc a ha⟩

theorem ellipticRF_stops (ys : List ℝ) (h : ∀ y ∈ ys, 0 ≤ y) : ∃ k, ellipticRF (ys.map Num.fin) = ys.map (fun y => carlsonRF k (.fin y)) ∧
    StopsAt 1e-12 20 (fun j y => carlsonRF j (.fin y)) ys k := by
  obtain ⟨k, e, k1, k2, k3, k4⟩ := loop_stops rfLoop rfStep RFst.RF (fun _ => rfl) (fun _ _ => rfl) carlsonITMAX
    (ys.map fun y => ⟨0, .fin y, 1, 0⟩) (by
      intro a ha j
      obtain ⟨y, hy, rfl⟩ := List.mem_map.mp ha
      cases j with
      | zero => exact ⟨0, rfl⟩
      | succ j => exact ⟨_, carlsonRF_fin j y (h y hy)⟩) (by decide)
  refine ⟨k, ?_, k1, k2, fun j h1 h2 => ?_, fun hk y hy => k4 hk _ (List.mem_map.mpr ⟨y, hy, rfl⟩)⟩
  · unfold ellipticRF
    rw [List.map_map]
    have e' : (ys.map ((fun y => (⟨0, y, 1, 0⟩ : RFst)) ∘ Num.fin)) = ys.map fun y => ⟨0, .fin y, 1, 0⟩ := rfl
    rw [e', e, List.map_map, List.map_map]; rfl
  · obtain ⟨a, ha, hx⟩ := k3 j h1 h2
    obtain ⟨y, hy, rfl⟩ := List.mem_map.mp ha
    exact ⟨y, hy, hx⟩

theorem ellipticRC_stops (xys : List (Num × Num)) (h : ∀ p ∈ xys, ∃ x y : ℝ, p = (.fin x, .fin y) ∧ 0 ≤ x ∧ 0 < y) :
    ∃ k, ellipticRC xys = xys.map (fun p => carlsonRC k p.1 p.2) ∧ StopsAt 1e-12 20 (fun j p => carlsonRC j p.1 p.2) xys k := by
  obtain ⟨k, e, k1, k2, k3, k4⟩ := loop_stops rcLoop rcStep RCst.RC (fun _ => rfl) (fun _ _ => rfl) carlsonITMAX
    (xys.map fun p => ⟨p.1, p.2, 0⟩) (by
      intro a ha j
      obtain ⟨p, hp, rfl⟩ := List.mem_map.mp ha
      obtain ⟨x, y, rfl, hx, hy⟩ := h p hp
      cases j with
      | zero => exact ⟨0, rfl⟩
      | succ j => exact ⟨_, carlsonRC_fin j x y hx hy⟩) (by decide)
  refine ⟨k, ?_, k1, k2, fun j h1 h2 => ?_, fun hk y hy => k4 hk _ (List.mem_map.mpr ⟨y, hy, rfl⟩)⟩
  · unfold ellipticRC
    rw [e, List.map_map, List.map_map]; rfl
  · obtain ⟨a, ha, hx⟩ := k3 j h1 h2
    obtain ⟨y, hy, rfl⟩ := List.mem_map.mp ha
    exact ⟨y, hy, hx⟩

/-- the value of `RJ` after `j` passes, and the arguments of `RC` in pass `j`, are finite -/
theorem rj_finite (kC : ℕ → ℕ) (hC : ∀ j, 1 ≤ kC j) (y p : ℝ) (hy : 0 ≤ y) (hp : 0 < p) (j : ℕ) :
    (∃ x, (carlsonRJst kC (.fin y) (.fin p) j).RJ = .fin x) ∧
    ∃ a b : ℝ, (rjAlfa (carlsonRJst kC (.fin y) (.fin p) j), rjBet (carlsonRJst kC (.fin y) (.fin p) j)) = (.fin a, .fin b) ∧ 0 ≤ a ∧ 0 < b := by
  cases j with
  | zero =>
    refine ⟨⟨0, rfl⟩, rjAlfaR 0 y 1 p, rjBetR 0 y 1 p, ?_, rjAlfaR_nonneg _ _ _ _, rjBetR_pos hp⟩
    have h1 := rjAlfa_fin 0 y 1 p 0 0 le_rfl hy zero_le_one
    have h2 := rjBet_fin 0 y 1 p 0 0 le_rfl hy zero_le_one
    simp only [carlsonRJst, Num.zero_def, Num.one_def] at h1 h2 ⊢
    rw [h1, h2]
  | succ j =>
    rw [carlsonRJst_fin kC hC y p hy hp j]
    obtain ⟨a, b, c, d⟩ := dupIter_nonneg 0 y 1 le_rfl hy zero_le_one (by linarith) (j+1)
    rw [rjAlfa_fin _ _ _ _ _ _ a b c, rjBet_fin _ _ _ _ _ _ a b c]
    exact ⟨⟨_, rfl⟩, _, _, rfl, rjAlfaR_nonneg _ _ _ _, rjBetR_pos (dupP_pos 0 y 1 p hp (j+1))⟩

theorem rjst_congr (kC kC' : ℕ → ℕ) (n : ℕ) (h : ∀ j < n, kC' j = kC j) (y rho : Num) (j : ℕ) (hj : j ≤ n) :
    carlsonRJst kC' y rho j = carlsonRJst kC y rho j := by
  induction j with
  | zero => rfl
  | succ j ih =>
    simp only [carlsonRJst]
    rw [ih (by omega), h j (by omega)]

/-- the `RJ` loop started after `nIt` passes -/
theorem rjLoop_stops (ps : List (ℝ × ℝ)) (hps : ∀ p ∈ ps, 0 ≤ p.1 ∧ 0 < p.2) (fuel : ℕ) : ∀ (nIt : ℕ) (kC : ℕ → ℕ), 1 ≤ fuel → (∀ j, 1 ≤ kC j) →
    ∃ (k : ℕ) (kC' : ℕ → ℕ), (∀ j, 1 ≤ kC' j) ∧ (∀ j < nIt, kC' j = kC j) ∧
      rjLoop fuel nIt (ps.map fun p => carlsonRJst kC (.fin p.1) (.fin p.2) nIt) = (ps.map fun p => carlsonRJst kC' (.fin p.1) (.fin p.2) (nIt + k)) ∧
      StopsAt 1e-12 fuel (fun j p => (carlsonRJst kC' (.fin p.1) (.fin p.2) (nIt + j)).RJ) ps k ∧
      ∀ j, nIt ≤ j → j < nIt + k → StopsAt 1e-12 20
        (fun i p => carlsonRC i (rjAlfa (carlsonRJst kC' (.fin p.1) (.fin p.2) j)) (rjBet (carlsonRJst kC' (.fin p.1) (.fin p.2) j))) ps (kC' j) := by
  induction fuel with
  | zero => intro nIt kC h; omega
  | succ f ih =>
    intro nIt kC _ hk
    obtain ⟨c, ec, hcs⟩ := ellipticRC_stops
      ((ps.map fun p => carlsonRJst kC (.fin p.1) (.fin p.2) nIt).map fun a => (rjAlfa a, rjBet a)) (by
        intro q hq
        rw [List.map_map] at hq
        obtain ⟨p, hp, rfl⟩ := List.mem_map.mp hq
        exact (rj_finite kC hk p.1 p.2 (hps p hp).1 (hps p hp).2 nIt).2)
    let kC' : ℕ → ℕ := fun j => if j = nIt then c else kC j
    have hkn : kC' nIt = c := by simp [kC']
    have hk' : ∀ j, 1 ≤ kC' j := by
      intro j; simp only [kC']; split_ifs
      · exact hcs.1
      · exact hk j
    have hpre : ∀ j < nIt, kC' j = kC j := by
      intro j hj; simp only [kC']; rw [if_neg (by omega)]
    have hstep : List.zipWith (rjStep nIt) (ps.map fun p => carlsonRJst kC (.fin p.1) (.fin p.2) nIt)
        (ellipticRC ((ps.map fun p => carlsonRJst kC (.fin p.1) (.fin p.2) nIt).map fun a => (rjAlfa a, rjBet a)))
        = ps.map fun p => carlsonRJst kC' (.fin p.1) (.fin p.2) (nIt + 1) := by
      rw [ec]
      simp only [List.map_map]
      rw [List.zipWith_map, List.zipWith_self]
      apply List.map_congr_left
      intro p _
      simp only [carlsonRJst, rjst_congr kC kC' nIt hpre (.fin p.1) (.fin p.2) nIt le_rfl, Function.comp_def, hkn]
    have same : (ps.map fun p => carlsonRJst kC (.fin p.1) (.fin p.2) nIt) = ps.map fun p => carlsonRJst kC' (.fin p.1) (.fin p.2) nIt := by
      apply List.map_congr_left
      intro p _
      exact (rjst_congr kC kC' nIt hpre _ _ nIt le_rfl).symm
    have hinner : StopsAt 1e-12 20
        (fun i (p : ℝ × ℝ) => carlsonRC i (rjAlfa (carlsonRJst kC' (.fin p.1) (.fin p.2) nIt)) (rjBet (carlsonRJst kC' (.fin p.1) (.fin p.2) nIt))) ps c := by
      rw [same, List.map_map] at hcs
      obtain ⟨h1, h2, h3, h4⟩ := hcs
      refine ⟨h1, h2, fun j a b => ?_, fun hk p hp => h4 hk _ (List.mem_map.mpr ⟨p, hp, rfl⟩)⟩
      obtain ⟨q, hq, hx⟩ := h3 j a b
      obtain ⟨p, hp, rfl⟩ := List.mem_map.mp hq
      exact ⟨p, hp, hx⟩
    have ez : List.zipWith (fun a b => Num.abs (b.RJ - a.RJ)) (ps.map fun p => carlsonRJst kC' (.fin p.1) (.fin p.2) nIt)
        (ps.map fun p => carlsonRJst kC' (.fin p.1) (.fin p.2) (nIt + 1)) =
        ps.map fun p => Num.abs ((carlsonRJst kC' (.fin p.1) (.fin p.2) (nIt+1)).RJ - (carlsonRJst kC' (.fin p.1) (.fin p.2) nIt).RJ) := by
      rw [List.zipWith_map, List.zipWith_self]
    obtain ⟨t1, t2⟩ := res_test (fun p : ℝ × ℝ => (carlsonRJst kC' (.fin p.1) (.fin p.2) nIt).RJ)
      (fun p => (carlsonRJst kC' (.fin p.1) (.fin p.2) (nIt+1)).RJ) ps (fun p hp =>
        ⟨(rj_finite kC' hk' p.1 p.2 (hps p hp).1 (hps p hp).2 nIt).1, (rj_finite kC' hk' p.1 p.2 (hps p hp).1 (hps p hp).2 (nIt+1)).1⟩)
    simp only [rjLoop]
    rw [hstep, same, ez]
    by_cases hc : carlsonRES < npAmax (ps.map fun p => Num.abs ((carlsonRJst kC' (.fin p.1) (.fin p.2) (nIt+1)).RJ - (carlsonRJst kC' (.fin p.1) (.fin p.2) nIt).RJ))
    · rw [if_pos hc]
      have t1' := t1.mp hc
      rcases Nat.eq_zero_or_pos f with rfl | hfp
      · refine ⟨1, kC', hk', hpre, by simp [rjLoop], ⟨le_rfl, le_rfl, fun j h1 h2 => by omega, fun h => by omega⟩, fun j h1 h2 => ?_⟩
        have : j = nIt := by omega
        subst this
        rw [hkn]; exact hinner
      · obtain ⟨k, kD, h1, h2, e, ⟨k1, k2, k3, k4⟩, hin⟩ := ih (nIt+1) kC' hfp hk'
        have c0 : ∀ (y rho : Num) (j : ℕ), j ≤ nIt + 1 → carlsonRJst kD y rho j = carlsonRJst kC' y rho j :=
          fun y rho j hj => rjst_congr kC' kD (nIt+1) h2 y rho j hj
        refine ⟨k+1, kD, h1, fun j hj => by rw [h2 j (by omega), hpre j hj], by rw [e]; congr 1; ext p; congr 1; omega,
          ⟨by omega, by omega, fun j a b => ?_, fun hk p hp => ?_⟩, fun j a b => ?_⟩
        · rcases Nat.lt_or_ge 1 j with h | h
          · obtain ⟨p, hp, hx⟩ := k3 (j-1) (by omega) (by omega)
            refine ⟨p, hp, ?_⟩
            obtain ⟨i, rfl⟩ : ∃ i, j = i + 2 := ⟨j-2, by omega⟩
            simp only [Nat.add_sub_cancel, show i + 2 - 1 = i + 1 by omega] at hx ⊢
            rw [show nIt + (i+2) = nIt + 1 + (i+1) by omega, show nIt + (i+1) = nIt + 1 + i by omega]
            exact hx
          · have : j = 1 := by omega
            subst this
            obtain ⟨p, hp, hx⟩ := t1'
            refine ⟨p, hp, ?_⟩
            simp only [Nat.sub_self, Nat.add_zero]
            rw [c0 _ _ _ le_rfl, c0 _ _ nIt (by omega)]
            exact hx
        · have := k4 (by omega) p hp
          obtain ⟨i, rfl⟩ : ∃ i, k = i + 1 := ⟨k-1, by omega⟩
          simp only [Nat.add_sub_cancel] at this ⊢
          rw [show nIt + (i+1+1) = nIt + 1 + (i+1) by omega, show nIt + (i+1) = nIt + 1 + i by omega]
          exact this
        · rcases Nat.lt_or_ge nIt j with h | h
          · exact hin j (by omega) (by omega)
          · have : j = nIt := by omega
            subst this
            rw [h2 j (by omega), hkn]
            simp only [c0 _ _ j (by omega)]
            exact hinner
    · rw [if_neg hc]
      have t2' := t2 hc
      refine ⟨1, kC', hk', hpre, rfl, ⟨le_rfl, by omega, fun j h1 h2 => by omega, fun _ p hp => t2' p hp⟩, fun j h1 h2 => ?_⟩
      have : j = nIt := by omega
      subst this
      rw [hkn]; exact hinner

/-- C37: on every batch of reals with `m ≤ 1` the three loops stop exactly when they should: the first-kind loop after the first pass
that moves no entry of the batch by more than `1e-12` (or after 20); the third-kind loop likewise over the entries with `n < 1`; and inside
pass `j` of the third-kind loop the `RC` loop likewise over those entries.  With those counts every entry is the Carlson value. -/
theorem C37_stopping (nm : List (ℝ × ℝ)) (hm : ∀ p ∈ nm, p.2 ≤ 1) (hne : ∃ p ∈ nm, p.1 < 1) :
    ∃ (kF kJ : ℕ) (kC : ℕ → ℕ),
      ellipticPiCarlson (nm.map fun p => (.fin p.1, .fin p.2)) = nm.map (fun p => carlsonPi kF kJ kC (.fin p.1) (.fin p.2)) ∧
      StopsAt 1e-12 20 (fun j p => carlsonRF j (.fin (1 - p.2))) nm kF ∧
      StopsAt 1e-12 20 (fun j p => (carlsonRJst kC (.fin (1 - p.2)) (.fin (1 - p.1)) j).RJ) (nm.filter fun p => p.1 < 1) kJ ∧
      ∀ j < kJ, StopsAt 1e-12 20 (fun i p => carlsonRC i (rjAlfa (carlsonRJst kC (.fin (1 - p.2)) (.fin (1 - p.1)) j))
        (rjBet (carlsonRJst kC (.fin (1 - p.2)) (.fin (1 - p.1)) j))) (nm.filter fun p => p.1 < 1) (kC j) := by
  obtain ⟨kF, eF, hF⟩ := ellipticRF_stops (nm.map fun p => 1 - p.2) (by
    intro y hy
    obtain ⟨p, hp, rfl⟩ := List.mem_map.mp hy
    linarith [hm p hp])
  have mem : ∀ p ∈ nm.filter (fun p => decide (p.1 < 1)), p ∈ nm ∧ p.1 < 1 := by
    intro p hp
    simpa using hp
  obtain ⟨kJ, kC, hC, -, eJ, ⟨j1, j2, j3, j4⟩, hin⟩ := rjLoop_stops ((nm.filter fun p => decide (p.1 < 1)).map fun p => (1 - p.2, 1 - p.1)) (by
    intro q hq
    obtain ⟨p, hp, rfl⟩ := List.mem_map.mp hq
    obtain ⟨h1, h2⟩ := mem p hp
    exact ⟨by linarith [hm p h1], by linarith⟩) 20 0 (fun _ => 1) (by decide) (by simp)
  refine ⟨kF, kJ, kC, ?_, ?_, ?_, ?_⟩
  · have hrf : (ellipticRF ((nm.map fun p => ((.fin p.1 : Num), (.fin p.2 : Num))).map fun p => 1 - p.2)) = nm.map fun p => carlsonRF kF (.fin (1 - p.2)) := by
      rw [List.map_map] at eF ⊢
      rw [List.map_map] at eF
      exact eF
    have hrj : ellipticRJ ((nm.map fun p => ((.fin p.1 : Num), (.fin p.2 : Num))).map fun p => (1 - p.2, 1 - p.1)) =
        nm.map fun p => carlsonRJ kC kJ (.fin (1 - p.2)) (.fin (1 - p.1)) := by
      rw [List.map_map]
      have ef : ((nm.map ((fun p : Num × Num => (1 - p.2, 1 - p.1)) ∘ fun p => ((.fin p.1 : Num), (.fin p.2 : Num)))).filter fun p => decide ((0:Num) < p.2)) =
          (nm.filter fun p => decide (p.1 < 1)).map fun p => (.fin (1 - p.2), .fin (1 - p.1)) := by
        rw [List.filter_map]
        congr 1
        apply List.filter_congr
        intro p _
        apply decide_eq_decide.mpr
        show (Num.fin 0 < Num.fin (1 - p.1)) ↔ _
        rw [Num.lt_fin]
        exact sub_pos
      have e2 : (rjLoop carlsonITMAX 0 (((nm.filter fun p => decide (p.1 < 1)).map fun p => ((.fin (1 - p.2) : Num), (.fin (1 - p.1) : Num))).map
          fun p => ⟨0, p.1, 1, p.2, 0, 0⟩)).map RJst.RJ =
          ((nm.filter fun p => decide (p.1 < 1)).map fun p => ((.fin (1 - p.2) : Num), (.fin (1 - p.1) : Num))).map fun p => (carlsonRJst kC p.1 p.2 kJ).RJ := by
        rw [List.map_map] at eJ ⊢
        rw [List.map_map] at eJ
        rw [Nat.zero_add] at eJ
        have := congrArg (List.map RJst.RJ) eJ
        rw [List.map_map] at this ⊢
        exact this
      unfold ellipticRJ
      simp only []
      rw [if_neg (by
        rw [ef]
        obtain ⟨p, hp, h1⟩ := hne
        intro h
        have := List.map_eq_nil_iff.mp h
        have hmem : p ∈ nm.filter fun p => decide (p.1 < 1) := List.mem_filter.mpr ⟨hp, decide_eq_true h1⟩
        rw [this] at hmem
        cases hmem), ef, e2, ← ef, scatter_map, List.map_map]
      rfl
    unfold ellipticPiCarlson
    rw [if_neg (by
      obtain ⟨p, hp, -⟩ := hne
      intro h
      rw [List.map_eq_nil_iff.mp h] at hp
      cases hp)]
    simp only [hrf, hrj]
    rw [List.zipWith_map, List.zipWith_self, List.zipWith_map, List.zipWith_self]
    rfl
  · obtain ⟨h1, h2, h3, h4⟩ := hF
    refine ⟨h1, h2, fun j a b => ?_, fun hk p hp => h4 hk _ (List.mem_map.mpr ⟨p, hp, rfl⟩)⟩
    obtain ⟨q, hq, hx⟩ := h3 j a b
    obtain ⟨p, hp, rfl⟩ := List.mem_map.mp hq
    exact ⟨p, hp, hx⟩
  · refine ⟨j1, j2, fun j a b => ?_, fun hk p hp => ?_⟩
    · obtain ⟨q, hq, hx⟩ := j3 j a b
      obtain ⟨p, hp, rfl⟩ := List.mem_map.mp hq
      simp only [Nat.zero_add] at hx
      exact ⟨p, hp, hx⟩
    · have := j4 hk _ (List.mem_map.mpr ⟨p, hp, rfl⟩)
      simp only [Nat.zero_add] at this
      exact this
  · intro j hj
    have hs := hin j (by omega) (by omega)
    generalize kC j = c at hs ⊢
    generalize carlsonRJst kC = G at hs ⊢
    obtain ⟨h1, h2, h3, h4⟩ := hs
    refine ⟨h1, h2, fun i a b => ?_, fun hk p hp => ?_⟩
    · obtain ⟨q, hq, hx⟩ := h3 i a b
      obtain ⟨p, hp, rfl⟩ := List.mem_map.mp hq
      exact ⟨p, hp, hx⟩
    · have := h4 hk (1 - p.2, 1 - p.1) (List.mem_map.mpr ⟨p, hp, rfl⟩)
      exact this

/-- the hypotheses are met, also by a batch with an entry `n ≥ 1` -/
example : (∀ p ∈ [((0.5:ℝ),(0.25:ℝ)), (2, 0.5)], p.2 ≤ 1) ∧ ∃ p ∈ [((0.5:ℝ),(0.25:ℝ)), (2, 0.5)], p.1 < 1 := by
  refine ⟨by intro p hp; fin_cases hp <;> norm_num, (0.5, 0.25), by simp, by norm_num⟩
end Wiz
