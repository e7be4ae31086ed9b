import Verif.Model.PlanePlot
import Verif.Props.ProjData
import Verif.Props.BlockageSampling
/-! # C151: what the plane plots show -/
set_option autoImplicit false
namespace Wiz
open Spec Classical Real
noncomputable section

theorem mem_ravel2 {α : Type} (rows cols : ℕ) (a : ℕ → ℕ → α) (x : α) : x ∈ ravel2 rows cols a ↔ ∃ i < rows, ∃ j < cols, a i j = x := by
  simp only [ravel2, List.mem_flatMap, List.mem_range, List.mem_map]

theorem ravel2_fin (rows cols : ℕ) (a : ℕ → ℕ → Num) (s : ℕ → ℕ → ℝ) (h : ∀ i < rows, ∀ j < cols, a i j = .fin (s i j)) :
    ravel2 rows cols a = (ravel2 rows cols s).map Num.fin := by
  unfold ravel2
  rw [List.map_flatMap]
  apply List.flatMap_congr
  intro i hi
  rw [List.map_map]
  apply List.map_congr_left
  intro j hj
  exact h i (List.mem_range.1 hi) j (List.mem_range.1 hj)

theorem npMinimum_fin (a b : ℝ) : npMinimum (.fin a) (.fin b) = .fin (min a b) := by
  simp only [npMinimum, Num.lt_fin]
  split_ifs with h
  · rw [min_eq_right h.le]
  · rw [min_eq_left (not_lt.1 h)]

theorem plotMaximum_fin (a b : ℝ) : npMaximum (.fin a) (.fin b) = .fin (max a b) := by
  simp only [npMaximum, Num.lt_fin]
  split_ifs with h
  · rw [max_eq_right h.le]
  · rw [max_eq_left (not_lt.1 h)]

theorem plotMin_fin (l : List ℝ) (hl : l ≠ []) : ∃ lo ∈ l, npAmin (l.map .fin) = .fin lo ∧ ∀ x ∈ l, lo ≤ x := by
  cases l with
  | nil => exact absurd rfl hl
  | cons x l =>
    clear hl
    have fold : ∀ (l : List ℝ) (a : ℝ), (l.map Num.fin).foldl npMinimum (.fin a) = .fin (l.foldl min a) := by
      intro l
      induction l with
      | nil => intro a; rfl
      | cons b l ih => intro a; rw [List.map_cons, List.foldl_cons, List.foldl_cons, npMinimum_fin, ih]
    have prop : ∀ (l : List ℝ) (a : ℝ), l.foldl min a ∈ a :: l ∧ ∀ x ∈ a :: l, l.foldl min a ≤ x := by
      intro l
      induction l with
      | nil => intro a; simp
      | cons b l ih =>
        intro a
        obtain ⟨h1, h2⟩ := ih (min a b)
        rw [List.foldl_cons]
        refine ⟨?_, ?_⟩
        · rcases List.mem_cons.1 h1 with h | h
          · rw [h]
            rcases min_choice a b with e | e <;> rw [e] <;> simp
          · exact List.mem_cons_of_mem _ (List.mem_cons_of_mem _ h)
        · intro x hx
          have h3 := h2 _ List.mem_cons_self
          rcases List.mem_cons.1 hx with rfl | hx
          · exact h3.trans (min_le_left _ _)
          · rcases List.mem_cons.1 hx with rfl | hx
            · exact h3.trans (min_le_right _ _)
            · exact h2 x (List.mem_cons_of_mem _ hx)
    exact ⟨_, (prop l x).1, fold l x, (prop l x).2⟩

theorem plotMax_fin (l : List ℝ) (hl : l ≠ []) : ∃ hi ∈ l, npAmax (l.map .fin) = .fin hi ∧ ∀ x ∈ l, x ≤ hi := by
  cases l with
  | nil => exact absurd rfl hl
  | cons x l =>
    clear hl
    have fold : ∀ (l : List ℝ) (a : ℝ), (l.map Num.fin).foldl npMaximum (.fin a) = .fin (l.foldl max a) := by
      intro l
      induction l with
      | nil => intro a; rfl
      | cons b l ih => intro a; rw [List.map_cons, List.foldl_cons, List.foldl_cons, plotMaximum_fin, ih]
    have prop : ∀ (l : List ℝ) (a : ℝ), l.foldl max a ∈ a :: l ∧ ∀ x ∈ a :: l, x ≤ l.foldl max a := by
      intro l
      induction l with
      | nil => intro a; simp
      | cons b l ih =>
        intro a
        obtain ⟨h1, h2⟩ := ih (max a b)
        rw [List.foldl_cons]
        refine ⟨?_, ?_⟩
        · rcases List.mem_cons.1 h1 with h | h
          · rw [h]
            rcases max_choice a b with e | e <;> rw [e] <;> simp
          · exact List.mem_cons_of_mem _ (List.mem_cons_of_mem _ h)
        · intro x hx
          have h3 := h2 _ List.mem_cons_self
          rcases List.mem_cons.1 hx with rfl | hx
          · exact (le_max_left _ _).trans h3
          · rcases List.mem_cons.1 hx with rfl | hx
            · exact (le_max_right _ _).trans h3
            · exact h2 x (List.mem_cons_of_mem _ hx)
    exact ⟨_, (prop l x).1, fold l x, (prop l x).2⟩

theorem plotMin_nan (l : List Num) (h : .nan ∈ l) : npAmin l = .nan := by
  cases l with
  | nil => rfl
  | cons x l =>
    have stay : ∀ l : List Num, l.foldl npMinimum .nan = .nan := by
      intro l
      induction l with
      | nil => rfl
      | cons b l ih => rw [List.foldl_cons]; exact ih
    have key : ∀ (l : List Num) (a : Num), Num.nan ∈ a :: l → l.foldl npMinimum a = .nan := by
      intro l
      induction l with
      | nil => intro a ha; exact (List.mem_singleton.1 ha).symm
      | cons b l ih =>
        intro a ha
        rw [List.foldl_cons]
        rcases List.mem_cons.1 ha with e | ha
        · subst e; exact stay l
        · rcases List.mem_cons.1 ha with e | ha
          · subst e
            have : npMinimum a .nan = .nan := by cases a <;> rfl
            rw [this]; exact stay l
          · exact ih _ (List.mem_cons_of_mem _ ha)
    exact key l x h

theorem plotMax_nan (l : List Num) (h : .nan ∈ l) : npAmax l = .nan := by
  cases l with
  | nil => rfl
  | cons x l =>
    have stay : ∀ l : List Num, l.foldl npMaximum .nan = .nan := by
      intro l
      induction l with
      | nil => rfl
      | cons b l ih => rw [List.foldl_cons]; exact ih
    have key : ∀ (l : List Num) (a : Num), Num.nan ∈ a :: l → l.foldl npMaximum a = .nan := by
      intro l
      induction l with
      | nil => intro a ha; exact (List.mem_singleton.1 ha).symm
      | cons b l ih =>
        intro a ha
        rw [List.foldl_cons]
        rcases List.mem_cons.1 ha with e | ha
        · subst e; exact stay l
        · rcases List.mem_cons.1 ha with e | ha
          · subst e
            have : npMaximum a .nan = .nan := by cases a <;> rfl
            rw [this]; exact stay l
          · exact ih _ (List.mem_cons_of_mem _ ha)
    exact key l x h

theorem listMin_least (l : List ℝ) (hl : l ≠ []) : listMin l ∈ l ∧ ∀ x ∈ l, listMin l ≤ x := by
  obtain ⟨lo, h1, h2, h3⟩ := plotMin_fin l hl
  cases l with
  | nil => exact absurd rfl hl
  | cons x l =>
    have fold : ∀ (l : List ℝ) (a : ℝ), (l.map Num.fin).foldl npMinimum (.fin a) = .fin (l.foldl min a) := by
      intro l
      induction l with
      | nil => intro a; rfl
      | cons b l ih => intro a; rw [List.map_cons, List.foldl_cons, List.foldl_cons, npMinimum_fin, ih]
    have e : lo = listMin (x :: l) := (Num.fin.inj (h2.symm.trans (fold l x)))
    rw [← e]
    exact ⟨h1, h3⟩

theorem listMax_greatest (l : List ℝ) (hl : l ≠ []) : listMax l ∈ l ∧ ∀ x ∈ l, x ≤ listMax l := by
  obtain ⟨lo, h1, h2, h3⟩ := plotMax_fin l hl
  cases l with
  | nil => exact absurd rfl hl
  | cons x l =>
    have fold : ∀ (l : List ℝ) (a : ℝ), (l.map Num.fin).foldl npMaximum (.fin a) = .fin (l.foldl max a) := by
      intro l
      induction l with
      | nil => intro a; rfl
      | cons b l ih => intro a; rw [List.map_cons, List.foldl_cons, List.foldl_cons, plotMaximum_fin, ih]
    have e : lo = listMax (x :: l) := (Num.fin.inj (h2.symm.trans (fold l x)))
    rw [← e]
    exact ⟨h1, h3⟩

theorem norm2_nan (a b : Num) : Num.sqrt (a ^ 2 + b ^ 2) = .nan ↔ a = .nan ∨ b = .nan := by
  have h2 : ∀ x : ℝ, Num.fin x ^ 2 = .fin (x ^ 2) := fun x => by simp
  have hp : Num.pinf ^ 2 = .pinf := by
    change Num.mul (Num.mul (.fin 1) .pinf) .pinf = _
    rw [show Num.mul (.fin 1) .pinf = .pinf by simp [Num.mul, Num.infSign]]; rfl
  have hn : Num.ninf ^ 2 = .pinf := by
    change Num.mul (Num.mul (.fin 1) .ninf) .ninf = _
    rw [show Num.mul (.fin 1) .ninf = .ninf by simp [Num.mul, Num.infSign]]; rfl
  have hN : Num.nan ^ 2 = .nan := rfl
  have a1 : ∀ x : ℝ, Num.fin x + .pinf = .pinf := fun _ => rfl
  have a2 : ∀ x : ℝ, Num.pinf + .fin x = .pinf := fun _ => rfl
  have a3 : Num.pinf + Num.pinf = .pinf := rfl
  have a4 : ∀ x : Num, x + .nan = .nan := by intro x; cases x <;> rfl
  have a5 : ∀ x : Num, .nan + x = .nan := by intro x; cases x <;> rfl
  have s1 : Num.sqrt .pinf = .pinf := rfl
  have s2 : Num.sqrt .nan = .nan := rfl
  have s3 : ∀ x y : ℝ, Num.sqrt (.fin (x^2 + y^2)) = .fin √(x^2 + y^2) := fun x y => Num.sqrt_fin (by positivity)
  cases a <;> cases b <;> simp only [h2, hp, hn, hN, Num.fin_add, a1, a2, a3, a4, a5, s1, s2, s3] <;> simp

theorem norm2_fin (a b : ℝ) : Num.sqrt (Num.fin a ^ 2 + Num.fin b ^ 2) = .fin √(a^2 + b^2) := by
  rw [Num.fin_pow, Num.fin_pow, Num.fin_add, Num.sqrt_fin (by positivity)]

theorem limits_cases (m M : Option Num) (l : List Num) (lo hi : Option Num) (h : colourLimits m M l = .ok (lo, hi)) :
    (∃ x, m = some x ∧ lo = some x ∧ hi = M) ∨ (m = none ∧ l ≠ [] ∧ lo = some (npAmin l) ∧ hi = some (npAmax l)) := by
  unfold colourLimits at h
  cases m with
  | some x => cases h; exact Or.inl ⟨x, rfl, rfl, rfl⟩
  | none =>
    simp only at h
    split_ifs at h with h0
    cases h
    exact Or.inr ⟨rfl, h0, rfl, rfl⟩

/-- the colour limits are the least and greatest of the values drawn -/
def LimitsCover (r : Drawn) : Prop :=
  ∃ lo hi : ℝ, r.vmin = some (.fin lo) ∧ r.vmax = some (.fin hi) ∧
    (∀ i < r.rows, ∀ j < r.cols, ∀ s, r.value i j = some (.fin s) → lo ≤ s ∧ s ≤ hi) ∧
    (∃ i < r.rows, ∃ j < r.cols, r.value i j = some (.fin lo)) ∧ ∃ i < r.rows, ∃ j < r.cols, r.value i j = some (.fin hi)

/-- every node shows a finite value -/
def AllFinite (r : Drawn) : Prop := ∀ i < r.rows, ∀ j < r.cols, ∃ s : ℝ, r.value i j = some (.fin s)

theorem mask_fin (S : ℕ → ℕ → Num) (i j : ℕ) (s : ℝ) : maskNan S i j = some (.fin s) ↔ S i j = .fin s := by
  unfold maskNan
  split_ifs with h
  · simp [h]
  · simp

/-- values over `a` by `b` entries, drawn as they are or transposed -/
theorem cover_core (a b : ℕ) (S : ℕ → ℕ → Num) (hne : ravel2 a b S ≠ []) (hfin : ∀ i < a, ∀ j < b, ∃ s : ℝ, S i j = .fin s) :
    ∃ lo hi : ℝ, npAmin (ravel2 a b S) = .fin lo ∧ npAmax (ravel2 a b S) = .fin hi ∧ (∀ i < a, ∀ j < b, ∀ s : ℝ, S i j = .fin s → lo ≤ s ∧ s ≤ hi) ∧
      (∃ i < a, ∃ j < b, S i j = .fin lo) ∧ ∃ i < a, ∃ j < b, S i j = .fin hi := by
  choose! s hs using hfin
  have e := ravel2_fin a b S s hs
  have hne' : ravel2 a b s ≠ [] := by
    intro h; rw [h] at e; exact hne e
  obtain ⟨lo, l1, l2, l3⟩ := plotMin_fin _ hne'
  obtain ⟨hi, h1, h2, h3⟩ := plotMax_fin _ hne'
  refine ⟨lo, hi, by rw [e]; exact l2, by rw [e]; exact h2, ?_, ?_, ?_⟩
  · intro i hi' j hj x hx
    have : x = s i j := Num.fin.inj (hx.symm.trans (hs i hi' j hj))
    rw [this]
    have := (mem_ravel2 a b s (s i j)).2 ⟨i, hi', j, hj, rfl⟩
    exact ⟨l3 _ this, h3 _ this⟩
  · obtain ⟨i, hi', j, hj, e⟩ := (mem_ravel2 a b s lo).1 l1
    exact ⟨i, hi', j, hj, by rw [hs i hi' j hj, e]⟩
  · obtain ⟨i, hi', j, hj, e⟩ := (mem_ravel2 a b s hi).1 h1
    exact ⟨i, hi', j, hj, by rw [hs i hi' j hj, e]⟩

/-- what `plotPlane` returns when it does not fail -/
theorem plotPlane_ok (welib : Bool) (d : PlaneData) (m M : Option Num) (n : ℕ) (lc ll : Option (List ℝ)) (c : String) (H : Bool) (r : Drawn)
    (h : plotPlane welib d m M n lc ll c H = .ok r) : ∃ lo hi, colourLimits m M (ravel2 d.rows d.cols (d.speed c H)) = .ok (lo, hi) ∧
      r.rows = d.rows ∧ r.cols = d.cols ∧ r.x = d.Z ∧ r.y = (d.across H).1 ∧ r.value = maskNan (d.speed c H) ∧ r.vmin = lo ∧ r.vmax = hi ∧ r.fill = Fill.of lc ∧ r.lines = ll ∧
      ((n = 0 ∧ r.seeds = none) ∨ (n ≠ 0 ∧ welib = true ∧ ∃ s, planeSeeds (npUnique (ravel2 d.rows d.cols (d.across H).1)) n H = .ok s ∧ r.seeds = some s)) := by
  unfold plotPlane at h
  simp only at h
  split at h
  · exact nomatch h
  · rename_i lo hi heq
    by_cases hn : n > 0
    · rw [if_pos hn] at h
      split at h
      · exact nomatch h
      · rename_i s hs
        cases welib with
        | false => exact nomatch h
        | true =>
          cases h
          exact ⟨lo, hi, heq, rfl, rfl, rfl, rfl, rfl, rfl, rfl, rfl, rfl, Or.inr ⟨by omega, rfl, s, hs, rfl⟩⟩
    · rw [if_neg hn] at h
      cases h
      exact ⟨lo, hi, heq, rfl, rfl, rfl, rfl, rfl, rfl, rfl, rfl, rfl, Or.inl ⟨by omega, rfl⟩⟩

theorem plotVert_ok (a b : ℕ) (Y Z : ℕ → ℕ → ℝ) (V W : ℕ → ℕ → Num) (m M : Option Num) (lc ll : Option (List ℝ)) (c : String) (r : Drawn)
    (h : plotPlaneVert a b Y Z V W m M lc ll c = .ok r) : ∃ (S : ℕ → ℕ → Num) (lo hi : _), S = (if c = "Axial" then W else fun i j => Num.sqrt (V i j ^ 2 + W i j ^ 2)) ∧
      colourLimits m M (ravel2 a b S) = .ok (lo, hi) ∧
      (npUnique (ravel2 a b Z)).length = a ∧ (npUnique (ravel2 a b Y)).length = b ∧
      r = ⟨b, a, fun _ i => (npUnique (ravel2 a b Z)).getD i 0, fun j _ => (npUnique (ravel2 a b Y)).getD j 0, fun j i => maskNan S i j, lo, hi, Fill.of lc, ll, none⟩ := by
  unfold plotPlaneVert at h
  obtain ⟨S, hS⟩ : ∃ S : ℕ → ℕ → Num, S = (if c = "Axial" then W else fun i j => Num.sqrt (V i j ^ 2 + W i j ^ 2)) := ⟨_, rfl⟩
  rw [← hS] at h
  simp only at h
  split at h
  · exact nomatch h
  · rename_i lo hi heq
    split_ifs at h with hn
    cases h
    exact ⟨S, lo, hi, hS, heq, hn.1, hn.2, rfl⟩

theorem plotCoupling_ok (x y : List ℝ) (u v : ℕ → ℕ → Num) (m M : Option Num) (n : ℕ) (ll : Option (List ℝ)) (ax : Bool) (r : Drawn)
    (h : plotPlaneCoupling x y u v m M n ll ax = .ok r) : ∃ (S : ℕ → ℕ → Num) (lo hi : _), S = (if ax then u else fun i j => Num.sqrt (u i j ^ 2 + v i j ^ 2)) ∧
      colourLimits m M (ravel2 y.length x.length S) = .ok (lo, hi) ∧ ∃ sd, r = ⟨y.length, x.length, fun _ j => x.getD j 0, fun i _ => y.getD i 0, maskNan S, lo, hi, .mesh, ll, sd⟩ ∧
      ((n = 0 ∧ sd = none) ∨ (n ≠ 0 ∧ y ≠ [] ∧ sd = some ((linspace (listMin y * 0.9) (listMax y * 0.9) n).map fun s => (s * 0, s)))) := by
  unfold plotPlaneCoupling at h
  obtain ⟨S, hS⟩ : ∃ S : ℕ → ℕ → Num, S = (if ax then u else fun i j => Num.sqrt (u i j ^ 2 + v i j ^ 2)) := ⟨_, rfl⟩
  rw [← hS] at h
  simp only at h
  split at h
  · exact nomatch h
  · rename_i lo hi heq
    split_ifs at h with hn hy
    · cases h
      exact ⟨S, lo, hi, hS, heq, _, rfl, Or.inr ⟨by omega, hy, rfl⟩⟩
    · cases h
      exact ⟨S, lo, hi, hS, heq, _, rfl, Or.inl ⟨by omega, rfl⟩⟩

/-- C151, colour limits left to the functions: when every node shows a finite value, they are the least and greatest of the values drawn. -/
theorem C151_limits_partial :
    (∀ (welib : Bool) (d : PlaneData) (M : Option Num) (n : ℕ) (lc ll : Option (List ℝ)) (c : String) (H : Bool) (r : Drawn),
      plotPlane welib d none M n lc ll c H = .ok r → AllFinite r → LimitsCover r) ∧
    (∀ (a b : ℕ) (Y Z : ℕ → ℕ → ℝ) (V W : ℕ → ℕ → Num) (M : Option Num) (lc ll : Option (List ℝ)) (c : String) (r : Drawn),
      plotPlaneVert a b Y Z V W none M lc ll c = .ok r → AllFinite r → LimitsCover r) ∧
    (∀ (x y : List ℝ) (u v : ℕ → ℕ → Num) (M : Option Num) (n : ℕ) (ll : Option (List ℝ)) (ax : Bool) (r : Drawn),
      plotPlaneCoupling x y u v none M n ll ax = .ok r → AllFinite r → LimitsCover r) := by
  refine ⟨?_, ?_, ?_⟩
  · intro welib d M n lc ll c H r h hf
    obtain ⟨lo, hi, hl, r1, r2, -, -, r5, r6, r7, -⟩ := plotPlane_ok _ _ _ _ _ _ _ _ _ _ h
    obtain ⟨x, h0, -⟩ | ⟨-, hne, h2, h3⟩ := limits_cases _ _ _ _ _ hl
    · exact nomatch h0
    · obtain ⟨l, u, e1, e2, e3, e4, e5⟩ := cover_core _ _ _ hne (fun i hi j hj => by
        obtain ⟨s, hs⟩ := hf i (by rw [r1]; exact hi) j (by rw [r2]; exact hj)
        rw [r5, mask_fin] at hs
        exact ⟨s, hs⟩)
      unfold LimitsCover
      rw [r1, r2, r5, r6, r7, h2, h3, e1, e2]
      simp only [mask_fin]
      exact ⟨l, u, rfl, rfl, e3, e4, e5⟩
  · intro a b Y Z V W M lc ll c r h hf
    obtain ⟨S, lo, hi, -, hl, -, -, rfl⟩ := plotVert_ok _ _ _ _ _ _ _ _ _ _ _ _ h
    obtain ⟨x, h0, -⟩ | ⟨-, hne, h2, h3⟩ := limits_cases _ _ _ _ _ hl
    · exact nomatch h0
    · obtain ⟨l, u, e1, e2, e3, e4, e5⟩ := cover_core _ _ _ hne (fun i hi j hj => by
        obtain ⟨s, hs⟩ := hf j hj i hi
        exact ⟨s, (mask_fin _ _ _ _).1 hs⟩)
      refine ⟨l, u, by rw [← e1]; exact h2, by rw [← e2]; exact h3, ?_, ?_, ?_⟩
      · intro j hj i hi s hs
        exact e3 i hi j hj s ((mask_fin _ _ _ _).1 hs)
      · obtain ⟨i, hi, j, hj, e⟩ := e4
        exact ⟨j, hj, i, hi, (mask_fin _ _ _ _).2 e⟩
      · obtain ⟨i, hi, j, hj, e⟩ := e5
        exact ⟨j, hj, i, hi, (mask_fin _ _ _ _).2 e⟩
  · intro x y u v M n ll ax r h hf
    obtain ⟨S, lo, hi, -, hl, sd, rfl, -⟩ := plotCoupling_ok _ _ _ _ _ _ _ _ _ _ h
    obtain ⟨x, h0, -⟩ | ⟨-, hne, h2, h3⟩ := limits_cases _ _ _ _ _ hl
    · exact nomatch h0
    · obtain ⟨l, u, e1, e2, e3, e4, e5⟩ := cover_core _ _ _ hne (fun i hi j hj => by
        obtain ⟨s, hs⟩ := hf i hi j hj
        exact ⟨s, (mask_fin _ _ _ _).1 hs⟩)
      refine ⟨l, u, by rw [← e1]; exact h2, by rw [← e2]; exact h3, ?_, ?_, ?_⟩ <;> simp only [mask_fin]
      · exact e3
      · exact e4
      · exact e5

/-- C151: limits given by the caller are used as they are (in the three functions), with or without NaN in the data -/
theorem C151_given_limits (m : Num) (M : Option Num) :
    (∀ (welib : Bool) (d : PlaneData) (n : ℕ) (lc ll : Option (List ℝ)) (c : String) (H : Bool) (r : Drawn),
      plotPlane welib d (some m) M n lc ll c H = .ok r → r.vmin = some m ∧ r.vmax = M) ∧
    (∀ (a b : ℕ) (Y Z : ℕ → ℕ → ℝ) (V W : ℕ → ℕ → Num) (lc ll : Option (List ℝ)) (c : String) (r : Drawn),
      plotPlaneVert a b Y Z V W (some m) M lc ll c = .ok r → r.vmin = some m ∧ r.vmax = M) ∧
    (∀ (x y : List ℝ) (u v : ℕ → ℕ → Num) (n : ℕ) (ll : Option (List ℝ)) (ax : Bool) (r : Drawn),
      plotPlaneCoupling x y u v (some m) M n ll ax = .ok r → r.vmin = some m ∧ r.vmax = M) := by
  refine ⟨?_, ?_, ?_⟩
  · intro welib d n lc ll c H r h
    obtain ⟨lo, hi, hl, r1, r2, -, -, r5, r6, r7, -⟩ := plotPlane_ok _ _ _ _ _ _ _ _ _ _ h
    cases hl
    exact ⟨r6, r7⟩
  · intro a b Y Z V W lc ll c r h
    obtain ⟨S, lo, hi, -, hl, -, -, rfl⟩ := plotVert_ok _ _ _ _ _ _ _ _ _ _ _ _ h
    cases hl
    exact ⟨rfl, rfl⟩
  · intro x y u v n ll ax r h
    obtain ⟨S, lo, hi, -, hl, sd, rfl, -⟩ := plotCoupling_ok _ _ _ _ _ _ _ _ _ _ h
    cases hl
    exact ⟨rfl, rfl⟩

/-- C151 is false of the code in two ways: a `maxSpeed` given without `minSpeed` is ignored by all three functions, and one masked node (NaN in the data) is enough to
make both computed limits NaN. -/
theorem C151_limits_refuted :
    (∀ (M : Option Num), (∀ (welib : Bool) (d : PlaneData) (n : ℕ) (lc ll : Option (List ℝ)) (c : String) (H : Bool), plotPlane welib d none M n lc ll c H = plotPlane welib d none none n lc ll c H) ∧
      (∀ (a b : ℕ) (Y Z : ℕ → ℕ → ℝ) (V W : ℕ → ℕ → Num) (lc ll : Option (List ℝ)) (c : String), plotPlaneVert a b Y Z V W none M lc ll c = plotPlaneVert a b Y Z V W none none lc ll c) ∧
      ∀ (x y : List ℝ) (u v : ℕ → ℕ → Num) (n : ℕ) (ll : Option (List ℝ)) (ax : Bool), plotPlaneCoupling x y u v none M n ll ax = plotPlaneCoupling x y u v none none n ll ax) ∧
    (∀ (welib : Bool) (d : PlaneData) (M : Option Num) (n : ℕ) (lc ll : Option (List ℝ)) (c : String) (H : Bool) (r : Drawn),
      plotPlane welib d none M n lc ll c H = .ok r → (∃ i < r.rows, ∃ j < r.cols, r.value i j = none) → r.vmin = some .nan ∧ r.vmax = some .nan) ∧
    (∀ (a b : ℕ) (Y Z : ℕ → ℕ → ℝ) (V W : ℕ → ℕ → Num) (M : Option Num) (lc ll : Option (List ℝ)) (c : String) (r : Drawn),
      plotPlaneVert a b Y Z V W none M lc ll c = .ok r → (∃ i < r.rows, ∃ j < r.cols, r.value i j = none) → r.vmin = some .nan ∧ r.vmax = some .nan) ∧
    (∀ (x y : List ℝ) (u v : ℕ → ℕ → Num) (M : Option Num) (n : ℕ) (ll : Option (List ℝ)) (ax : Bool) (r : Drawn),
      plotPlaneCoupling x y u v none M n ll ax = .ok r → (∃ i < r.rows, ∃ j < r.cols, r.value i j = none) → r.vmin = some .nan ∧ r.vmax = some .nan) := by
  have hm : ∀ (S : ℕ → ℕ → Num) (a b : ℕ), (∃ i < a, ∃ j < b, maskNan S i j = none) → npAmin (ravel2 a b S) = .nan ∧ npAmax (ravel2 a b S) = .nan := by
    rintro S a b ⟨i, hi, j, hj, h⟩
    have h' : S i j = .nan := by
      unfold maskNan at h
      split_ifs at h with h1
      exact h1
    have : Num.nan ∈ ravel2 a b S := (mem_ravel2 _ _ _ _).2 ⟨i, hi, j, hj, h'⟩
    exact ⟨plotMin_nan _ this, plotMax_nan _ this⟩
  refine ⟨fun M => ⟨fun _ _ _ _ _ _ _ => rfl, fun _ _ _ _ _ _ _ _ _ => rfl, fun _ _ _ _ _ _ _ => rfl⟩, ?_, ?_, ?_⟩
  · intro welib d M n lc ll c H r h hn
    obtain ⟨lo, hi, hl, r1, r2, -, -, r5, r6, r7, -⟩ := plotPlane_ok _ _ _ _ _ _ _ _ _ _ h
    obtain ⟨x, h0, -⟩ | ⟨-, hne, h2, h3⟩ := limits_cases _ _ _ _ _ hl
    · exact nomatch h0
    · rw [r1, r2, r5] at hn
      obtain ⟨e1, e2⟩ := hm _ _ _ hn
      rw [r6, r7, h2, h3, e1, e2]; exact ⟨rfl, rfl⟩
  · intro a b Y Z V W M lc ll c r h hn
    obtain ⟨S, lo, hi, -, hl, -, -, rfl⟩ := plotVert_ok _ _ _ _ _ _ _ _ _ _ _ _ h
    obtain ⟨x, h0, -⟩ | ⟨-, hne, h2, h3⟩ := limits_cases _ _ _ _ _ hl
    · exact nomatch h0
    · obtain ⟨j, hj, i, hi, e⟩ := hn
      obtain ⟨e1, e2⟩ := hm S a b ⟨i, hi, j, hj, e⟩
      exact ⟨by rw [← e1]; exact h2, by rw [← e2]; exact h3⟩
  · intro x y u v M n ll ax r h hn
    obtain ⟨S, lo, hi, -, hl, sd, rfl, -⟩ := plotCoupling_ok _ _ _ _ _ _ _ _ _ _ h
    obtain ⟨x, h0, -⟩ | ⟨-, hne, h2, h3⟩ := limits_cases _ _ _ _ _ hl
    · exact nomatch h0
    · obtain ⟨e1, e2⟩ := hm S _ _ hn
      exact ⟨by rw [← e1]; exact h2, by rw [← e2]; exact h3⟩

/-- C151, values: node `(i,j)` of `plotPlane` is at the axial and lateral (or vertical) coordinates of the data point and shows its axial velocity, its vorticity or the norm of
its in-plane velocity; a node is masked exactly when what it would show is not a number. -/
theorem C151_values (welib : Bool) (d : PlaneData) (m M : Option Num) (n : ℕ) (lc ll : Option (List ℝ)) (c : String) (H : Bool) (r : Drawn)
    (h : plotPlane welib d m M n lc ll c H = .ok r) :
    r.rows = d.rows ∧ r.cols = d.cols ∧ r.lines = ll ∧ (r.fill = .mesh ↔ lc = none) ∧ (r.fill = .nothing ↔ lc = some []) ∧
    ∀ i j, r.x i j = d.Z i j ∧ r.y i j = (if H then d.X i j else d.Y i j) ∧
      (c = "Axial" → (r.value i j = none ↔ d.W i j = .nan) ∧ ∀ w, d.W i j = .fin w → r.value i j = some (.fin w)) ∧
      (c = "Vorticity" → (r.value i j = none ↔ d.O i j = .nan) ∧ ∀ w, d.O i j = .fin w → r.value i j = some (.fin w)) ∧
      (c ≠ "Axial" → c ≠ "Vorticity" → ∀ q, q = (if H then d.U i j else d.V i j) → (r.value i j = none ↔ d.W i j = .nan ∨ q = .nan) ∧
        ∀ w p, d.W i j = .fin w → q = .fin p → r.value i j = some (.fin √(w^2 + p^2))) := by
  obtain ⟨lo, hi, hl, r1, r2, r3, r4, r5, r6, r7, r8, r9, -⟩ := plotPlane_ok _ _ _ _ _ _ _ _ _ _ h
  have hmask : ∀ (S : ℕ → ℕ → Num) i j, maskNan S i j = none ↔ S i j = .nan := by
    intro S i j
    unfold maskNan
    split_ifs with h <;> simp [h]
  refine ⟨r1, r2, r9, ?_, ?_, fun i j => ⟨by rw [r3], ?_, ?_, ?_, ?_⟩⟩
  · rw [r8]; rcases lc with _ | _ | _ <;> simp [Fill.of]
  · rw [r8]; rcases lc with _ | _ | _ <;> simp [Fill.of]
  · rw [r4]; cases H <;> rfl
  · intro hc
    rw [r5, hmask]
    simp only [mask_fin, PlaneData.speed, if_pos hc]
    exact ⟨trivial, fun w hw => hw⟩
  · intro hc
    have : c ≠ "Axial" := by rw [hc]; decide
    rw [r5, hmask]
    simp only [mask_fin, PlaneData.speed, if_neg this, if_pos hc]
    exact ⟨trivial, fun w hw => hw⟩
  · intro h1 h2 q hq
    rw [r5, hmask]
    simp only [mask_fin, PlaneData.speed, if_neg h1, if_neg h2]
    have e : (d.across H).2 i j = q := by rw [hq]; cases H <;> rfl
    rw [e, norm2_nan]
    refine ⟨Iff.rfl, fun w p hw hp => ?_⟩
    rw [hw, hp, norm2_fin]

/-- C151, coupling examples: `plotPlane(x,y,u,v,…)` succeeds when there are data, and shows at `(x[j], y[i])` the axial velocity `u[i,j]`, or the norm of `(u[i,j], v[i,j])` unless `axial`, masked
exactly when it is not a number. -/
theorem C151_coupling (x y : List ℝ) (u v : ℕ → ℕ → Num) (m M : Option Num) (n : ℕ) (ll : Option (List ℝ)) (ax : Bool) :
    (x ≠ [] → y ≠ [] → ∃ r, plotPlaneCoupling x y u v m M n ll ax = .ok r) ∧
    ∀ r, plotPlaneCoupling x y u v m M n ll ax = .ok r → r.rows = y.length ∧ r.cols = x.length ∧ r.lines = ll ∧ r.fill = .mesh ∧
      ∀ (i j : ℕ) (X Y : ℝ), x[j]? = some X → y[i]? = some Y → r.x i j = X ∧ r.y i j = Y ∧
        (ax = true → r.value i j = if u i j = .nan then none else some (u i j)) ∧
        (ax = false → (r.value i j = none ↔ u i j = .nan ∨ v i j = .nan) ∧ ∀ a b, u i j = .fin a → v i j = .fin b → r.value i j = some (.fin √(a^2 + b^2))) := by
  constructor
  · intro hx hy
    unfold plotPlaneCoupling
    obtain ⟨S, hS⟩ : ∃ S : ℕ → ℕ → Num, S = (if ax then u else fun i j => Num.sqrt (u i j ^ 2 + v i j ^ 2)) := ⟨_, rfl⟩
    rw [← hS]
    have hne : ravel2 y.length x.length S ≠ [] := fun h => by
      have := (mem_ravel2 y.length x.length S (S 0 0)).2 ⟨0, List.length_pos_iff.2 hy, 0, List.length_pos_iff.2 hx, rfl⟩
      rw [h] at this; exact nomatch this
    obtain ⟨lo, hi, hl⟩ : ∃ lo hi, colourLimits m M (ravel2 y.length x.length S) = .ok (lo, hi) := by
      unfold colourLimits
      cases m with
      | some x => exact ⟨_, _, rfl⟩
      | none => exact ⟨_, _, if_neg hne⟩
    simp only [hl]
    by_cases hn : n > 0
    · rw [if_pos hn, if_neg hy]; exact ⟨_, rfl⟩
    · rw [if_neg hn]; exact ⟨_, rfl⟩
  · intro r h
    obtain ⟨S, lo, hi, hS, -, sd, rfl, -⟩ := plotCoupling_ok _ _ _ _ _ _ _ _ _ _ h
    refine ⟨rfl, rfl, rfl, rfl, fun i j X Y hj hi => ⟨?_, ?_, ?_, ?_⟩⟩
    · change x.getD j 0 = X
      rw [List.getD_eq_getElem?_getD, hj]; rfl
    · change y.getD i 0 = Y
      rw [List.getD_eq_getElem?_getD, hi]; rfl
    · rintro rfl
      rw [if_pos rfl] at hS
      subst hS
      rfl
    · rintro rfl
      rw [if_neg Bool.false_ne_true] at hS
      have hmask : maskNan S i j = none ↔ S i j = .nan := by
        unfold maskNan
        split_ifs with h <;> simp [h]
      constructor
      · change maskNan S i j = none ↔ _
        rw [hmask, hS]
        exact norm2_nan _ _
      · intro a b ha hb
        change maskNan S i j = _
        rw [mask_fin, hS]
        simp only [ha, hb]
        exact norm2_fin a b

theorem vert_axes (vy vz : List ℝ) (hyn : vy ≠ []) (hzn : vz ≠ []) (Y Z : ℕ → ℕ → ℝ)
    (hg : ∀ (i j : ℕ) (y z : ℝ), vz[i]? = some z → vy[j]? = some y → Y i j = y ∧ Z i j = z) :
    npUnique (ravel2 vz.length vy.length Y) = npUnique vy ∧ npUnique (ravel2 vz.length vy.length Z) = npUnique vz := by
  have hy0 : 0 < vy.length := List.length_pos_iff.2 hyn
  have hz0 : 0 < vz.length := List.length_pos_iff.2 hzn
  have hg' : ∀ (i j : ℕ) (hi : i < vz.length) (hj : j < vy.length), Y i j = vy[j] ∧ Z i j = vz[i] := fun i j hi hj =>
    hg i j _ _ (List.getElem?_eq_getElem hi) (List.getElem?_eq_getElem hj)
  constructor
  · apply npUnique_eq
    intro x
    rw [mem_ravel2]
    constructor
    · rintro ⟨i, hi, j, hj, rfl⟩
      rw [(hg' i j hi hj).1]; exact List.getElem_mem hj
    · intro hx
      obtain ⟨j, hj, rfl⟩ := List.getElem_of_mem hx
      exact ⟨0, hz0, j, hj, (hg' 0 j hz0 hj).1⟩
  · apply npUnique_eq
    intro x
    rw [mem_ravel2]
    constructor
    · rintro ⟨i, hi, j, hj, rfl⟩
      rw [(hg' i j hi hj).2]; exact List.getElem_mem hi
    · intro hx
      obtain ⟨i, hi, rfl⟩ := List.getElem_of_mem hx
      exact ⟨i, hi, 0, hy0, (hg' i 0 hi hy0).2⟩

theorem limits_ok (m M : Option Num) (a b : ℕ) (S : ℕ → ℕ → Num) (ha : 0 < a) (hb : 0 < b) : ∃ lo hi, colourLimits m M (ravel2 a b S) = .ok (lo, hi) := by
  unfold colourLimits
  cases m with
  | some x => exact ⟨_, _, rfl⟩
  | none =>
    have : ravel2 a b S ≠ [] := fun h => by
      have := (mem_ravel2 a b S (S 0 0)).2 ⟨0, ha, 0, hb, rfl⟩
      rw [h] at this
      exact nomatch this
    exact ⟨_, _, if_neg this⟩

theorem plotVert_run (vy vz vy' vz' : List ℝ) (hyn : vy ≠ []) (hzn : vz ≠ []) (Y Z : ℕ → ℕ → ℝ)
    (hg : ∀ (i j : ℕ) (y z : ℝ), vz[i]? = some z → vy[j]? = some y → Y i j = y ∧ Z i j = z) (hy' : npUnique vy = vy') (hz' : npUnique vz = vz')
    (ly : vy'.length = vy.length) (lz : vz'.length = vz.length)
    (V W : ℕ → ℕ → Num) (m M : Option Num) (lc ll : Option (List ℝ)) (c : String) :
    ∃ r, plotPlaneVert vz.length vy.length Y Z V W m M lc ll c = .ok r ∧ r.rows = vy.length ∧ r.cols = vz.length ∧ r.lines = ll ∧
      ∀ i j, r.x j i = vz'.getD i 0 ∧ r.y j i = vy'.getD j 0 ∧ (c = "Axial" → r.value j i = if W i j = .nan then none else some (W i j)) ∧
        (c ≠ "Axial" → (r.value j i = none ↔ V i j = .nan ∨ W i j = .nan) ∧ ∀ v w, V i j = .fin v → W i j = .fin w → r.value j i = some (.fin √(v^2 + w^2))) := by
  obtain ⟨e1, e2⟩ := vert_axes vy vz hyn hzn Y Z hg
  obtain ⟨S, hS⟩ : ∃ S : ℕ → ℕ → Num, S = (if c = "Axial" then W else fun i j => Num.sqrt (V i j ^ 2 + W i j ^ 2)) := ⟨_, rfl⟩
  obtain ⟨lo, hi, hl⟩ := limits_ok m M vz.length vy.length S (List.length_pos_iff.2 hzn) (List.length_pos_iff.2 hyn)
  refine ⟨⟨vy.length, vz.length, fun _ i => vz'.getD i 0, fun j _ => vy'.getD j 0, fun j i => maskNan S i j, lo, hi, Fill.of lc, ll, none⟩, ?_, rfl, rfl, rfl, fun i j => ⟨rfl, rfl, ?_, ?_⟩⟩
  · unfold plotPlaneVert
    simp only
    rw [← hS, hl, e1, e2, hy', hz']
    simp only
    rw [if_pos ⟨lz, ly⟩]
  · intro hc
    rw [if_pos hc] at hS
    subst hS
    rfl
  · intro hc
    rw [if_neg hc] at hS
    have hmask : maskNan S i j = none ↔ S i j = .nan := by
      unfold maskNan
      split_ifs with h <;> simp [h]
    constructor
    · change maskNan S i j = none ↔ _
      rw [hmask, hS]
      exact norm2_nan _ _
    · intro v w hv hw
      change maskNan S i j = _
      rw [mask_fin, hS]
      simp only [hv, hw]
      exact norm2_fin v w

/-- C151, vertical planes: data on the grid of increasing coordinates `vy`, `vz` (as built by `meshgrid(vy,vz)`) are drawn at their coordinates: the node at abscissa `vz[i]` and
ordinate `vy[j]` shows the axial velocity (or the norm of the velocity) of that point. -/
theorem C151_vertical (vy vz : List ℝ) (hyn : vy ≠ []) (hzn : vz ≠ []) (hy : vy.Pairwise (· < ·)) (hz : vz.Pairwise (· < ·)) (Y Z : ℕ → ℕ → ℝ)
    (hg : ∀ (i j : ℕ) (y z : ℝ), vz[i]? = some z → vy[j]? = some y → Y i j = y ∧ Z i j = z)
    (V W : ℕ → ℕ → Num) (m M : Option Num) (lc ll : Option (List ℝ)) (c : String) :
    ∃ r, plotPlaneVert vz.length vy.length Y Z V W m M lc ll c = .ok r ∧ r.rows = vy.length ∧ r.cols = vz.length ∧ r.lines = ll ∧
      ∀ (i j : ℕ) (y z : ℝ), vz[i]? = some z → vy[j]? = some y → r.x j i = z ∧ r.y j i = y ∧ (c = "Axial" → r.value j i = if W i j = .nan then none else some (W i j)) ∧
        (c ≠ "Axial" → (r.value j i = none ↔ V i j = .nan ∨ W i j = .nan) ∧ ∀ v w, V i j = .fin v → W i j = .fin w → r.value j i = some (.fin √(v^2 + w^2))) := by
  obtain ⟨r, h1, h2, h3, h4, h5⟩ := plotVert_run vy vz vy vz hyn hzn Y Z hg ((npUnique_fix vy).2 hy) ((npUnique_fix vz).2 hz) rfl rfl V W m M lc ll c
  refine ⟨r, h1, h2, h3, h4, fun i j y z hi hj => ?_⟩
  have := h5 i j
  rw [List.getD_eq_getElem?_getD, List.getD_eq_getElem?_getD, hi, hj] at this
  exact this

/-- C151 is false for data on decreasing coordinates: the picture is mirrored (here with decreasing `vy`: the node at ordinate `vy[j]` shows the velocity of the point at `vy[n-1-j]`). -/
theorem C151_vertical_refuted (vy vz : List ℝ) (hyn : vy ≠ []) (hzn : vz ≠ []) (hy : vy.Pairwise (· > ·)) (hz : vz.Pairwise (· < ·)) (Y Z : ℕ → ℕ → ℝ)
    (hg : ∀ (i j : ℕ) (y z : ℝ), vz[i]? = some z → vy[j]? = some y → Y i j = y ∧ Z i j = z)
    (V W : ℕ → ℕ → Num) (m M : Option Num) (lc ll : Option (List ℝ)) :
    ∃ r, plotPlaneVert vz.length vy.length Y Z V W m M lc ll "Axial" = .ok r ∧
      ∀ (i j : ℕ) (y z : ℝ), vz[i]? = some z → vy[j]? = some y → r.x (vy.length - 1 - j) i = z ∧ r.y (vy.length - 1 - j) i = y ∧
        r.value (vy.length - 1 - j) i = if W i (vy.length - 1 - j) = .nan then none else some (W i (vy.length - 1 - j)) := by
  have hrev : npUnique vy = vy.reverse := by
    rw [npUnique_eq vy vy.reverse (fun x => List.mem_reverse.symm)]
    exact (npUnique_fix _).2 (List.pairwise_reverse.2 hy)
  obtain ⟨r, h1, h2, h3, h4, h5⟩ := plotVert_run vy vz vy.reverse vz hyn hzn Y Z hg hrev ((npUnique_fix vz).2 hz) List.length_reverse rfl V W m M lc ll "Axial"
  refine ⟨r, h1, fun i j y z hi hj => ?_⟩
  obtain ⟨a1, a2, a3, -⟩ := h5 i (vy.length - 1 - j)
  have hjl : j < vy.length := by
    by_contra h
    rw [List.getElem?_eq_none (by omega)] at hj; exact nomatch hj
  rw [List.getD_eq_getElem?_getD, hi] at a1
  rw [List.getD_eq_getElem?_getD, List.getElem?_reverse (by omega), show vy.length - 1 - (vy.length - 1 - j) = j by omega, hj] at a2
  exact ⟨a1, a2, a3 rfl⟩

/-- the two cases of the theorems above: three rows of two points, ordinates 0, 1, 2 or 2, 1, 0 -/
example : ([0, 1, 2] : List ℝ).Pairwise (· < ·) ∧ ([2, 1, 0] : List ℝ).Pairwise (· > ·) ∧ ([-5, 1] : List ℝ).Pairwise (· < ·) := by norm_num

theorem grid_get {α : Type} (vy vz : List ℝ) (f : ℝ → ℝ → α) (i j : ℕ) (y z : ℝ) (hi : vz[i]? = some z) (hj : vy[j]? = some y) :
    (vz.flatMap fun z => vy.map fun y => f y z)[i * vy.length + j]? = some (f y z) := by
  have hjl : j < vy.length := by
    by_contra h
    rw [List.getElem?_eq_none (by omega)] at hj; exact nomatch hj
  induction vz generalizing i with
  | nil => exact nomatch hi
  | cons z' vz ih =>
    rw [List.flatMap_cons]
    cases i with
    | zero =>
      rw [List.getElem?_append_left (by simpa using hjl)]
      have : z' = z := by simpa using hi
      subst this
      simp [hj]
    | succ i =>
      rw [List.getElem?_append_right (by rw [List.length_map, Nat.succ_mul]; omega), List.length_map,
        show (i + 1) * vy.length + j - vy.length = i * vy.length + j by rw [Nat.succ_mul]; omega]
      exact ih i (by simpa using hi)

/-- C151 end to end: `plotPlaneVert(*VC.fVert(vy,vz))` (increasing coordinates, the default axial component) shows, at the node of abscissa `z` and ordinate `y`, the axial velocity that
`fU` (`compute_u` in hub coordinates) returns at the point `(0,y,z)`, masked if it is not a number. -/
theorem C151_picture (vc : OutputVC) (vy vz : List ℝ) (hyn : vy ≠ []) (hzn : vz ≠ []) (hy : vy.Pairwise (· < ·)) (hz : vz.Pairwise (· < ·))
    (out : List (ℝ × ℝ × Num × Num)) (ho : vc.fVert vy vz = .ok out) (m M : Option Num) (lc ll : Option (List ℝ)) :
    let entry := fun i j => out.getD (i * vy.length + j) (0, 0, 0, 0)
    ∃ r u, plotPlaneVert vz.length vy.length (fun i j => (entry i j).1) (fun i j => (entry i j).2.1) (fun i j => (entry i j).2.2.1) (fun i j => (entry i j).2.2.2) m M lc ll "Axial" = .ok r ∧
      vc.fU (vz.flatMap fun z => vy.map fun y => ⟨0, y, z⟩) = .ok u ∧
      ∀ (i j : ℕ) (y z : ℝ), vz[i]? = some z → vy[j]? = some y → r.x j i = z ∧ r.y j i = y ∧
        ∃ w, u[i * vy.length + j]? = some w ∧ r.value j i = if w.z = .nan then none else some w.z := by
  intro entry
  have h91 := (C91_sampling vc).2.1 vy vz
  rw [ho] at h91
  cases hu : vc.fU (vz.flatMap fun z => vy.map fun y => ⟨0, y, z⟩) with
  | error e => rw [hu] at h91; exact nomatch h91
  | ok u =>
    rw [hu] at h91
    have hout : out = List.zipWith (fun (q : V3 ℝ) (v : V3 Num) => (q.y, q.z, v.y, v.z)) (vz.flatMap fun z => vy.map fun y => ⟨0, y, z⟩) u := Except.ok.inj h91
    have hul : u.length = (vz.flatMap fun z => vy.map fun y => (⟨0, y, z⟩ : V3 ℝ)).length := by
      have := C11_length _ _ _ _ hu
      rwa [List.length_map] at this
    have hent : ∀ (i j : ℕ) (y z : ℝ), vz[i]? = some z → vy[j]? = some y → ∃ w : V3 Num, u[i * vy.length + j]? = some w ∧ entry i j = (y, z, w.y, w.z) := by
      intro i j y z hi hj
      have hq := grid_get vy vz (fun y z => (⟨0, y, z⟩ : V3 ℝ)) i j y z hi hj
      have hlt : i * vy.length + j < u.length := by
        rw [hul]
        by_contra h
        rw [List.getElem?_eq_none (by omega)] at hq; exact nomatch hq
      refine ⟨u[i * vy.length + j], List.getElem?_eq_getElem hlt, ?_⟩
      simp only [entry]
      rw [List.getD_eq_getElem?_getD, hout, List.getElem?_zipWith, hq, List.getElem?_eq_getElem hlt]
      rfl
    obtain ⟨r, h1, -, -, -, h5⟩ := C151_vertical vy vz hyn hzn hy hz (fun i j => (entry i j).1) (fun i j => (entry i j).2.1) (fun i j y z hi hj => by
      obtain ⟨w, -, e⟩ := hent i j y z hi hj
      rw [e]; exact ⟨rfl, rfl⟩) (fun i j => (entry i j).2.2.1) (fun i j => (entry i j).2.2.2) m M lc ll "Axial"
    refine ⟨r, u, h1, rfl, fun i j y z hi hj => ?_⟩
    obtain ⟨w, w1, e⟩ := hent i j y z hi hj
    obtain ⟨a1, a2, a3, -⟩ := h5 i j y z hi hj
    refine ⟨a1, a2, w, w1, ?_⟩
    rw [a3 rfl, e]

theorem seeds_core (lo hi : ℝ) (hlh : lo ≤ hi) (n : ℕ) (hn : 2 ≤ n) : (∀ q ∈ linspace (lo * 0.9) (hi * 0.9) n, lo ≤ q ∧ q ≤ hi) ↔ lo ≤ 0 ∧ 0 ≤ hi := by
  have hn1 : (0:ℝ) < n - 1 := by
    have : (2:ℝ) ≤ n := by exact_mod_cast hn
    linarith
  constructor
  · intro h
    have h0 := h (lo * 0.9) (List.mem_map.2 ⟨0, List.mem_range.2 (by omega), by simp⟩)
    have h1 := h (hi * 0.9) (List.mem_map.2 ⟨n - 1, List.mem_range.2 (by omega), by
      rw [Nat.cast_sub (by omega), Nat.cast_one]; field_simp; ring⟩)
    constructor <;> linarith [h0.1, h1.2]
  · rintro ⟨h0, h1⟩ q hq
    obtain ⟨i, hi', rfl⟩ := List.mem_map.1 hq
    have hi1 : (i:ℝ) ≤ n - 1 := by
      have : i + 1 ≤ n := List.mem_range.1 hi'
      have : (i:ℝ) + 1 ≤ n := by exact_mod_cast this
      linarith
    have t0 : 0 ≤ (i:ℝ) / (n - 1) := by positivity
    have t1 : (i:ℝ) / (n - 1) ≤ 1 := by rw [div_le_one hn1]; exact hi1
    have e : lo * 0.9 + (i:ℝ) * ((hi * 0.9 - lo * 0.9) / (n - 1)) = (1 - (i:ℝ) / (n - 1)) * (0.9 * lo) + (i:ℝ) / (n - 1) * (0.9 * hi) := by
      field_simp; ring
    rw [e]
    generalize (i:ℝ) / (n - 1) = t at *
    constructor <;> nlinarith

/-- C151, streamlines: horizontal planes with `n` streamlines (at least 2) start them at the axial coordinate -4 (0 in the coupling examples); all starting points are within the lateral extent of the
data, as Matplotlib requires, exactly when that extent contains the axis `y = 0`. -/
theorem C151_streamlines :
    (∀ (welib : Bool) (d : PlaneData) (m M : Option Num) (n : ℕ) (lc ll : Option (List ℝ)) (c : String) (r : Drawn), 2 ≤ n →
      plotPlane welib d m M n lc ll c true = .ok r → ∃ s, r.seeds = some s ∧ s.length = n ∧ (∀ q ∈ s, q.1 = -4) ∧
      ∀ lo hi : ℝ, IsLeast {y | ∃ i < d.rows, ∃ j < d.cols, d.X i j = y} lo → IsGreatest {y | ∃ i < d.rows, ∃ j < d.cols, d.X i j = y} hi →
        ((∀ q ∈ s, lo ≤ q.2 ∧ q.2 ≤ hi) ↔ lo ≤ 0 ∧ 0 ≤ hi)) ∧
    (∀ (x y : List ℝ) (u v : ℕ → ℕ → Num) (m M : Option Num) (n : ℕ) (ll : Option (List ℝ)) (ax : Bool) (r : Drawn), 2 ≤ n →
      plotPlaneCoupling x y u v m M n ll ax = .ok r → ∃ s, r.seeds = some s ∧ s.length = n ∧ (∀ q ∈ s, q.1 = 0) ∧
      ∀ lo hi : ℝ, IsLeast {z | z ∈ y} lo → IsGreatest {z | z ∈ y} hi → ((∀ q ∈ s, lo ≤ q.2 ∧ q.2 ≤ hi) ↔ lo ≤ 0 ∧ 0 ≤ hi)) := by
  have hmm : ∀ (l : List ℝ) (lo hi : ℝ), l ≠ [] → IsLeast {z | z ∈ l} lo → IsGreatest {z | z ∈ l} hi → listMin l = lo ∧ listMax l = hi := by
    intro l lo hi hl h1 h2
    obtain ⟨a1, a2⟩ := listMin_least l hl
    obtain ⟨b1, b2⟩ := listMax_greatest l hl
    exact ⟨le_antisymm (a2 lo h1.1) (h1.2 a1), le_antisymm (h2.2 b1) (b2 hi h2.1)⟩
  have hlen : ∀ a b n, (linspace a b n).length = n := by intro a b n; simp [linspace]
  constructor
  · intro welib d m M n lc ll c r hn h
    obtain ⟨_, _, -, -, -, -, -, -, -, -, -, -, hs⟩ := plotPlane_ok _ _ _ _ _ _ _ _ _ _ h
    rcases hs with ⟨h0, -⟩ | ⟨-, -, s, hs, hr⟩
    · omega
    · unfold planeSeeds at hs
      rw [if_pos rfl] at hs
      have hvy : ∀ y, y ∈ npUnique (ravel2 d.rows d.cols (d.across true).1) ↔ ∃ i < d.rows, ∃ j < d.cols, d.X i j = y := by
        intro y
        rw [npUnique_mem, mem_ravel2]; rfl
      generalize npUnique (ravel2 d.rows d.cols (d.across true).1) = vy at *
      by_cases hv : vy = []
      · rw [if_pos hv] at hs; exact nomatch hs
      · rw [if_neg hv] at hs
        cases hs
        refine ⟨_, hr, by rw [List.length_map, hlen], ?_, ?_⟩
        · intro q hq
          obtain ⟨y, -, rfl⟩ := List.mem_map.1 hq
          simp
        · intro lo hi h1 h2
          simp only [← hvy] at h1 h2
          obtain ⟨e1, e2⟩ := hmm vy lo hi hv h1 h2
          rw [← seeds_core lo hi (h1.2 h2.1) n hn, e1, e2]
          simp
  · intro x y u v m M n ll ax r hn h
    obtain ⟨S, lo, hi, -, hl, sd, rfl, hs⟩ := plotCoupling_ok _ _ _ _ _ _ _ _ _ _ h
    rcases hs with ⟨h0, -⟩ | ⟨-, hv, rfl⟩
    · omega
    · refine ⟨_, rfl, by rw [List.length_map, hlen], ?_, ?_⟩
      · intro q hq
        obtain ⟨y, -, rfl⟩ := List.mem_map.1 hq
        simp
      · intro lo hi h1 h2
        obtain ⟨e1, e2⟩ := hmm y lo hi hv h1 h2
        rw [← seeds_core lo hi (h1.2 h2.1) n hn, e1, e2]
        simp

/-- C151: streamlines need the optional package `welib`, without it `plotPlane` raises after drawing -/
theorem C151_optional_package (d : PlaneData) (m M : Option Num) (n : ℕ) (lc ll : Option (List ℝ)) (c : String) (H : Bool) :
    ((∃ r, plotPlane false d m M n lc ll c H = .ok r) ↔ n = 0 ∧ (m ≠ none ∨ (0 < d.rows ∧ 0 < d.cols))) ∧
    ((∃ r, plotPlane true d m M n lc ll c H = .ok r) ↔ (m ≠ none ∧ (n = 0 ∨ H = false)) ∨ (0 < d.rows ∧ 0 < d.cols)) := by
  have hrav : ∀ {α : Type} (a : ℕ → ℕ → α), ravel2 d.rows d.cols a = [] ↔ ¬ (0 < d.rows ∧ 0 < d.cols) := by
    intro α a
    constructor
    · rintro h ⟨h1, h2⟩
      have := (mem_ravel2 d.rows d.cols a _).2 ⟨0, h1, 0, h2, rfl⟩
      rw [h] at this; exact nomatch this
    · intro h
      rw [List.eq_nil_iff_forall_not_mem]
      intro x hx
      obtain ⟨i, hi, j, hj, -⟩ := (mem_ravel2 _ _ _ _).1 hx
      exact h ⟨by omega, by omega⟩
  have hlim : (∃ lo hi, colourLimits m M (ravel2 d.rows d.cols (d.speed c H)) = .ok (lo, hi)) ↔ m ≠ none ∨ (0 < d.rows ∧ 0 < d.cols) := by
    unfold colourLimits
    cases m with
    | some x => simp
    | none =>
      simp only [hrav]
      by_cases h : 0 < d.rows ∧ 0 < d.cols
      · simp [h]
      · simp [h]
  have hseed : (∃ s, planeSeeds (npUnique (ravel2 d.rows d.cols (d.across H).1)) n H = .ok s) ↔ H = false ∨ (0 < d.rows ∧ 0 < d.cols) := by
    have hv : npUnique (ravel2 d.rows d.cols (d.across H).1) = [] ↔ ¬ (0 < d.rows ∧ 0 < d.cols) := by
      rw [← hrav (d.across H).1, List.eq_nil_iff_forall_not_mem, List.eq_nil_iff_forall_not_mem]
      simp only [npUnique_mem]
    unfold planeSeeds
    cases H with
    | false => simp
    | true =>
      simp only [if_true, hv]
      by_cases h : 0 < d.rows ∧ 0 < d.cols
      · simp [h]
      · simp [h]
  have main : ∀ b, (∃ r, plotPlane b d m M n lc ll c H = .ok r) ↔ (m ≠ none ∨ (0 < d.rows ∧ 0 < d.cols)) ∧ (n = 0 ∨ (b = true ∧ (H = false ∨ (0 < d.rows ∧ 0 < d.cols)))) := by
    intro b
    rw [← hlim, ← hseed]
    constructor
    · rintro ⟨r, h⟩
      obtain ⟨lo, hi, hl, -, -, -, -, -, -, -, -, -, hs⟩ := plotPlane_ok _ _ _ _ _ _ _ _ _ _ h
      refine ⟨⟨lo, hi, hl⟩, ?_⟩
      rcases hs with ⟨h0, -⟩ | ⟨-, hb, s, hs, -⟩
      · exact Or.inl h0
      · exact Or.inr ⟨hb, s, hs⟩
    · rintro ⟨⟨lo, hi, hl⟩, hs⟩
      unfold plotPlane
      simp only [hl]
      by_cases hn : n = 0
      · rw [if_neg (by omega)]; exact ⟨_, rfl⟩
      · rw [if_pos (by omega)]
        obtain ⟨rfl, s, hs⟩ := hs.resolve_left hn
        rw [hs]
        exact ⟨_, rfl⟩
  constructor
  · rw [main]
    constructor
    · rintro ⟨h1, h2 | ⟨h2, -⟩⟩
      · exact ⟨h2, h1⟩
      · exact nomatch h2
    · rintro ⟨h1, h2⟩; exact ⟨h2, Or.inl h1⟩
  · rw [main]
    by_cases h : 0 < d.rows ∧ 0 < d.cols
    · simp [h]
    · simp [h]

/-- a plane of 2 by 2 finite values whose lateral extent contains the axis: the hypotheses of the theorems on limits and streamlines are met -/
example : ∃ r, plotPlaneCoupling [0, 1] [-1, 2] (fun i j => .fin (i + 2*j)) (fun _ _ => .fin 3) none none 3 none false = .ok r ∧ AllFinite r ∧ LimitsCover r := by
  obtain ⟨r, hr⟩ : ∃ r, plotPlaneCoupling [0, 1] [-1, 2] (fun i j => .fin (i + 2*j)) (fun _ _ => .fin 3) none none 3 none false = .ok r := by
    obtain ⟨lo, hi, hl⟩ := limits_ok none none 2 2 (fun i j => Num.sqrt ((.fin ((i:ℝ) + 2*(j:ℝ)) : Num) ^ 2 + (.fin 3 : Num) ^ 2)) (by norm_num) (by norm_num)
    unfold plotPlaneCoupling
    simp only [List.length_cons, List.length_nil, Nat.reduceAdd, Bool.false_eq_true, if_false]
    rw [hl]
    exact ⟨_, rfl⟩
  have hf : AllFinite r := by
    obtain ⟨S, lo, hi, hS, hl, sd, rfl, hs⟩ := plotCoupling_ok _ _ _ _ _ _ _ _ _ _ hr
    intro i _ j _
    refine ⟨√(((i:ℝ) + 2*(j:ℝ))^2 + 3^2), ?_⟩
    rw [mask_fin, hS, if_neg Bool.false_ne_true]
    exact norm2_fin _ _
  exact ⟨r, hr, hf, C151_limits_partial.2.2 _ _ _ _ _ _ _ _ _ hr hf⟩

end
end Wiz
