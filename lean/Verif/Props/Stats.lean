import Verif.Model.Stats
import Verif.Props.Momentum
import Verif.Props.BlockageError

/-! # C96: coefficient of determination and root mean square error -/
namespace Wiz
open Real Classical

/-- the real pairs among the pairs of two arrays (the others are not compared) -/
def Spec.finitePair : Num × Num → Option (ℝ × ℝ)
  | (.fin a, .fin b) => some (a, b)
  | _ => none

/-- sum of squared residuals, mean and total sum of squares of real data -/
noncomputable def Spec.sse (D : List (ℝ × ℝ)) : ℝ := (D.map fun q => (q.1 - q.2)^2).sum
noncomputable def Spec.ymean (D : List (ℝ × ℝ)) : ℝ := (D.map Prod.fst).sum / D.length
noncomputable def Spec.sst (D : List (ℝ × ℝ)) : ℝ := (D.map fun q => (q.1 - Spec.ymean D)^2).sum

open Spec

theorem npSum_map_fin {α : Type} (l : List α) (g : α → ℝ) : npSum (l.map fun x => Num.fin (g x)) = .fin (l.map g).sum := by
  unfold npSum
  induction l with
  | nil => rfl
  | cons x l ih => rw [List.map_cons, List.foldr_cons, ih, Num.fin_add, List.map_cons, List.sum_cons]

theorem npMean_map_fin {α : Type} (l : List α) (g : α → ℝ) (hl : l ≠ []) :
    npMean (l.map fun x => Num.fin (g x)) = .fin ((l.map g).sum / l.length) := by
  have := npMean_fin (l.map g) (by simpa using hl)
  rw [List.map_map, List.length_map] at this
  exact this

theorem sum_sq_nonneg {α : Type} (l : List α) (g : α → ℝ) : 0 ≤ (l.map fun x => (g x)^2).sum :=
  List.sum_nonneg (by intro x hx; obtain ⟨a, -, rfl⟩ := List.mem_map.mp hx; positivity)

theorem sum_sq_zero {α : Type} (l : List α) (g : α → ℝ) : (l.map fun x => (g x)^2).sum = 0 ↔ ∀ x ∈ l, g x = 0 := by
  induction l with
  | nil => simp
  | cons x l ih =>
    rw [List.map_cons, List.sum_cons, List.forall_mem_cons, ← ih]
    have h1 := sum_sq_nonneg l g
    have h2 := sq_nonneg (g x)
    constructor
    · intro h
      exact ⟨by nlinarith, by nlinarith⟩
    · rintro ⟨h, h'⟩; rw [h, h']; simp

theorem notNan_eq (l : List (Num × Num)) (h : ∀ q ∈ l, (q.1 = .nan ∨ q.2 = .nan) ∨ ∃ a b : ℝ, q = (.fin a, .fin b)) :
    notNan l = (l.filterMap finitePair).map fun q => (Num.fin q.1, Num.fin q.2) := by
  unfold notNan
  induction l with
  | nil => rfl
  | cons q l ih =>
    have ih := ih fun q hq => h q (by simp [hq])
    rcases h q (by simp) with h | ⟨a, b, rfl⟩
    · rw [List.filter_cons_of_neg (by simp; tauto)]
      have : finitePair q = none := by
        obtain ⟨q1, q2⟩ := q
        rcases h with h | h
        · simp only at h; subst h; rfl
        · simp only at h; subst h; cases q1 <;> rfl
      rw [List.filterMap_cons_none this, ih]
    · rw [List.filter_cons_of_pos (by simp), List.filterMap_cons_some (show finitePair (Num.fin a, Num.fin b) = some (a, b) from rfl), List.map_cons, ih]

/-- C96: what `rsquare` returns for arrays of the same length without infinite entries: pairs with a `nan` are not
compared; with the remaining real pairs `D`, R² is `max(0, 1 - SSE/SST)` (`SST` about the mean) and the other output is
the root of the mean squared residual.  If the data does not vary, R² is 0 even for a perfect fit; if there is no pair
left, R² is 0 and the root mean square is `nan`.  Without constant term `SST` is the sum of squares. -/
theorem C96_value (y f : List Num) (hl : y.length = f.length)
    (h : ∀ q ∈ List.zip y f, (q.1 = .nan ∨ q.2 = .nan) ∨ ∃ a b : ℝ, q = (.fin a, .fin b))
    (D : List (ℝ × ℝ)) (hD : D = (List.zip y f).filterMap finitePair) :
    (D ≠ [] → rsquare y f true = .ok (.fin (if sst D = 0 then 0 else max 0 (1 - sse D / sst D)), .fin √(sse D / D.length))) ∧
    (D = [] → rsquare y f true = .ok (.fin 0, .nan)) ∧
    (D ≠ [] → (D.map fun q => q.1^2).sum ≠ 0 →
      rsquare y f false = .ok (.fin (max 0 (1 - sse D / (D.map fun q => q.1^2).sum)), .fin √(sse D / D.length))) := by
  have hq := notNan_eq _ h
  rw [← hD] at hq
  have e1 : npSum ((D.map fun q => (Num.fin q.1, Num.fin q.2)).map fun q => (q.1 - q.2)^2) = .fin (sse D) := by
    rw [List.map_map]
    exact npSum_map_fin D _
  have e2 : D ≠ [] → npMean ((D.map fun q => (Num.fin q.1, Num.fin q.2)).map Prod.fst) = .fin (ymean D) := by
    intro hne
    rw [List.map_map]
    exact npMean_map_fin D Prod.fst hne
  have e3 : npSum ((D.map fun q => (Num.fin q.1, Num.fin q.2)).map fun q => (q.1 - Num.fin (ymean D))^2) = .fin (sst D) := by
    rw [List.map_map]
    exact npSum_map_fin D _
  have e4 : npSum ((D.map fun q => (Num.fin q.1, Num.fin q.2)).map fun q => q.1^2) = .fin (D.map fun q => q.1^2).sum := by
    rw [List.map_map]
    exact npSum_map_fin D _
  have hs : 0 ≤ sse D := sum_sq_nonneg D fun q => q.1 - q.2
  have e5 : D ≠ [] → Num.sqrt (npMean ((D.map fun q => (Num.fin q.1, Num.fin q.2)).map fun q => (q.1 - q.2)^2)) = .fin √(sse D / D.length) := by
    intro hne
    have : npMean ((D.map fun q => (Num.fin q.1, Num.fin q.2)).map fun q => (q.1 - q.2)^2) = .fin (sse D / D.length) := by
      rw [List.map_map]
      exact npMean_map_fin D _ hne
    rw [this, Num.sqrt_fin (by positivity)]
  refine ⟨fun hne => ?_, fun he => ?_, fun hne h0 => ?_⟩
  · unfold rsquare
    rw [if_neg (by simpa using hl)]
    simp only [if_true, hq]
    rw [e1, e2 hne, e3, e5 hne]
    congr 2
    unfold pyMax0
    by_cases h0 : sst D = 0
    · rw [if_pos h0, h0]
      rw [if_neg]; rfl
      rcases hs.lt_or_eq with h | h
      · rw [show Num.fin (sse D) / Num.fin 0 = .pinf by
          show Num.div _ _ = _; simp [Num.div, Num.infSign, h]]
        exact fun h => h
      · rw [← h, show Num.fin 0 / Num.fin 0 = .nan by
          show Num.div _ _ = _; simp [Num.div, Num.infSign]]
        exact fun h => h
    · rw [if_neg h0, Num.fin_div h0, Num.one_def, Num.fin_sub, Num.zero_def, Num.lt_fin]
      split_ifs with h
      · rw [max_eq_right h.le]
      · rw [max_eq_left (not_lt.mp h)]
  · subst he
    unfold rsquare
    rw [if_neg (by simpa using hl)]
    simp only [if_true, hq]
    have z1 : npSum [] = .fin 0 := rfl
    have z3 : Num.fin 0 / Num.fin 0 = .nan := by
      show Num.div _ _ = _; simp [Num.div, Num.infSign]
    have z2 : npMean [] = .nan := by
      unfold npMean
      rw [z1, List.length_nil, Nat.cast_zero, z3]
    simp only [List.map_nil, z1, z2, z3]
    congr 2
    unfold pyMax0
    rw [if_neg (show ¬ ((0:Num) < 1 - Num.nan) from fun h => h)]
    rfl
  · unfold rsquare
    rw [if_neg (by simpa using hl)]
    simp only [Bool.false_eq_true, if_false, hq]
    rw [e1, e4, e5 hne]
    congr 2
    rw [Num.fin_div h0, Num.one_def, Num.fin_sub, Num.zero_def, Num.lt_fin]
    split_ifs with h
    · rw [max_eq_left h.le]
    · rw [max_eq_right (not_lt.mp h)]

theorem zip_fin (y f : List ℝ) : List.zip (y.map Num.fin) (f.map Num.fin) = (List.zip y f).map fun q => (Num.fin q.1, Num.fin q.2) := by
  rw [List.zip_map]
  rfl

theorem filterMap_fin (D : List (ℝ × ℝ)) : (D.map fun q => (Num.fin q.1, Num.fin q.2)).filterMap finitePair = D := by
  induction D with
  | nil => rfl
  | cons q D ih => rw [List.map_cons, List.filterMap_cons_some (show finitePair (Num.fin q.1, Num.fin q.2) = some (q.1, q.2) from rfl), ih]

/-- real data: no pair is dropped -/
theorem rsquare_real (y f : List ℝ) (hl : y.length = f.length) (hy : y ≠ []) :
    rsquare (y.map .fin) (f.map .fin) true = .ok (.fin (if sst (List.zip y f) = 0 then 0 else max 0 (1 - sse (List.zip y f) / sst (List.zip y f))),
      .fin √(sse (List.zip y f) / (List.zip y f).length)) := by
  have hne : List.zip y f ≠ [] := by
    intro h
    have := congrArg List.length h
    rw [List.length_zip, ← hl] at this
    simp at this
    exact hy this
  refine (C96_value (y.map .fin) (f.map .fin) (by simpa using hl) ?_ (List.zip y f) ?_).1 hne
  · intro q hq
    rw [zip_fin] at hq
    obtain ⟨a, -, rfl⟩ := List.mem_map.mp hq
    exact Or.inr ⟨_, _, rfl⟩
  · rw [zip_fin, filterMap_fin]

theorem zip_eq_iff : ∀ (y f : List ℝ), y.length = f.length → ((∀ q ∈ List.zip y f, q.1 - q.2 = 0) ↔ y = f) := by
  intro y
  induction y with
  | nil => intro f h; cases f with | nil => simp | cons _ _ => simp at h
  | cons a y ih =>
    intro f h
    cases f with
    | nil => simp at h
    | cons b f =>
      rw [List.zip_cons_cons, List.forall_mem_cons, ih f (by simpa using h), List.cons.injEq, sub_eq_zero]

theorem zip_fst (y f : List ℝ) (hl : y.length = f.length) : (List.zip y f).map Prod.fst = y :=
  List.map_fst_zip (le_of_eq hl)

/-- C96: for real data of any length: R² is between 0 and 1 and the root mean square error is non-negative; the error is 0
exactly for a perfect fit; if the data is not constant, R² is 1 exactly for a perfect fit, and 0 for any fit at least as
bad as the mean of the data; if the data is constant, R² is 0 whatever the fit. -/
theorem C96_bounds (y f : List ℝ) (hl : y.length = f.length) (hy : y ≠ []) : ∃ r2 rmse : ℝ,
    rsquare (y.map .fin) (f.map .fin) true = .ok (.fin r2, .fin rmse) ∧ 0 ≤ r2 ∧ r2 ≤ 1 ∧ 0 ≤ rmse ∧ (rmse = 0 ↔ y = f) ∧
    ((∃ a ∈ y, ∃ b ∈ y, a ≠ b) → (r2 = 1 ↔ y = f) ∧
      ((y.map fun a => (a - y.sum / y.length)^2).sum ≤ ((List.zip y f).map fun q => (q.1 - q.2)^2).sum → r2 = 0)) ∧
    ((∀ a ∈ y, ∀ b ∈ y, a = b) → r2 = 0) := by
  refine ⟨_, _, rsquare_real y f hl hy, ?_⟩
  have hlen : (List.zip y f).length = y.length := by rw [List.length_zip, ← hl, min_self]
  have hlp : (0:ℝ) < y.length := by
    have := List.length_pos_iff.mpr hy
    exact_mod_cast this
  have hm : ymean (List.zip y f) = y.sum / y.length := by
    unfold ymean; rw [zip_fst y f hl, hlen]
  have hst : sst (List.zip y f) = (y.map fun a => (a - y.sum / y.length)^2).sum := by
    unfold sst
    rw [hm]
    conv_rhs => rw [← zip_fst y f hl]
    rw [List.map_map]
    simp only [zip_fst y f hl]
    rfl
  have hss0 : 0 ≤ sse (List.zip y f) := sum_sq_nonneg (List.zip y f) fun q => q.1 - q.2
  have hst0 : 0 ≤ sst (List.zip y f) := by rw [hst]; exact sum_sq_nonneg _ fun a => a - y.sum / y.length
  have hse : sse (List.zip y f) = 0 ↔ y = f := (sum_sq_zero _ fun q : ℝ × ℝ => q.1 - q.2).trans (zip_eq_iff y f hl)
  have hs0 : sst (List.zip y f) = 0 ↔ ∀ a ∈ y, a - y.sum / y.length = 0 := by rw [hst]; exact sum_sq_zero _ _
  refine ⟨?_, ?_, Real.sqrt_nonneg _, ?_, ?_, ?_⟩
  · split_ifs
    · exact le_rfl
    · exact le_max_left _ _
  · split_ifs with h
    · norm_num
    · refine max_le (by norm_num) ?_
      have : 0 ≤ sse (List.zip y f) / sst (List.zip y f) := by positivity
      linarith
  · rw [Real.sqrt_eq_zero (by positivity), hlen, div_eq_zero_iff, ← hse]
    constructor
    · rintro (h | h)
      · exact h
      · exact absurd h hlp.ne'
    · exact Or.inl
  · rintro ⟨a, ha, b, hb, hab⟩
    have hne : sst (List.zip y f) ≠ 0 := by
      intro h0
      have h1 := hs0.mp h0 a ha
      have h2 := hs0.mp h0 b hb
      exact hab (by linarith)
    have hpos : 0 < sst (List.zip y f) := lt_of_le_of_ne hst0 (Ne.symm hne)
    rw [if_neg hne, ← hse, ← hst]
    constructor
    · constructor
      · intro h
        rcases max_choice 0 (1 - sse (List.zip y f) / sst (List.zip y f)) with hc | hc
        · rw [hc] at h; norm_num at h
        · rw [hc] at h
          have : sse (List.zip y f) / sst (List.zip y f) = 0 := by linarith
          rcases div_eq_zero_iff.mp this with h | h
          · exact h
          · exact absurd h hne
      · intro h; rw [h]; norm_num
    · intro h
      apply max_eq_left
      have : 1 ≤ sse (List.zip y f) / sst (List.zip y f) := by
        rw [le_div_iff₀ hpos, one_mul]; exact h
      linarith
  · intro hc
    rw [if_pos]
    rw [hs0]
    intro a ha
    have : y.sum = y.length * a := by
      rw [List.eq_replicate_of_mem (fun b hb => hc b hb a ha)]
      simp
    rw [this]
    field_simp
    ring

/-- C96: R² does not depend on the units: mapping data and fit by the same affine map keeps it, and the error scales by
the absolute value of the slope. -/
theorem C96_units (y f : List ℝ) (hl : y.length = f.length) (hy : y ≠ []) (α β : ℝ) (hα : α ≠ 0) :
    ∃ r2 rmse : ℝ, rsquare (y.map .fin) (f.map .fin) true = .ok (.fin r2, .fin rmse) ∧
      rsquare (y.map fun a => .fin (α * a + β)) (f.map fun a => .fin (α * a + β)) true = .ok (.fin r2, .fin (|α| * rmse)) := by
  refine ⟨_, _, rsquare_real y f hl hy, ?_⟩
  have h := rsquare_real (y.map fun a => α * a + β) (f.map fun a => α * a + β) (by simpa using hl) (by simpa using hy)
  rw [List.map_map, List.map_map] at h
  have hz : List.zip (y.map fun a => α * a + β) (f.map fun a => α * a + β) = (List.zip y f).map fun q => (α * q.1 + β, α * q.2 + β) := by
    rw [List.zip_map]; rfl
  have hD : List.zip y f ≠ [] := by
    intro h
    have := congrArg List.length h
    rw [List.length_zip, ← hl] at this
    simp at this
    exact hy this
  rw [hz] at h
  generalize List.zip y f = D at h hD
  have hlp : (0:ℝ) < D.length := by
    have := List.length_pos_iff.mpr hD
    exact_mod_cast this
  have k : ∀ g : ℝ × ℝ → ℝ, (D.map fun q => (α * g q)^2).sum = α^2 * (D.map fun q => (g q)^2).sum := by
    intro g
    rw [← List.sum_map_mul_left]
    congr 2
    funext q
    ring
  have e1 : sse (D.map fun q => (α * q.1 + β, α * q.2 + β)) = α^2 * sse D := by
    unfold sse
    rw [List.map_map, ← k]
    congr 2
    funext q
    simp only [Function.comp_apply]
    ring
  have e2 : ymean (D.map fun q => (α * q.1 + β, α * q.2 + β)) = α * ymean D + β := by
    unfold ymean
    rw [List.map_map, List.length_map]
    have : ∀ D : List (ℝ × ℝ), (D.map (Prod.fst ∘ fun q => (α * q.1 + β, α * q.2 + β))).sum = α * (D.map Prod.fst).sum + D.length * β := by
      intro D
      induction D with
      | nil => simp
      | cons q D ih => simp only [List.map_cons, List.sum_cons, ih, List.length_cons, Function.comp_apply]; push_cast; ring
    rw [this]
    field_simp
  have e3 : sst (D.map fun q => (α * q.1 + β, α * q.2 + β)) = α^2 * sst D := by
    unfold sst
    rw [e2, List.map_map, ← k]
    congr 2
    funext q
    simp only [Function.comp_apply]
    ring
  have ha : α^2 ≠ 0 := by positivity
  have hs : 0 ≤ sse D := sum_sq_nonneg D fun q => q.1 - q.2
  rw [e1, e3, List.length_map] at h
  have c1 : (α^2 * sst D = 0) ↔ (sst D = 0) := by simp [hα]
  have c2 : α^2 * sse D / (α^2 * sst D) = sse D / sst D := mul_div_mul_left _ _ ha
  have c3 : √(α^2 * sse D / D.length) = |α| * √(sse D / D.length) := by
    rw [mul_div_assoc, Real.sqrt_mul (sq_nonneg α), Real.sqrt_sq_eq_abs]
  simp only [c1, c2, c3] at h
  exact h

/-- C96: the score of a velocity profile against a reference (`r2induction`): with increasing abscissae and real samples it is
the R² of the values of the two piecewise-linear profiles at the 100 equally spaced positions from -4.99 to -1; it lies
between 0 and 1, and is 1 exactly when the profiles agree at those positions if the reference is not constant there. -/
theorem C96_profile (X U1 U2 : List ℝ) (hX : X ≠ []) (hinc : X.Pairwise (· < ·)) (h1 : U1.length = X.length) (h2 : U2.length = X.length)
    (u1 u2 : ℝ → ℝ) (i1 : Interpolates X U1 u1) (i2 : Interpolates X U2 u2) :
    let p := fun k : ℕ => (-4.99 : ℝ) + k * ((-1 - -4.99) / 99)
    ∃ r2 : ℝ, r2Induction X (U1.map .fin) (U2.map .fin) = .ok (.fin r2) ∧ 0 ≤ r2 ∧ r2 ≤ 1 ∧
      (∃ rmse, rsquare ((List.range 100).map fun k => .fin (u1 (p k))) ((List.range 100).map fun k => .fin (u2 (p k))) true = .ok (.fin r2, rmse)) ∧
      ((∃ j < 100, ∃ k < 100, u1 (p j) ≠ u1 (p k)) → (r2 = 1 ↔ ∀ k < 100, u1 (p k) = u2 (p k))) := by
  intro p
  have e : ∀ (U : List ℝ) (u : ℝ → ℝ), U.length = X.length → Interpolates X U u →
      interpAt (linspace (-4.99) (-1) 100) X (U.map .fin) = ((List.range 100).map fun k => u (p k)).map Num.fin := by
    intro U u hU hi
    unfold interpAt linspace
    rw [List.map_map, List.map_map]
    apply List.map_congr_left
    intro k hk
    simp only [Function.comp_apply]
    rw [interp1_linear _ X U u hX hinc hU hi]
    congr 2
    simp only [p]
    norm_num
  obtain ⟨r2, rmse, b1, b2, b3, -, -, b6, -⟩ := C96_bounds ((List.range 100).map fun k => u1 (p k)) ((List.range 100).map fun k => u2 (p k)) (by simp) (by simp)
  refine ⟨r2, ?_, b2, b3, ⟨.fin rmse, ?_⟩, ?_⟩
  · unfold r2Induction
    simp only [e U1 u1 h1 i1, e U2 u2 h2 i2, b1]
  · rw [List.map_map, List.map_map] at b1
    exact b1
  · rintro ⟨j, hj, k, hk, hne⟩
    rw [(b6 ⟨u1 (p j), List.mem_map.mpr ⟨j, List.mem_range.mpr hj, rfl⟩, u1 (p k), List.mem_map.mpr ⟨k, List.mem_range.mpr hk, rfl⟩, hne⟩).1]
    rw [List.map_inj_left]
    simp

/-- three data and a fit with one wrong value -/
example : ∃ r2 rmse : ℝ, rsquare ([1, 2, 3].map .fin) ([1, 2, 2].map .fin) true = .ok (.fin r2, .fin rmse) ∧ r2 = 1/2 := by
  refine ⟨_, _, rsquare_real [1, 2, 3] [1, 2, 2] rfl (by simp), ?_⟩
  norm_num [sst, sse, ymean]

/-- a perfect fit of constant data scores 0 -/
example : ∃ rmse : ℝ, rsquare ([5, 5].map .fin) ([5, 5].map .fin) true = .ok (.fin 0, .fin rmse) := by
  obtain ⟨r2, rmse, h1, -, -, -, -, -, h7⟩ := C96_bounds [5, 5] [5, 5] rfl (by simp)
  rw [h7 (by simp)] at h1
  exact ⟨rmse, h1⟩
end Wiz
