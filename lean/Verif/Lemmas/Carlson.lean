import Verif.Spec.Carlson
import Mathlib.Tactic.Linarith
namespace Wiz
open Spec Classical

theorem scatter_map {α β : Type} (mask : α → Prop) [inst : DecidablePred mask] (d f : α → β) (xs : List α) :
    scatter mask d xs ((xs.filter fun x => @decide (mask x) (inst x)).map f) = xs.map fun x => if mask x then f x else d x := by
  induction xs with
  | nil => rfl
  | cons x xs ih =>
    by_cases h : mask x
    · simp only [scatter, h, List.filter_cons, decide_true, if_true, List.map_cons, ih]
    · simp only [scatter, h, List.filter_cons, decide_false, Bool.false_eq_true, if_false, List.map_cons, ih]

theorem rfLoop_schedule (fuel : ℕ) (s : List RFst) :
    ∃ k ≤ fuel, (1 ≤ fuel → 1 ≤ k) ∧ rfLoop fuel s = s.map rfStep^[k] := by
  induction fuel generalizing s with
  | zero => exact ⟨0, le_rfl, by omega, by simp [rfLoop]⟩
  | succ f ih =>
    simp only [rfLoop]
    split_ifs with h
    · obtain ⟨k, hk, -, e⟩ := ih (s.map rfStep)
      refine ⟨k + 1, by omega, by omega, ?_⟩
      rw [e, List.map_map]; rfl
    · exact ⟨1, by omega, by omega, rfl⟩

theorem rcLoop_schedule (fuel : ℕ) (s : List RCst) :
    ∃ k ≤ fuel, (1 ≤ fuel → 1 ≤ k) ∧ rcLoop fuel s = s.map rcStep^[k] := by
  induction fuel generalizing s with
  | zero => exact ⟨0, le_rfl, by omega, by simp [rcLoop]⟩
  | succ f ih =>
    simp only [rcLoop]
    split_ifs with h
    · obtain ⟨k, hk, -, e⟩ := ih (s.map rcStep)
      refine ⟨k + 1, by omega, by omega, ?_⟩
      rw [e, List.map_map]; rfl
    · exact ⟨1, by omega, by omega, rfl⟩

theorem ellipticRF_schedule (ys : List Num) :
    ∃ k, 1 ≤ k ∧ k ≤ 20 ∧ ellipticRF ys = ys.map (carlsonRF k) := by
  obtain ⟨k, hk, h1, e⟩ := rfLoop_schedule carlsonITMAX (ys.map fun y => ⟨0, y, 1, 0⟩)
  refine ⟨k, h1 (by decide), hk, ?_⟩
  rw [ellipticRF, e, List.map_map, List.map_map]; rfl

theorem ellipticRC_schedule (xys : List (Num × Num)) :
    ∃ k, 1 ≤ k ∧ k ≤ 20 ∧ ellipticRC xys = xys.map fun p => carlsonRC k p.1 p.2 := by
  obtain ⟨k, hk, h1, e⟩ := rcLoop_schedule carlsonITMAX (xys.map fun p => ⟨p.1, p.2, 0⟩)
  refine ⟨k, h1 (by decide), hk, ?_⟩
  rw [ellipticRC, e, List.map_map, List.map_map]; rfl

/-- RJ loop started after `nIt` passes with a given inner schedule. -/
theorem rjLoop_schedule (ps : List (Num × Num)) (fuel : ℕ) : ∀ (nIt : ℕ) (kC : ℕ → ℕ), (∀ j, 1 ≤ kC j ∧ kC j ≤ 20) →
    ∃ (k : ℕ) (kC' : ℕ → ℕ), k ≤ fuel ∧ (1 ≤ fuel → 1 ≤ k) ∧ (∀ j, 1 ≤ kC' j ∧ kC' j ≤ 20) ∧
      rjLoop fuel nIt (ps.map fun p => carlsonRJst kC p.1 p.2 nIt)
        = ps.map fun p => carlsonRJst kC' p.1 p.2 (nIt + k) := by
  induction fuel with
  | zero => intro nIt kC hk; exact ⟨0, kC, le_rfl, by omega, hk, by simp [rjLoop]⟩
  | succ f ih =>
    intro nIt kC hk
    obtain ⟨c, hc1, hc2, ec⟩ := ellipticRC_schedule
      ((ps.map fun p => carlsonRJst kC p.1 p.2 nIt).map fun a => (rjAlfa a, rjBet a))
    -- inner schedule updated at position nIt
    let kC' : ℕ → ℕ := fun j => if j = nIt then c else kC j
    have hk' : ∀ j, 1 ≤ kC' j ∧ kC' j ≤ 20 := by
      intro j; simp only [kC']; split_ifs
      · exact ⟨hc1, hc2⟩
      · exact hk j
    have same : ∀ (y rho : Num) (j : ℕ), j ≤ nIt → carlsonRJst kC' y rho j = carlsonRJst kC y rho j := by
      intro y rho j
      induction j with
      | zero => intro _; rfl
      | succ j ihj =>
        intro hj
        simp only [carlsonRJst]
        rw [ihj (by omega)]
        have : kC' j = kC j := by simp only [kC']; rw [if_neg (by omega)]
        rw [this]
    have hstep : List.zipWith (rjStep nIt) (ps.map fun p => carlsonRJst kC p.1 p.2 nIt)
        (ellipticRC ((ps.map fun p => carlsonRJst kC p.1 p.2 nIt).map fun a => (rjAlfa a, rjBet a)))
        = ps.map fun p => carlsonRJst kC' p.1 p.2 (nIt + 1) := by
      rw [ec]
      simp only [List.map_map]
      rw [List.zipWith_map, List.zipWith_self]
      apply List.map_congr_left
      intro p _
      simp only [carlsonRJst, same p.1 p.2 nIt le_rfl, Function.comp_def]
      simp only [kC', if_true]
    simp only [rjLoop, hstep]
    split_ifs with h
    · obtain ⟨k, kC2, h1, h2, h3, e⟩ := ih (nIt + 1) kC' hk'
      exact ⟨k + 1, kC2, by omega, by omega, h3, by rw [e]; congr 1; ext p; congr 1; omega⟩
    · exact ⟨1, kC', by omega, by omega, hk', rfl⟩

theorem ellipticRJ_schedule (yr : List (Num × Num)) :
    ∃ (k : ℕ) (kC : ℕ → ℕ), 1 ≤ k ∧ k ≤ 20 ∧ (∀ j, 1 ≤ kC j ∧ kC j ≤ 20) ∧
      ellipticRJ yr = yr.map fun p => carlsonRJ kC k p.1 p.2 := by
  obtain ⟨k, kC, h1, h2, h3, e⟩ := rjLoop_schedule (yr.filter fun p => (0 : Num) < p.2) carlsonITMAX 0 (fun _ => 1) (by simp)
  refine ⟨k, kC, h2 (by decide), h1, h3, ?_⟩
  unfold ellipticRJ
  simp only [carlsonRJst, zero_add] at e
  have : (if (yr.filter fun p => decide ((0 : Num) < p.2)) = [] then []
      else (rjLoop carlsonITMAX 0 ((yr.filter fun p => decide ((0 : Num) < p.2)).map fun p => ⟨0, p.1, 1, p.2, 0, 0⟩)).map RJst.RJ)
      = (yr.filter fun p => decide ((0 : Num) < p.2)).map fun p => (carlsonRJst kC p.1 p.2 k).RJ := by
    split_ifs with h
    · rw [h]; rfl
    · rw [e, List.map_map]; rfl
  simp only [] at this ⊢
  rw [this, scatter_map]
  rfl

theorem carlson_schedule (nm : List (Num × Num)) :
    ∃ (kF kJ : ℕ) (kC : ℕ → ℕ), (1 ≤ kF ∧ kF ≤ 20) ∧ (1 ≤ kJ ∧ kJ ≤ 20) ∧ (∀ j, 1 ≤ kC j ∧ kC j ≤ 20) ∧
      ellipticPiCarlson nm = nm.map fun p => carlsonPi kF kJ kC p.1 p.2 := by
  obtain ⟨kF, a1, a2, e1⟩ := ellipticRF_schedule (nm.map fun p => 1 - p.2)
  obtain ⟨kJ, kC, b1, b2, b3, e2⟩ := ellipticRJ_schedule (nm.map fun p => (1 - p.2, 1 - p.1))
  refine ⟨kF, kJ, kC, ⟨a1, a2⟩, ⟨b1, b2⟩, b3, ?_⟩
  unfold ellipticPiCarlson
  split_ifs with h
  · rw [h]; rfl
  · simp only [e1, e2, List.map_map]
    rw [List.zipWith_map_right, List.zipWith_self, List.zipWith_map, List.zipWith_self]
    rfl
end Wiz
