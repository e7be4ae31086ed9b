import Verif.Model.Elliptic

/-! # Specification: Carlson's recursion for one pair `(n,m)` with prescribed iteration counts -/
namespace Wiz.Spec
noncomputable section
open Classical

/-- `RF` after `k` passes, started from `(0,y,1)`. -/
def carlsonRF (k : ℕ) (y : Num) : Num := (rfStep^[k] ⟨0, y, 1, 0⟩).RF

/-- `RC` after `k` passes. -/
def carlsonRC (k : ℕ) (x y : Num) : Num := (rcStep^[k] ⟨x, y, 0⟩).RC

/-- State of `RJ` after `k` passes, pass `j` using `kC j` passes of `RC`. -/
def carlsonRJst (kC : ℕ → ℕ) (y rho : Num) : ℕ → RJst
  | 0 => ⟨0, y, 1, rho, 0, 0⟩
  | k + 1 =>
    let s := carlsonRJst kC y rho k
    rjStep k s (carlsonRC (kC k) (rjAlfa s) (rjBet s))

/-- `RJ` after `k` passes for `rho>0`, else `inf`. -/
def carlsonRJ (kC : ℕ → ℕ) (k : ℕ) (y rho : Num) : Num :=
  if 0 < rho then (carlsonRJst kC y rho k).RJ else .pinf

/-- `Π(n,m)` by Carlson's recursion: `RF(0,1-m,1) + n/3 RJ(0,1-m,1,1-n)`. -/
def carlsonPi (kF kJ : ℕ) (kC : ℕ → ℕ) (n m : Num) : Num :=
  carlsonRF kF (1 - m) + .fin (1/3) * n * carlsonRJ kC kJ (1 - m) (1 - n)

/-- The stopping rule "repeat until two successive values differ by at most `res` at every entry of the batch, at most `cap`
times": `k` passes are made, each pass before the last leaves some entry that moved by more than `res`, and if fewer than `cap`
passes are made the last one moved no entry by more than `res`.  `it j p` is the value at entry `p` after `j` passes. -/
def StopsAt {α : Type} (res : ℝ) (cap : ℕ) (it : ℕ → α → Num) (batch : List α) (k : ℕ) : Prop :=
  1 ≤ k ∧ k ≤ cap ∧
  (∀ j, 1 ≤ j → j < k → ∃ p ∈ batch, Num.fin res < Num.abs (it j p - it (j-1) p)) ∧
  (k < cap → ∀ p ∈ batch, Num.abs (it k p - it (k-1) p) ≤ Num.fin res)

end
end Wiz.Spec
