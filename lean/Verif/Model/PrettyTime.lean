import Mathlib.Algebra.Order.Floor.Semifield
import Mathlib.Algebra.Order.Archimedean.Real.Basic
import Mathlib.Analysis.SpecialFunctions.Pow.Real

/-!
# Model of `pretty_time` of wiz/examples/tictoc.py

Times are exact reals.  Strings are lists of characters.  Python's `str.format` is external code: the three
format codes used are modelled below.
-/
namespace Wiz
noncomputable section
open Classical

/-- Left padding of a string to a width (Python format, external code). -/
def padLeft (c : Char) (w : ℕ) (s : List Char) : List Char := List.replicate (w - s.length) c ++ s

/-- `'{:2d}'.format(n)`, `n>=0` (external code). -/
def fmt2d (n : ℕ) : List Char := padLeft ' ' 2 (Nat.toDigits 10 n)

/-- `'{:02d}'.format(n)`, `n>=0` (external code). -/
def fmt02d (n : ℕ) : List Char := padLeft '0' 2 (Nat.toDigits 10 n)

/-- Rounding to the nearest integer, ties to even, of a non-negative number (external code). -/
def roundEven (x : ℝ) : ℕ :=
  let k := ⌊x⌋₊
  if x - k < 1/2 then k else if 1/2 < x - k then k + 1 else if k % 2 = 0 then k else k + 1

/-- `'{:W.1f}'.format(x)`, `x>=0` (external code). -/
def fmt1f (W : ℕ) (x : ℝ) : List Char :=
  let k := roundEven (10 * x)
  padLeft ' ' W (Nat.toDigits 10 (k / 10) ++ ['.'] ++ Nat.toDigits 10 (k % 10))

/-- `pretty_time(t)`.  Models wiz/examples/tictoc.py:5-37. -/
def prettyTime (t : ℝ) : List Char :=
  if t < 0 then ['-', '-', '-', '-', '-', '-']
  else if t < 1 then
    let c := ⌊t * 100⌋₊
    fmt2d 0 ++ ['.'] ++ fmt02d c ++ ['s']
  else if t < 60 then
    let s := ⌊t⌋₊
    let c := ⌊(t - s) * 100⌋₊
    fmt2d s ++ ['.'] ++ fmt02d c ++ ['s']
  else if t < 3600 then
    let m := ⌊t / 60⌋₊
    let s := ⌊t⌋₊ % 60
    fmt2d m ++ ['m'] ++ fmt02d s ++ ['s']
  else if t < 86400 then
    let h := ⌊t / 3600⌋₊
    let m := ⌊((⌊t⌋₊ % 3600 : ℕ) : ℝ) / 60⌋₊
    fmt2d h ++ ['h'] ++ fmt02d m ++ ['m']
  else if t < 8553600 then
    let d := ⌊t / 86400⌋₊
    let h := ⌊((⌊t⌋₊ % 86400 : ℕ) : ℝ) / 3600⌋₊
    fmt2d d ++ ['d'] ++ fmt02d h ++ ['h']
  else if t < 31536000 then
    let m := t / (3600 * 24 * 30.5)
    fmt1f 4 m ++ ['m', 'o']
  else
    let y := t / (3600 * 24 * 365.25)
    fmt1f 0 y ++ ['y']
end
end Wiz
