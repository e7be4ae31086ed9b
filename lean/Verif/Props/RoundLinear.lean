import Verif.Props.VortexRing
import Verif.Props.SimLines
import Mathlib.Algebra.Ring.Parity

/-! # C54, C123: the linear core of the ring; the rounding of printed numbers -/
set_option autoImplicit false

namespace Wiz
open Real Spec

/-- C123: the rounding used for printed numbers is to the nearest integer; of two nearest integers the even one is taken. -/
theorem C123_rounding (x : ℝ) (hx : 0 ≤ x) : |(roundEven x : ℝ) - x| ≤ 1/2 ∧ (|(roundEven x : ℝ) - x| = 1/2 → Even (roundEven x)) := by
  have fl := Nat.floor_le hx
  have fu := Nat.lt_floor_add_one x
  unfold roundEven
  simp only
  split_ifs with h1 h2 h3
  · rw [abs_sub_comm, abs_of_nonneg (by linarith)]
    exact ⟨h1.le, fun h => absurd h h1.ne⟩
  · push_cast
    rw [abs_of_nonneg (by linarith)]
    exact ⟨by linarith, fun h => by linarith⟩
  · have : x - ⌊x⌋₊ = 1/2 := le_antisymm (not_lt.mp h2) (not_lt.mp h1)
    rw [abs_sub_comm, abs_of_nonneg (by linarith)]
    exact ⟨this.le, fun _ => Nat.even_iff.mpr h3⟩
  · have : x - ⌊x⌋₊ = 1/2 := le_antisymm (not_lt.mp h2) (not_lt.mp h1)
    push_cast
    rw [abs_of_nonneg (by linarith)]
    exact ⟨by linarith, fun _ => Nat.even_iff.mpr (by omega)⟩

/-- C54 (what `'linear'` does): within half of `epsilon` of the ring the radial velocity is zero and the axial one runs from the
value at `R+ε/2` of the ring of **unit radius and strength -1** towards its value at `R-ε/2`, of which it covers a quarter of the
way at the border of the core; `Gamma` and the radius of the ring play no other part. -/
theorem C54_linear_core (r z Γ R z0 ε : ℝ) (hε : 0 < ε) (hR : ε / 2 < R) (h1 : R + ε/2 ≠ 1) (h2 : R - ε/2 ≠ 1)
    (hin : √((r - R)^2 + (z - z0)^2) < ε / 2) :
    let outer := (ringField (-1) 1 ⟨R + ε/2, 0, 0⟩).z
    let inner := (ringField (-1) 1 ⟨R - ε/2, 0, 0⟩).z
    ringPolar r z Γ R z0 ε "linear" = .ok (.fin 0, .fin (outer + (inner - outer) * (√((r - R)^2 + (z - z0)^2) / ε / 2))) := by
  intro outer inner
  obtain ⟨a1, b1, -, e1, f1⟩ := C52_biot_savart_polar (R + ε/2) 0 0 (-1) 1 (by linarith) one_pos (fun h => h1 h.1)
  obtain ⟨a2, b2, -, e2, f2⟩ := C52_biot_savart_polar (R - ε/2) 0 0 (-1) 1 (by linarith) one_pos (fun h => h2 h.1)
  have o : outer = b1 := by
    have := congrArg V3.z f1
    simpa only [cos_zero, sin_zero, mul_one, mul_zero] using this
  have i : inner = b2 := by
    have := congrArg V3.z f2
    simpa only [cos_zero, sin_zero, mul_one, mul_zero] using this
  unfold ringPolar
  have hlt : Num.sqrt (Num.fin ((r - R)^2 + (z - z0)^2)) < Num.fin (ε/2) := by
    rw [Num.sqrt_fin (by positivity), Num.lt_fin]; exact hin
  have hlin : ¬ ("linear" = "Saffman") := by decide
  simp only [hε.ne', if_false, hlin, if_true, hlt, e1, e2, o, i]
  simp only [Num.sqrt_fin (show 0 ≤ (r - R)^2 + (z - z0)^2 by positivity), Num.ofNat_def, Num.zero_def, Num.fin_sub, Num.fin_mul, Num.fin_add,
      Num.fin_div hε.ne', Num.fin_div (show (2:ℝ) ≠ 0 by norm_num)]

/-- the hypotheses hold at the default radius, at a point beside the ring -/
example (Γ : ℝ) : ∃ v, ringPolar 1.01 0.02 Γ 1 0 0.1 "linear" = .ok (.fin 0, .fin v) :=
  ⟨_, C54_linear_core 1.01 0.02 Γ 1 0 0.1 (by norm_num) (by norm_num) (by norm_num) (by norm_num) (by
    rw [Real.sqrt_lt' (by norm_num)]; norm_num)⟩

end Wiz
