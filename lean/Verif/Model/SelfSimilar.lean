import Verif.NumPy

/-! # Model of `wiz/SelfSimilar.py` -/
namespace Wiz
noncomputable section
open Classical

/-- `ss_u(Xcp,Ycp,Zcp,gamma_t,R,lambda_,eta)` at one control point (the function is
elementwise).  Models wiz/SelfSimilar.py:8-31. -/
def ssU (p : V3 ℝ) (gamma_t : Num) (R lambda_ eta : ℝ) : Num :=
  let beta : Num := Num.sqrt 2
  let alpha : ℝ := 8 / 9
  let ui0 : Num := gamma_t / 2
  let r : Num := Num.sqrt (Num.fin (p.x^2 + p.y^2))
  let z : Num := Num.fin p.z
  let r12 : Num := Num.sqrt (Num.fin lambda_ * (Num.fin eta + (z / Num.fin R)^2)) * Num.fin R
  let epsilon : Num := r / r12
  let FEPS : Num := Num.rpow (1 / Num.cosh (beta * epsilon)) alpha
  let ui0_x : Num := ui0 * (1 + z / Num.sqrt (z^2 + Num.fin R ^ 2))
  let uz : Num := ui0_x * FEPS
  if 0 < p.z then 0 else uz

/-- `ss_u` with its default model constants `lambda_=0.587`, `eta=1.32`.
Models wiz/SelfSimilar.py:8. -/
def ssUDefault (p : V3 ℝ) (gamma_t : Num) (R : ℝ) : Num := ssU p gamma_t R 0.587 1.32

end
end Wiz
