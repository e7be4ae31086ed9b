import Verif.NumPy

/-!
# Model of `wiz/VortexLine.py`
-/
namespace Wiz
noncomputable section
open Classical

/-- `np.sqrt(X**2+Y**2)`. -/
def polarR (x y : ℝ) : ℝ := Real.sqrt (x^2 + y^2)
/-- `np.arctan2(Y,X)` (zero signs not modelled). -/
def arctan2 (y x : ℝ) : ℝ := Complex.arg ⟨x, y⟩

/-- `vl_semiinf_u(xa,ya,za,xe,ye,ze,Gamma,visc_model,t)` at one control point.
Models wiz/VortexLine.py:16-61.  `visc_model` 1 to 4 read the undefined names `xb,yb,zb`
(lines 34,42,47,52): a `NameError`.  A `visc_model` that is none of 0..5 leaves `Kv=1.0`. -/
def vlSemiinf (a : V3 ℝ) (e : V3 Num) (Gamma : Num) (visc_model : ℤ) (t : ℝ) : Except String (V3 Num) :=
  let xa : Num := .fin a.x
  let ya : Num := .fin a.y
  let za : Num := .fin a.z
  let norm_a := Num.sqrt (xa^2 + ya^2 + za^2)
  let denominator := norm_a * (norm_a - (xa*e.x + ya*e.y + za*e.z))
  let crossprod : V3 Num := ⟨e.y*za - e.z*ya, e.z*xa - e.x*za, e.x*ya - e.y*xa⟩
  if denominator < .fin (1e-12) ∨ norm_a < .fin (1e-5) then .ok ⟨0, 0, 0⟩
  else if visc_model = 1 ∨ visc_model = 2 ∨ visc_model = 3 ∨ visc_model = 4 then
    .error "NameError: name 'xb' is not defined"
  else
    let denominator := if visc_model = 5 then denominator + .fin t else denominator
    let Kv := Gamma * 1 / 4 / .fin Real.pi / denominator
    .ok (V3.smul Kv crossprod)

/-- `vl_semiinf_straight_u_polar(vr,vpsi,vz,Gamma_r,polar_out)` at one control point; the
result is `(u_r,u_psi,u_z)` if `polar_out`, else `(u_x,u_y,u_z)`.
Models wiz/VortexLine.py:63-91. -/
def vlSemiinfStraightPolar (r psi z : ℝ) (Gamma_r : Num) (polar_out : Bool) : V3 Num :=
  if Num.Eqv Gamma_r 0 then ⟨.fin r * 0, .fin r * 0, .fin r * 0⟩
  else
    let u_psi := Gamma_r / (.fin (4 * Real.pi) * .fin r)
      * (1 + .fin z / Num.sqrt ((.fin r : Num)^2 + (.fin z : Num)^2))
    if polar_out then ⟨0, u_psi, 0⟩
    else ⟨.fin (-Real.sin psi) * u_psi, .fin (Real.cos psi) * u_psi, 0⟩

/-- `vl_semiinf_straight_u(Xcp,Ycp,Zcp,Gamma_r,polar_out)`.  Models wiz/VortexLine.py:93-96. -/
def vlSemiinfStraight (p : V3 ℝ) (Gamma_r : Num) (polar_out : Bool) : V3 Num :=
  vlSemiinfStraightPolar (polarR p.x p.y) (arctan2 p.y p.x) p.z Gamma_r polar_out

end
end Wiz
