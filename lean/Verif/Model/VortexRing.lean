import Verif.Spec.Elliptic
import Verif.Model.VortexLine

/-!
# Model of `wiz/VortexRing.py`

Every function is elementwise in the control points (all masks are pointwise), so it is
modelled at one control point.  Points, strengths, radii and cut-offs are finite reals.
-/
namespace Wiz
noncomputable section
open Classical

/-- `ring_u_polar_singular(r,z,Gamma,r0)`.  Models wiz/VortexRing.py:16-35. -/
def ringPolarSingular (r z Gamma r0 : ℝ) : Num × Num :=
  let r : Num := .fin r
  let z : Num := .fin z
  let r0 : Num := .fin r0
  let k2 := 4 * r * r0 / ((r + r0)^2 + z^2)
  let k := Num.sqrt k2
  let K := ellipk k2
  let E := ellipe k2
  let fact := Num.fin Gamma / (4 * Num.fin Real.pi * r0) * k
  let A := (2 - k2) / (2 - 2 * k2)
  let B := r0 * k2 / (2 * r * (1 - k2))
  let ur := fact * z / r0 * Num.rpow (r0 / r) (3/2) * (A * E - K)
  let uz := fact * Num.rpow (r0 / r) (1/2) * ((B - A) * E + K)
  (ur, uz)

/-- `ring_u_polar_singularb(r,z,Gamma,r0)` (Yoon).  Models wiz/VortexRing.py:37-52. -/
def ringPolarSingularB (r z Gamma r0 : ℝ) : Num × Num :=
  let r : Num := .fin r
  let z : Num := .fin z
  let r0 : Num := .fin r0
  let a := Num.sqrt ((r + r0)^2 + z^2)
  let m := 4 * r * r0 / a^2
  let A := z^2 + r^2 + r0^2
  let B := -(2 : Num) * r * r0
  let I1 := 4 / a * ellipk m
  let I2 := 4 / a^3 * ellipe m / (1 - m)
  let ur := Num.fin Gamma / (4 * Num.fin Real.pi) * r0 * z / B * (I1 - A * I2)
  let uz := Num.fin Gamma / (4 * Num.fin Real.pi) * r0 * ((r0 + r * A / B) * I2 - r / B * I1)
  (ur, uz)

/-- The axis value `Gamma/(2*r0)*(1.0/((1+(z/r0)**2)**(3.0/2.0)))`.
Models wiz/VortexRing.py:70,132. -/
def ringAxis (z Gamma r0 : ℝ) : Num :=
  .fin Gamma / (2 * .fin r0) * (1 / Num.rpow (1 + (Num.fin z / .fin r0)^2) (3/2))

/-- `ring_u_polar(r,z,Gamma,r0,z0,epsilon,reg_method)` at one point.  When `epsilon!=0` and
`reg_method` is neither `'Saffman'` nor `'linear'`, `Ir` is unbound (line 99): `NameError`.
The blending values of `'linear'` are evaluated with the default `Gamma=-1, r0=1`
(lines 90-91), as in the code.  Simplified: these two scalar calls follow numpy's division rules here (`inf`/`nan`);
with plain Python floats and `r0 ± epsilon/2` equal to 1 (or 0) the code raises `ZeroDivisionError` instead.
Models wiz/VortexRing.py:54-105. -/
def ringPolar (r z' Gamma r0 z0 epsilon : ℝ) (reg_method : String) : Except String (Num × Num) :=
  let z := z' - z0
  let Iz : Prop := r < 1e-07 * r0
  let singular := ringPolarSingular r z Gamma r0
  let rest : Num × Num := if Iz then (0, ringAxis z Gamma r0) else singular
  if epsilon = 0 then
    if |r - r0| < 1e-07 * r0 ∧ |z| < 1e-07 then .ok (0, .fin Gamma / (4 * .fin r0))
    else .ok rest
  else
    let rho := Num.sqrt (Num.fin ((r - r0)^2 + z^2))
    if reg_method = "Saffman" then
      if rho < .fin (epsilon / 2) then
        .ok (0, .fin Gamma / (4 * .fin Real.pi * .fin r0) * (Num.log (16 * .fin r0 / .fin epsilon) - 1 / 4))
      else .ok rest
    else if reg_method = "linear" then
      if rho < .fin (epsilon / 2) then
        let uzp := (ringPolarSingular (r0 + epsilon / 2) 0 (-1) 1).2
        let uzm := (ringPolarSingular (r0 - epsilon / 2) 0 (-1) 1).2
        .ok (0, uzp + (uzm - uzp) * (rho / .fin epsilon / 2))
      else .ok rest
    else .error "UnboundLocalError: Ir"

/-- `ring_u(Xcp,Ycp,Zcp,Gamma,R,polar_out=True,epsilon)` at one point.
Models wiz/VortexRing.py:108-179. -/
def ringUPolarOut (p : V3 ℝ) (Gamma R epsilon : ℝ) : Num × Num :=
  let r := polarR p.x p.y
  let z := p.z
  if |r - R| < 1e-07 * R ∧ |z| < 1e-07 then
    if epsilon = 0 then (0, .fin Gamma / (4 * .fin R))
    else (0, .fin Gamma / (4 * .fin Real.pi * .fin R) * (Num.log (8 * .fin R / .fin epsilon) - 1 / 4))
  else if r < 1e-07 * R then (0, ringAxis z Gamma R)
  else
    let r : Num := .fin r
    let z : Num := .fin z
    let R : Num := .fin R
    let a := Num.sqrt ((r + R)^2 + z^2)
    let m := 4 * r * R / a^2
    let A := z^2 + r^2 + R^2
    let B := -(2 : Num) * r * R
    let I1 := 4 / a * ellipk m
    let I2 := 4 / a^3 * ellipe m / (1 - m)
    (Num.fin Gamma / (4 * Num.fin Real.pi) * R * (z / B * (I1 - A * I2)),
     Num.fin Gamma / (4 * Num.fin Real.pi) * R * ((R + r * A / B) * I2 - r / B * I1))

/-- `ring_u(...,polar_out=False)`.  Models wiz/VortexRing.py:108-184. -/
def ringU (p : V3 ℝ) (Gamma R epsilon : ℝ) : V3 Num :=
  let u := ringUPolarOut p Gamma R epsilon
  let psi := arctan2 p.y p.x
  ⟨u.1 * Num.cos (.fin psi), u.1 * Num.sin (.fin psi), u.2⟩

/-- One ring of a system: strength, radius, centre. -/
structure RingSpec where
  Gamma : ℝ
  R : ℝ
  pos : V3 ℝ

/-- `rings_u(...,polar_out=False)` at one point; the ring arrays are zipped (extra entries of
longer arrays are ignored by `zip`).  Models wiz/VortexRing.py:186-220. -/
def ringsU (p : V3 ℝ) (rings : List RingSpec) (epsilon : ℝ) : V3 Num :=
  rings.foldl (fun u c =>
    if 0 < |c.Gamma| then u + ringU (p - c.pos) c.Gamma c.R epsilon else u) 0

/-- `rings_u(...,polar_out=True)` at one point.  Models wiz/VortexRing.py:200-209. -/
def ringsUPolarOut (p : V3 ℝ) (rings : List RingSpec) (epsilon : ℝ) : Num × Num :=
  rings.foldl (fun u c =>
    if 0 < |c.Gamma| then
      let u1 := ringUPolarOut (p - c.pos) c.Gamma c.R epsilon
      (u.1 + u1.1, u.2 + u1.2)
    else u) (0, 0)

end
end Wiz
