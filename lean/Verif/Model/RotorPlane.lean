import Verif.Model.Elliptic
import Verif.Model.VortexCylinderSkewed

/-!
# Model of the rotor-plane flow expansions of `wiz/VortexCylinderSkewed.py` (`fKxit`, `fKzt`)

`vr` is a 1-d array of finite reals, `m` a finite real.  The routine for the elliptic integral of
the third kind is an argument of the `…With` functions; the library passes
`ellipticPiCarlson`.
-/
namespace Wiz
noncomputable section
open Classical

/-- `k2`.  Models wiz/VortexCylinderSkewed.py:416 and 461. -/
def rpK2 (r : ℝ) : Num := (1 - .fin r)^2 / (1 + .fin r)^2
/-- `m1`.  Models wiz/VortexCylinderSkewed.py:417 and 462. -/
def rpM1 (r m : ℝ) : Num :=
  (Num.sqrt (1 + .fin m ^ 2) + Num.sqrt (.fin r ^ 2 + .fin m ^ 2)) / (1 + .fin r)
/-- `m2`.  Models wiz/VortexCylinderSkewed.py:418 and 463. -/
def rpM2 (r m : ℝ) : Num :=
  (Num.sqrt (1 + .fin m ^ 2) - Num.sqrt (.fin r ^ 2 + .fin m ^ 2)) / (1 + .fin r)
/-- `b1`.  Models wiz/VortexCylinderSkewed.py:419 and 464. -/
def rpB1 (r m : ℝ) : Num := rpM1 r m ^ 2 - 1
/-- `b2`.  Models wiz/VortexCylinderSkewed.py:420 and 465. -/
def rpB2 (r m : ℝ) : Num := 1 - rpM2 r m ^ 2
/-- `j2`.  Models wiz/VortexCylinderSkewed.py:421 and 466. -/
def rpJ2 (r : ℝ) : Num := 1 - rpK2 r
/-- `fOye`.  Models wiz/VortexCylinderSkewed.py:414 and 454. -/
def rpOye (r : ℝ) : Num := .fin 0.5 * (.fin r + .fin 0.4 * .fin r ^ 3 + .fin 0.4 * .fin r ^ 5)

/-- One entry of `Kzt`, given `Pi1` and `Pi2`.  Models wiz/VortexCylinderSkewed.py:470. -/
def kztEntry (r m : ℝ) (Pi1 Pi2 : Num) : Num :=
  2 * Num.sqrt (1 + .fin m ^ 2) * .fin r / (.fin m * .fin Real.pi) * ellipk (.fin r ^ 2)
    - .fin r * (.fin r + 1) / (2 * .fin m * .fin Real.pi * Num.sqrt (.fin m ^ 2 + .fin r ^ 2))
      * ((rpB1 r m + rpJ2 r) * Pi1 + (rpB2 r m - rpJ2 r) * Pi2)

/-- `1+r**2-2*r*cos(t)` -/
def rpDist (r t : ℝ) : Num := 1 + .fin r ^ 2 - 2 * .fin r * .fin (Real.cos t)

/-- `Kztnum[ir]` with `n` quadrature points (the code: `n=1000`).
Models wiz/VortexCylinderSkewed.py:472-474. -/
def kztNum (n : ℕ) (r m : ℝ) : Num :=
  -1 / .fin Real.pi * .fin r * Num.sqrt (1 + .fin m ^ 2) / .fin m *
    trapzOf (fun t => -1 / Num.sqrt (rpDist r t)
      + Num.sqrt (1 - 2 * .fin r * .fin (Real.cos t) + .fin r ^ 2) / (rpDist r t + .fin m ^ 2 * .fin (Real.sin t) ^ 2))
      (linspace 0 Real.pi n)

/-- `Kztnum2[ir]`.  Models wiz/VortexCylinderSkewed.py:485-487. -/
def kztNum2 (n : ℕ) (r m : ℝ) : Num :=
  .fin r * .fin m * Num.sqrt (1 + .fin m ^ 2) / .fin Real.pi *
    trapzOf (fun t => .fin (Real.sin t) ^ 2 / (Num.sqrt (rpDist r t) * (rpDist r t + .fin m ^ 2 * .fin (Real.sin t) ^ 2)))
      (linspace 0 Real.pi n)

/-- `(1+r)**2-4*r*cos(t)**2` -/
def rpDist2 (r t : ℝ) : Num := (1 + .fin r)^2 - 4 * .fin r * .fin (Real.cos t) ^ 2

/-- `Kztnum3[ir]`.  Models wiz/VortexCylinderSkewed.py:489-491. -/
def kztNum3 (n : ℕ) (r m : ℝ) : Num :=
  2 * .fin r * Num.sqrt (1 + .fin m ^ 2) * .fin m / .fin Real.pi *
    trapzOf (fun t => .fin (Real.sin (2*t)) ^ 2 /
        (Num.sqrt (rpDist2 r t) * (rpDist2 r t + .fin m ^ 2 * .fin (Real.sin (2*t)) ^ 2)))
      (linspace 0 (Real.pi / 2) n)

/-- The common integral of `Kxit_num[ir]` and `Kztnum4[ir]`.
Models wiz/VortexCylinderSkewed.py:444 and 495. -/
def kxitTrapz (n : ℕ) (r chi : ℝ) : Num :=
  trapzOf (fun t => .fin (Real.sin (2*t)) ^ 2 /
        (Num.sqrt (rpDist2 r t) * ((.fin r - .fin (Real.cos (2*t)))^2 * .fin (Real.cos chi) ^ 2 + .fin (Real.sin (2*t)) ^ 2)))
      (linspace 0 (Real.pi / 2) n)

/-- `Kztnum4[ir]`, for a given value of the name `chi` (which `fKzt` never defines).
Models wiz/VortexCylinderSkewed.py:493-495. -/
def kztNum4 (n : ℕ) (r chi : ℝ) : Num :=
  2 * .fin r / .fin Real.pi * 1 * .fin (Real.sin chi) * kxitTrapz n r chi

/-- `Kxit_num[ir]`.  Models wiz/VortexCylinderSkewed.py:438-444. -/
def kxitNum (n : ℕ) (r m : ℝ) : Num := 2 * .fin r / .fin Real.pi * kxitTrapz n r (Real.arctan m)

/-- `fKzt(r,m,nout)` for a natural number `nout` (for `nout==1` the code returns the array itself,
here the one-element tuple).  `chi` is an undefined name: the loop of line 494 raises as soon as
`vr` is not empty.  Models wiz/VortexCylinderSkewed.py:452-497. -/
def fKztWith (Pi : List (Num × Num) → List Num) (vr : List ℝ) (m : ℝ) (nout : ℕ) : Except String (List (List Num)) :=
  if m = 0 then .error "Not intended for m==0"
  else
    let Pi1 := Pi (vr.map fun r => (- rpB1 r m, rpJ2 r))
    let Pi2 := Pi (vr.map fun r => (rpB2 r m, rpJ2 r))
    let Kzt := List.zipWith (fun r p => kztEntry r m p.1 p.2) vr (Pi1.zip Pi2)
    let Kztnum := vr.map (kztNum 1000 · m)
    let fOye := vr.map rpOye
    if nout = 1 then .ok [Kzt]
    else if nout ≤ 3 then .ok ([Kzt, Kztnum, fOye].take nout)
    else if vr = [] then .ok ([Kzt, Kztnum, fOye, [], [], []].take nout)
    else .error "NameError: name 'chi' is not defined"

/-- `fKzt` as shipped. -/
def fKzt (vr : List ℝ) (m : ℝ) (nout : ℕ) : Except String (List (List Num)) := fKztWith ellipticPiCarlson vr m nout

/-- One entry of `Kxit` for `m==0`.  Models wiz/VortexCylinderSkewed.py:426-433. -/
def kxitZero (r : ℝ) : Num :=
  let k2 : Num := 4 * .fin r / (.fin r + 1)^2
  let k := Num.sqrt k2
  if (1e-7 : ℝ) < r then
    1 / .fin Real.pi * Num.sqrt (1 / .fin r) * ((2 - k2) / k * ellipk k2 - 2 / k * ellipe k2)
  else 0

/-- One entry of `Kxit` for `m!=0`, given `Pi1` and `Pi2`.  Line 435 overwrites `b1` by the
Boolean mask of the entries off the axis: in the expression `b1[b1]+j2[b1]` of line 437 the
value of `b1[b1]` is `True`, i.e. `1`.  Models wiz/VortexCylinderSkewed.py:434-438. -/
def kxitEntry (r m : ℝ) (Pi1 Pi2 : Num) : Num :=
  if (1e-7 : ℝ) < r then
    2 * (1 + .fin m ^ 2) * .fin r / (.fin m ^ 2 * .fin Real.pi) * ellipk (.fin r ^ 2)
      - .fin r * (.fin r + 1) * Num.sqrt (.fin m ^ 2 + 1) / (2 * .fin m ^ 2 * .fin Real.pi * Num.sqrt (.fin m ^ 2 + .fin r ^ 2))
        * ((1 + rpJ2 r) * Pi1 + (rpB2 r m - rpJ2 r) * Pi2)
  else 0

/-- `fKxit(vr,m)`: `(Kxit,Kxit_num,fOye)`.  Models wiz/VortexCylinderSkewed.py:411-446. -/
def fKxitWith (Pi : List (Num × Num) → List Num) (vr : List ℝ) (m : ℝ) : List Num × List Num × List Num :=
  let Pi1 := Pi (vr.map fun r => (- rpB1 r m, rpJ2 r))
  let Pi2 := Pi (vr.map fun r => (rpB2 r m, rpJ2 r))
  let Kxit := if m = 0 then vr.map kxitZero
    else List.zipWith (fun r p => kxitEntry r m p.1 p.2) vr (Pi1.zip Pi2)
  (Kxit, vr.map (kxitNum 1000 · m), vr.map rpOye)

/-- `fKxit` as shipped. -/
def fKxit (vr : List ℝ) (m : ℝ) : List Num × List Num × List Num := fKxitWith ellipticPiCarlson vr m

end
end Wiz
