import Verif.Spec.Elliptic

/-!
# Model of `wiz/elliptic.py`

Batches (NumPy arrays of any shape) are flattened to lists.  The `while` loops have a fuel
argument equal to `ITMAX=20`, the bound tested by the loops themselves.
-/
namespace Wiz
noncomputable section
open Classical

/-- `out[mask]=vals` for an array `out` initialised with `dflt`: successive entries of `vals` go
to the successive entries selected by `mask` (NumPy boolean-mask assignment). -/
def scatter {α β : Type} (mask : α → Prop) (dflt : α → β) : List α → List β → List β
  | [], _ => []
  | x :: xs, vs =>
    if mask x then
      match vs with
      | [] => dflt x :: scatter mask dflt xs []
      | v :: vs => v :: scatter mask dflt xs vs
    else dflt x :: scatter mask dflt xs vs

/-- `np.maximum` (propagates `nan`). -/
def npMaximum (a b : Num) : Num :=
  match a, b with
  | .nan, _ => .nan
  | _, .nan => .nan
  | a, b => if a < b then b else a

/-- `np.amax` of a non-empty array. -/
def npAmax : List Num → Num
  | [] => .nan
  | x :: xs => xs.foldl npMaximum x

/-- `RES`, wiz/elliptic.py:18. -/
def carlsonRES : Num := .fin (1e-12)
/-- `ITMAX`, wiz/elliptic.py:19. -/
def carlsonITMAX : ℕ := 20

/-! ### First kind -/

/-- Loop variables of `ellipticRF` for one entry. -/
structure RFst where
  x : Num
  y : Num
  z : Num
  /-- last value of `RF` (also `RFo`) -/
  RF : Num

/-- One pass of the `while` body of `ellipticRF` for one entry.
Models wiz/elliptic.py:29-54. -/
def rfStep (s : RFst) : RFst :=
  let xo := s.x
  let yo := s.y
  let zo := s.z
  let lambda_ := Num.sqrt (xo*yo) + Num.sqrt (xo*zo) + Num.sqrt (yo*zo)
  let mu := (xo + yo + zo) / 3
  let xn := (xo + lambda_) / 4
  let yn := (yo + lambda_) / 4
  let zn := (zo + lambda_) / 4
  let X := 1 - xo / mu
  let Y := 1 - yo / mu
  let Z := 1 - zo / mu
  let X2 := X^2
  let X3 := X2*X
  let Y2 := Y^2
  let Y3 := Y2*Y
  let Z2 := Z^2
  let Z3 := Z2*Z
  let s1 := (X2 + Y2 + Z2) / 4
  let s2 := (X3 + Y3 + Z3) / 6
  let s12 := s1^2
  let s13 := s12*s1
  let r := .fin (5/26) * s13 + .fin (3/26) * s2^2
  let RF := Num.rpow mu (-1/2) * (1 + s1/5 + s2/7 + s12/6 + .fin (3/11)*s1*s2 + r)
  ⟨xn, yn, zn, RF⟩

/-- The loop of `ellipticRF` on a batch: `while res > RES and nIt < ITMAX` (`res` is `1` before
the first pass).  Models wiz/elliptic.py:25-54. -/
def rfLoop : ℕ → List RFst → List RFst
  | 0, s => s
  | fuel + 1, s =>
    let s' := s.map rfStep
    let res := npAmax (List.zipWith (fun a b => Num.abs (b.RF - a.RF)) s s')
    if carlsonRES < res then rfLoop fuel s' else s'

/-- `ellipticRF(y)`.  Models wiz/elliptic.py:21-55. -/
def ellipticRF (ys : List Num) : List Num :=
  (rfLoop carlsonITMAX (ys.map fun y => ⟨0, y, 1, 0⟩)).map RFst.RF

/-! ### Degenerate integral -/

/-- Loop variables of `ellipticRC` for one entry. -/
structure RCst where
  x : Num
  y : Num
  RC : Num

/-- One pass of the `while` body of `ellipticRC`.  Models wiz/elliptic.py:132-147. -/
def rcStep (s : RCst) : RCst :=
  let xo := s.x
  let yo := s.y
  let lambda_ := 2 * Num.sqrt (xo*yo) + yo
  let xn := (xo + lambda_) / 4
  let yn := (yo + lambda_) / 4
  let mu := (xo + 2 * yo) / 3
  let s := (yo - xo) / (3 * mu)
  let s2 := s^2
  let s3 := s2*s
  let s4 := s3*s
  let s5 := s4*s
  let s6 := s5*s
  let RC := Num.rpow mu (-1/2) *
    (1 + .fin (3/10)*s2 + s3/7 + .fin (3/8)*s4 + .fin (9/22)*s5 + .fin (159/208)*s6)
  ⟨xn, yn, RC⟩

/-- The loop of `ellipticRC` on a batch.  Models wiz/elliptic.py:126-147. -/
def rcLoop : ℕ → List RCst → List RCst
  | 0, s => s
  | fuel + 1, s =>
    let s' := s.map rcStep
    let res := npAmax (List.zipWith (fun a b => Num.abs (b.RC - a.RC)) s s')
    if carlsonRES < res then rcLoop fuel s' else s'

/-- `ellipticRC(x,y)`.  Models wiz/elliptic.py:121-148. -/
def ellipticRC (xys : List (Num × Num)) : List Num :=
  (rcLoop carlsonITMAX (xys.map fun p => ⟨p.1, p.2, 0⟩)).map RCst.RC

/-! ### Third kind -/

/-- Loop variables of `ellipticRJ` for one entry. -/
structure RJst where
  x : Num
  y : Num
  z : Num
  rho : Num
  rhs1 : Num
  /-- last value of `RJLoc` (also `RJo`) -/
  RJ : Num

/-- `alfa`, wiz/elliptic.py:107. -/
def rjAlfa (s : RJst) : Num :=
  (s.rho * (Num.sqrt s.x + Num.sqrt s.y + Num.sqrt s.z) + Num.sqrt (s.x*s.y*s.z))^2

/-- `bet`, wiz/elliptic.py:108. -/
def rjBet (s : RJst) : Num :=
  let lambda_ := Num.sqrt (s.x*s.y) + Num.sqrt (s.x*s.z) + Num.sqrt (s.y*s.z)
  s.rho * (s.rho + lambda_)^2

/-- One pass of the `while` body of `ellipticRJ` for one entry, given `nIt` and the value `rc`
of `ellipticRC(alfa,bet)` at this entry.  Models wiz/elliptic.py:74-118. -/
def rjStep (nIt : ℕ) (s : RJst) (rc : Num) : RJst :=
  let xo := s.x
  let yo := s.y
  let zo := s.z
  let rhoo := s.rho
  let lambda_ := Num.sqrt (xo*yo) + Num.sqrt (xo*zo) + Num.sqrt (yo*zo)
  let mu := (xo + yo + zo + 2 * rhoo) / 5
  let xn := (xo + lambda_) / 4
  let yn := (yo + lambda_) / 4
  let zn := (zo + lambda_) / 4
  let rhon := (rhoo + lambda_) / 4
  let X := 1 - xo / mu
  let Y := 1 - yo / mu
  let Z := 1 - zo / mu
  let RHO := 1 - rhoo / mu
  let X2 := X^2
  let X3 := X2*X
  let X4 := X3*X
  let X5 := X4*X
  let Y2 := Y^2
  let Y3 := Y2*Y
  let Y4 := Y3*Y
  let Y5 := Y4*Y
  let Z2 := Z^2
  let Z3 := Z2*Z
  let Z4 := Z3*Z
  let Z5 := Z4*Z
  let RHO2 := RHO^2
  let RHO3 := RHO2*RHO
  let RHO4 := RHO3*RHO
  let RHO5 := RHO4*RHO
  let s1 := (X2 + Y2 + Z2 + 2 * RHO2) / 4
  let s2 := (X3 + Y3 + Z3 + 2 * RHO3) / 6
  let s3 := (X4 + Y4 + Z4 + 2 * RHO4) / 8
  let s4 := (X5 + Y5 + Z5 + 2 * RHO5) / 10
  let s12 := s1*s1
  let s13 := s12*s1
  let r := .fin (-1/10) * s13 + .fin (3/10) * s2^2 + .fin (3/5)*s1*s3
  let rhs1 := s.rhs1 + 3 * .fin ((4:ℝ)^nIt)⁻¹ * rc
  let rhs2 := (.fin ((4:ℝ)^(nIt+1))⁻¹ * Num.rpow mu (-3/2)) *
    (1 + .fin (3/7)*s1 + s2/3 + .fin (3/22)*s12 + .fin (3/11)*s3 + .fin (3/13)*(s1*s2 + s4) + r)
  let RJLoc := rhs1 + rhs2
  ⟨xn, yn, zn, rhon, rhs1, RJLoc⟩

/-- The loop of `ellipticRJ` on the entries with `rho>0`; `ellipticRC` is called on the whole
batch at each pass.  Models wiz/elliptic.py:68-118. -/
def rjLoop : ℕ → ℕ → List RJst → List RJst
  | 0, _, s => s
  | fuel + 1, nIt, s =>
    let rc := ellipticRC (s.map fun a => (rjAlfa a, rjBet a))
    let s' := List.zipWith (rjStep nIt) s rc
    let res := npAmax (List.zipWith (fun a b => Num.abs (b.RJ - a.RJ)) s s')
    if carlsonRES < res then rjLoop fuel (nIt + 1) s' else s'

/-- `ellipticRJ(y,rho)`: `inf` where `rho>0` fails.  Models wiz/elliptic.py:56-120. -/
def ellipticRJ (yr : List (Num × Num)) : List Num :=
  let b1 : Num × Num → Prop := fun p => 0 < p.2
  let sub := yr.filter fun p => b1 p
  let RJLoc := if sub = [] then []
    else (rjLoop carlsonITMAX 0 (sub.map fun p => ⟨0, p.1, 1, p.2, 0, 0⟩)).map RJst.RJ
  scatter b1 (fun _ => Num.pinf) yr RJLoc

/-- `ellipticPiCarlson(n,m)` on a batch of pairs `(n,m)`.  Models wiz/elliptic.py:9-159. -/
def ellipticPiCarlson (nm : List (Num × Num)) : List Num :=
  if nm = [] then []
  else
    let RF := ellipticRF (nm.map fun p => 1 - p.2)
    let RJ := ellipticRJ (nm.map fun p => (1 - p.2, 1 - p.1))
    List.zipWith (fun p q => p + q) RF (List.zipWith (fun p rj => .fin (1/3) * p.1 * rj) nm RJ)

end
end Wiz
