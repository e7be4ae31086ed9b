import Verif.Model.Solver

/-!
# The discrete solver on arrays of any lengths

`Model/Solver.lean` models `WakeVorticityFromCirculation_Discr` on arrays of equal lengths.  Here the same function is modelled on arrays of any lengths
and for any `method` (a list of characters), with NumPy's broadcasting rules: an array is a length and its entries, an operation between arrays of different lengths is an
error unless one of them has length one.
-/
set_option autoImplicit false
namespace Wiz
noncomputable section
open Classical

/-- a 1-d array: its length and its entries (those of index `< n` are meaningful) -/
structure NArr where
  n : ℕ
  f : ℕ → Num

/-- the array of a list -/
def NArr.of (l : List Num) : NArr := ⟨l.length, idx l⟩
/-- the list of an array -/
def NArr.list (x : NArr) : List Num := arr x.n x.f

/-- an elementwise operation between two arrays, with NumPy's broadcasting of arrays of length one (external code) -/
def bop (op : Num → Num → Num) (x y : NArr) : Except String NArr :=
  if x.n = y.n then .ok ⟨x.n, fun i => op (x.f i) (y.f i)⟩
  else if x.n = 1 then .ok ⟨y.n, fun i => op (x.f 0) (y.f i)⟩
  else if y.n = 1 then .ok ⟨x.n, fun i => op (x.f i) (y.f 0)⟩
  else .error "ValueError"

/-- `ap_cyl_conv` on circulations and cylinder radii of any lengths; `x[:-1]=q` accepts an array of the length of the slice or of length one.
Models wiz/Solver.py:193-200. -/
def apAny (Gamma r_cyl : NArr) (Omega : Num) (bTanInd_k : Bool) : Except String NArr :=
  if bTanInd_k then
    match bop (fun x y => x / y) ⟨Gamma.n - 1, fun i => Gamma.f i + Gamma.f (i+1)⟩ ⟨r_cyl.n - 1, fun i => (4 * .fin Real.pi * Omega * r_cyl.f i)^2⟩ with
    | .error e => .error e
    | .ok q =>
      if q.n ≠ Gamma.n - 1 ∧ q.n ≠ 1 then .error "ValueError"
      else if Gamma.n = 0 then .error "IndexError"
      else .ok ⟨Gamma.n, fun i => if i = Gamma.n - 1 then Gamma.f i / (4 * .fin Real.pi * Omega * r_cyl.f (r_cyl.n - 1))^2
        else if q.n = Gamma.n - 1 then q.f i else q.f 0⟩
  else .ok ⟨Gamma.n, fun i => 0 * Gamma.f i⟩

/-- `WakeVorticityFromCirculation_Discr(...)` on arrays of any lengths; `none` is Python's `None`, returned for a `method` other than
`'analytical'` (in any case of letters).  The loop reads `C[n-1]` first, `n` being the number of cylinders, so that fewer circulations than
cylinders are an `IndexError`; the arrays with more entries are only read below `n`.
Models wiz/Solver.py:154-283. -/
def wakeVorticityAny (method : List Char) (r_cp Gamma_cp : List Num) (R U0 Omega nB : Num) (bSwirl : Bool)
    (bTanInd_k bHigh : Bool) (r_cyl? : Option (List Num)) : Except String (Option WakeVort) :=
  if r_cp = [] ∨ r_cyl? = some [] then .error "ValueError"
  else
  let rc := r_cyl?.getD (defaultRcyl r_cp R)
  if amax (idx rc 0) rc.tail < amax (idx r_cp 0) r_cp.tail then .error "NameError: warnings"
  else if Num.Eqv (idx rc 0) 0 then .error "First cylinder at 0, impossible"
  else
    let r : NArr := .of r_cp
    let r_cyl : NArr := .of rc
    let Gamma : NArr := ⟨Gamma_cp.length, fun i => idx Gamma_cp i * nB⟩
    let lambda_rcp : NArr := ⟨r.n, fun i => Omega * r.f i / U0⟩
    let k_r : NArr := ⟨Gamma.n, fun i => Gamma.f i * Omega / (.fin Real.pi * U0^2)⟩
    match bop (fun k l => k * (1 + k / (4 * l^2))) k_r lambda_rcp with
    | .error e => .error e
    | .ok _ =>
    let n := r_cyl.n
    if method.map Char.toLower ≠ "analytical".toList then .ok none
    else match apAny Gamma r_cyl Omega bTanInd_k with
    | .error e => .error e
    | .ok ap =>
    if Gamma.n < n then .error "IndexError"
    else
    let C : ℕ → Num := fun i => Gamma.f i * Omega / (.fin Real.pi * U0^2) * (1 + ap.f i)
    let lambda_R : ℕ → Num := fun i => Omega * r_cyl.f i / U0
    let s := discrLoop n k_r.f ap.f C lambda_R bSwirl bHigh
    match bop (fun V x => 2 * .fin Real.pi * V / (Omega * (1 + x))) ⟨n, fun i => U0 * (s.b i + s.gamma_t_bar i / 2)⟩ ap with
    | .error e => .error e
    | .ok h =>
    let a := ((cumsum ((arr n fun i => s.gamma_t_bar i / 2).reverse)).map fun x => -x).reverse
    let gamma_t := arr n fun i => s.gamma_t_bar i * U0
    if bSwirl then
      match bop (fun g x => g / (4 * .fin Real.pi * Omega * x^2)) Gamma r with
      | .error e => .error e
      | .ok a_prime =>
      match bop (fun g x => g / (2 * .fin Real.pi * x)) ⟨Gamma.n, fun i => Gamma.f i - (if i = Gamma.n - 1 then 0 else Gamma.f (i+1))⟩ r with
      | .error e => .error e
      | .ok gamma_l => .ok (some ⟨gamma_t, some gamma_l.list, some (- Gamma.f 0), ⟨a, a_prime.list, Gamma.list, r_cp, h.list⟩⟩)
    else .ok (some ⟨gamma_t, none, none, ⟨a, a.map (fun x => x * 0), Gamma.list, r_cp, h.list⟩⟩)

end
end Wiz
