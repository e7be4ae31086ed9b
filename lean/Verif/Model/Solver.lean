import Verif.NumPy

/-!
# Model of `wiz/Solver.py`

1-d arrays are lists of `Num`; inside the solvers an array of length `n` is a function on indices
(entries `i<n` are the ones used), so that the in-place reversed loop of the discrete solver is
modelled literally, one assignment at a time.  `warnings` is not imported by the module, so the
call `warnings.warn` is a `NameError`.
-/
namespace Wiz
noncomputable section
open Classical

/-! ### Array helpers -/

/-- `x[i]` -/
def idx (l : List Num) (i : ℕ) : Num := l.getD i .nan
/-- the array of length `n` with the given entries -/
def arr (n : ℕ) (f : ℕ → Num) : List Num := (List.range n).map f
/-- `np.sum(x[lo:])` for an array of length `n` -/
def sumFrom (n : ℕ) (x : ℕ → Num) (lo : ℕ) : Num := npSum ((List.range' lo (n - lo)).map x)
/-- the larger of two numbers, `nan` if one is `nan` -/
def numMax (a b : Num) : Num := if a < b then b else if b ≤ a then a else .nan
/-- `np.amax` of a non-empty array (given as first entry and rest) -/
def amax : Num → List Num → Num
  | a, [] => a
  | a, b :: l => amax (numMax a b) l
/-- `x[i] = v` on an array seen as a function -/
def upd (x : ℕ → Num) (i : ℕ) (v : Num) : ℕ → Num := fun j => if j = i then v else x j

/-! ### Loading profiles -/

/-- `Ct_const_cutoff(CT0,r_bar_cut,vr_bar,r_bar_tip)` at one entry of `vr_bar`; the array version
is the map.  Models wiz/Solver.py:19-30. -/
def ctConstCutoff1 (CT0 r_bar_cut : ℝ) (r_bar_tip : Option ℝ) (r : ℝ) : Num :=
  let Ct : Num := .fin CT0
  let Ct := if r < r_bar_cut then .fin CT0 * .fin r / .fin r_bar_cut else Ct
  match r_bar_tip with
  | none => Ct
  | some tip => if r > tip then .fin CT0 * (1 - (.fin r - .fin tip) / (1 - .fin tip)) else Ct
/-- `Ct_const_cutoff`.  Models wiz/Solver.py:19-30. -/
def ctConstCutoff (CT0 r_bar_cut : ℝ) (vr_bar : List ℝ) (r_bar_tip : Option ℝ) : List Num :=
  vr_bar.map (ctConstCutoff1 CT0 r_bar_cut r_bar_tip)

/-- `InductionsFromPrescribedCtCq_ST` at one radius: `(a,a')`.  Models wiz/Solver.py:33-46
(without swirl the code returns the scalar `0` for `a'`, here the `0` of that radius). -/
def inductionsST (r_bar Ct Cq Lambda : Num) (bSwirl : Bool) : Num × Num :=
  let lambda_r := Lambda * r_bar
  let a := .fin (1/2) * (1 - Num.sqrt (1 - Ct))
  (a, if bSwirl then Cq / (4 * (1 - a) * lambda_r) else 0)

/-- the objective `|k(1+k/(4λ_r²))-Ct|` handed to `minimize_scalar`.
Models wiz/Solver.py:58. -/
def ctObjective (lambda_r Ct : Num) (k : ℝ) : Num :=
  Num.abs (.fin k * (1 + .fin k / (4 * lambda_r^2)) - Ct)

/-- `CirculationFromPrescribedCt(vr_bar,vCt,Lambda,bSwirl)`; `minimize` stands for
`scipy.optimize.minimize_scalar(f,bounds=[0,1.8],method='bounded').x` (external code).  With swirl the
result has the length of `vr_bar`; entries without a thrust coefficient stay zero.
Models wiz/Solver.py:48-62. -/
def circulationFromPrescribedCt (minimize : (ℝ → Num) → ℝ) (vr_bar vCt : List Num) (Lambda : Num) (bSwirl : Bool) :
    List Num :=
  if bSwirl then
    List.zipWith (fun r_bar Ct =>
      if 0 < Ct ∧ 0 < r_bar then .fin (minimize (ctObjective (Lambda * r_bar) Ct)) else 0) vr_bar vCt
      ++ List.replicate (vr_bar.length - vCt.length) 0
  else vCt

/-! ### The discrete solver -/

/-- critical induction of the Spera correction.  Models wiz/Solver.py:76 and 186. -/
def acN : Num := .fin 0.34
/-- critical thrust coefficient.  Models wiz/Solver.py:77 and 187. -/
def ctcN : Num := 4 * acN * (1 - acN)

/-- the arrays written by the loop of the discrete solver (`Ctrot`, `Cti`, `S`, `Sbis` are only
read in the pass that writes them and are local to a pass here) -/
structure DState where
  b : ℕ → Num
  Ctrot_loc : ℕ → Num
  Cteff : ℕ → Num
  gamma_t_bar : ℕ → Num

/-- One pass of the loop.  Models wiz/Solver.py:214-241. -/
def discrStep (n : ℕ) (k_r ap C lambda_R : ℕ → Num) (bSwirl bHigh : Bool) (s : DState) (i : ℕ) : DState :=
  let (b_i, S_i, loc_i) : Num × Num × Num :=
    if i = n - 1 then (1, 1 - C i, 0)
    else
      let b_i := 1 + sumFrom n s.gamma_t_bar (i+1)
      (b_i, b_i^2 - (k_r i - k_r (i+1)) * (1 + ap i),
        (k_r (i+1) / 2)^2 * (1 / (lambda_R i)^2 - 1 / (lambda_R (i+1))^2))
  let b := upd s.b i b_i
  let Ctrot_loc := upd s.Ctrot_loc i loc_i
  let (Ctrot_i, Cti_i) : Num × Num :=
    if ¬ bSwirl then (0, k_r i)
    else (sumFrom n Ctrot_loc (i+1), k_r i * (1 + k_r i / (4 * (lambda_R i)^2)))
  let Cteff_i := Cti_i - Ctrot_i
  let Sbis_i := 1 - Cteff_i
  let g := if bSwirl then - b_i + Num.sqrt Sbis_i else - b_i + Num.sqrt S_i
  let g := if bHigh then
      (if ctcN < Cteff_i then - b_i + (1 - 2 * ((Cteff_i - 4 * acN^2) / (4 * (1 - 2 * acN)))) else g)
    else g
  ⟨b, Ctrot_loc, upd s.Cteff i Cteff_i, upd s.gamma_t_bar i g⟩

/-- `np.zeros(n)` for the four arrays.  Models wiz/Solver.py:202-209. -/
def dZeros : DState := ⟨fun _ => 0, fun _ => 0, fun _ => 0, fun _ => 0⟩

/-- The reversed loop `for i in np.arange(n-1,-1,-1)`.  Models wiz/Solver.py:214-241. -/
def discrLoop (n : ℕ) (k_r ap C lambda_R : ℕ → Num) (bSwirl bHigh : Bool) : DState :=
  (List.range n).reverse.foldl (discrStep n k_r ap C lambda_R bSwirl bHigh) dZeros

/-- `misc` of the discrete solver -/
structure DMisc where
  a : List Num
  a_prime : List Num
  Gamma_cp : List Num
  r_cp : List Num
  h : List Num

/-- result of the discrete solver: `gamma_t,gamma_l,Gamma_r,misc` -/
structure WakeVort where
  gamma_t : List Num
  gamma_l : Option (List Num)
  Gamma_r : Option Num
  misc : DMisc

/-- the default cylinder radii.  Models wiz/Solver.py:160-166 (`r_cp` non-empty). -/
def defaultRcyl (r_cp : List Num) (R : Num) : List Num :=
  let n := r_cp.length
  if n = 1 then [R]
  else arr n fun i =>
    if i = n - 1 then idx r_cp (n-1) + (idx r_cp (n-1) - idx r_cp (n-2)) / 2
    else (idx r_cp (i+1) + idx r_cp i) / 2

/-- `ap_cyl_conv` (with `bTanInd_k`), as written in the code: the whole denominator is squared.
Models wiz/Solver.py:193-200. -/
def apCylConv (n : ℕ) (Gamma r_cyl : ℕ → Num) (Omega : Num) (i : ℕ) : Num :=
  if i = n - 1 then Gamma i / (4 * .fin Real.pi * Omega * r_cyl i)^2
  else (Gamma i + Gamma (i+1)) / (4 * .fin Real.pi * Omega * r_cyl i)^2

/-- `WakeVorticityFromCirculation_Discr(...)` with `method='analytical'` and the options
`bTanInd_k`, `bHighThrustCorr`, `r_cyl`.  `r_cp`, `Gamma_cp` (and `r_cyl`) must have equal
lengths (otherwise NumPy raises a broadcasting error, an `IndexError` or, for `bTanInd_k=False` and arrays of
length one, broadcasts them: `Model/SolverShapes.lean`).
Models wiz/Solver.py:154-283. -/
def wakeVorticityDiscr (r_cp Gamma_cp : List Num) (R U0 Omega nB : Num) (bSwirl : Bool)
    (bTanInd_k bHigh : Bool) (r_cyl? : Option (List Num)) : Except String WakeVort :=
  let n := r_cp.length
  let r_cyl := match r_cyl? with
    | none => defaultRcyl r_cp R
    | some l => l
  if n = 0 ∨ Gamma_cp.length ≠ n ∨ r_cyl.length ≠ n then .error "ValueError"
  else if amax (idx r_cyl 0) r_cyl.tail < amax (idx r_cp 0) r_cp.tail then .error "NameError: warnings"
  else if Num.Eqv (idx r_cyl 0) 0 then .error "First cylinder at 0, impossible"
  else
    let Gamma : ℕ → Num := fun i => idx Gamma_cp i * nB
    let k_r : ℕ → Num := fun i => Gamma i * Omega / (.fin Real.pi * U0^2)
    let ap : ℕ → Num := fun i => if bTanInd_k then apCylConv n Gamma (idx r_cyl) Omega i else 0 * Gamma i
    let C : ℕ → Num := fun i => Gamma i * Omega / (.fin Real.pi * U0^2) * (1 + ap i)
    let lambda_R : ℕ → Num := fun i => Omega * idx r_cyl i / U0
    let s := discrLoop n k_r ap C lambda_R bSwirl bHigh
    let h : ℕ → Num := fun i =>
      2 * .fin Real.pi * (U0 * (s.b i + s.gamma_t_bar i / 2)) / (Omega * (1 + ap i))
    let a := ((cumsum ((arr n fun i => s.gamma_t_bar i / 2).reverse)).map fun x => -x).reverse
    let a_prime := if bSwirl then arr n fun i => Gamma i / (4 * .fin Real.pi * Omega * (idx r_cp i)^2)
      else a.map fun x => x * 0
    let Gamma_tilde : ℕ → Num := fun i => Gamma i - (if i = n - 1 then 0 else Gamma (i+1))
    let gamma_t := arr n fun i => s.gamma_t_bar i * U0
    let misc : DMisc := ⟨a, a_prime, arr n Gamma, r_cp, arr n h⟩
    .ok (if bSwirl then
        ⟨gamma_t, some (arr n fun i => Gamma_tilde i / (2 * .fin Real.pi * idx r_cp i)), some (- Gamma 0), misc⟩
      else ⟨gamma_t, none, none, misc⟩)

/-- `if Omega==np.inf: Omega=800`.  Models wiz/Solver.py:293-294 and 302-303. -/
def capOmega (Omega : Num) : Num := if Num.Eqv Omega .pinf then 800 else Omega

/-- `WakeVorticityFromCt(r,Ct,R,U0,Omega)`.  Models wiz/Solver.py:291-299. -/
def wakeVorticityFromCt (minimize : (ℝ → Num) → ℝ) (r Ct : List Num) (R U0 Omega : Num) : Except String WakeVort :=
  let Omega := capOmega Omega
  let Lambda := Omega * R / U0
  let bSwirl : Bool := decide (Lambda < 20)
  let vk := circulationFromPrescribedCt minimize (r.map fun x => x / R) Ct Lambda bSwirl
  let Gamma := vk.map fun k => k * .fin Real.pi * U0^2 / Omega
  wakeVorticityDiscr r Gamma R U0 Omega 1 bSwirl true true none

/-- `WakeVorticityFromGamma(r,Gamma,R,U0,Omega)`.  Models wiz/Solver.py:301-307. -/
def wakeVorticityFromGamma (r Gamma : List Num) (R U0 Omega : Num) : Except String WakeVort :=
  let Omega := capOmega Omega
  let Lambda := Omega * R / U0
  let bSwirl : Bool := decide (Lambda < 20)
  wakeVorticityDiscr r Gamma R U0 Omega 1 bSwirl true true none

/-! ### The continuous solver -/

/-- `scipy.integrate.cumtrapz(y,x)` (external code): running trapezoidal sums, one entry fewer
than the samples. -/
def cumtrapzAux : Num → List Num → List Num → List Num
  | acc, y0 :: y1 :: ys, x0 :: x1 :: xs =>
    let acc := acc + (x1 - x0) * (y0 + y1) / 2
    acc :: cumtrapzAux acc (y1 :: ys) (x1 :: xs)
  | _, _, _ => []

/-- `misc` of `InductionsFromCirculation_VC_Cont` together with the inductions -/
structure CInd where
  a : List Num
  a_prime : List Num
  Ct_KJ : List Num
  Ct_eff : List Num
  Ct_rot : List Num

/-- `a` from `Ct_eff` in the continuous solver (`a` was initialised to zero).
Models wiz/Solver.py:95-103. -/
def contA (bHigh : Bool) (Ct_eff : Num) : Num :=
  if bHigh then
    let a : Num := 0
    let a := if ctcN < Ct_eff then (Ct_eff - 4 * acN^2) / (4 * (1 - 2 * acN)) else a
    if Ct_eff ≤ ctcN then .fin (1/2) * (1 - Num.sqrt (1 - Ct_eff)) else a
  else .fin (1/2) * (1 - Num.sqrt (1 - Ct_eff))

/-- the "Safety" replacement of a zero first `lambda_r` (performed in place in the code, see
`Model/SolverHeap.lean`).  Models wiz/Solver.py:80-81. -/
def contSafety (f : Num) (l : List Num) : List Num :=
  match l with
  | x :: y :: t => if Num.Eqv x 0 then (y * f) :: y :: t else x :: y :: t
  | l => l

/-- `InductionsFromCirculation_VC_Cont(vr_bar,lambda_r,k,bSwirl)` with `method='analytical'`,
`Cq=None`, on arrays of equal length (`lambda_r` after the safety replacement).
Models wiz/Solver.py:65-116. -/
def inductionsCont (vr_bar lambda_r k : List Num) (bSwirl bHigh : Bool) : CInd :=
  let n := k.length
  let ap := if bSwirl then arr n fun i => idx k i / (4 * (idx lambda_r i)^2) else k.map fun x => x * 0
  let Ct_rot := if bSwirl then
      (let y := (arr n fun i => (idx lambda_r i)^2 * (idx ap i)^2 / idx vr_bar i).reverse
       ((0 : Num) :: (cumtrapzAux 0 y vr_bar.reverse).map fun x => -8 * x).reverse)
    else k.map fun x => x * 0
  let Ct_KJ := arr n fun i => idx k i * (1 + idx ap i)
  let Ct_eff := arr n fun i => idx Ct_KJ i - idx Ct_rot i
  ⟨Ct_eff.map (contA bHigh), ap, Ct_KJ, Ct_eff, Ct_rot⟩

/-- `InductionsFromCirculation_VC_Cont(...,Cq=Cq)`: the inductions and `misc['k_Cq']`; a torque coefficient array replaces the
tangential induction, with or without swirl (`a_2` of line 107 is not used by the code and is left out; arrays of equal length).
Models wiz/Solver.py:65-116. -/
def inductionsContCq (vr_bar lambda_r k : List Num) (bSwirl bHigh : Bool) (Cq : Option (List Num)) : CInd × Option (List Num) :=
  let c := inductionsCont vr_bar lambda_r k bSwirl bHigh
  match Cq with
  | none => (c, none)
  | some q =>
    let n := k.length
    let k2 := arr n fun i => idx q i * idx lambda_r i / (1 - idx c.a i)
    ({ c with a_prime := arr n fun i => idx k2 i / (4 * (idx lambda_r i)^2) }, some k2)

/-- result of `WakeVorticityFromCirculation_Cont` (without swirl `gamma_l` and `Gamma_r` are the
scalar `0`, here `none`) -/
structure CWake where
  gamma_t : List Num
  gamma_l : Option (List Num)
  Gamma_r : Option Num
  ind : CInd
  Vz : List Num
  h : List Num
  r_cp : List Num

/-- `WakeVorticityFromCirculation_Cont(r_cp,Gamma_cp,R,U0,Omega,bSwirl)` on `r_cp` of length at
least two or with a nonzero first radius (else `r_cp[1]` raises an `IndexError`).
Models wiz/Solver.py:118-149. -/
def wakeVorticityCont (r_cp Gamma_cp : List Num) (R U0 Omega : Num) (bSwirl bHigh : Bool) : CWake :=
  let r_cp := contSafety (.fin 0.5) r_cp
  let n := r_cp.length
  let k := Gamma_cp.map fun g => Omega * g / (.fin Real.pi * U0^2)
  let vr_bar := r_cp.map fun r => r / R
  let lambda_r := r_cp.map fun r => Omega * r / U0
  let ind := inductionsCont vr_bar (contSafety (.fin 0.01) lambda_r) k bSwirl bHigh
  let Vz := ind.a.map fun a => U0 * (1 - 2 * a)
  let h := arr n fun i => idx Vz i * 2 * .fin Real.pi / (Omega * (1 + 2 * idx ind.a_prime i))
  let Gamma_tilde : ℕ → Num := fun i => idx Gamma_cp i - (if i = n - 1 then 0 else idx Gamma_cp (i+1))
  let gamma_t := arr n fun i => - Gamma_tilde i / idx h i
  ⟨gamma_t, if bSwirl then some (arr n fun i => Gamma_tilde i / (2 * .fin Real.pi * idx r_cp i)) else none,
    if bSwirl then some (- idx Gamma_cp 0) else none, ind, Vz, h, r_cp⟩

end
end Wiz
