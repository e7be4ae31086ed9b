import Verif.Model.Blockage
import Verif.Model.PrettyTime

/-!
# Model of `loadPlane` and `getModelsRelErr` of `wiz/article_blockage/helper_functions.py`

`loadPlane`: which files are read, what is recorded and which cases are declared missing; reading the files themselves
(`scipy.io.loadmat`, `np.genfromtxt`) is external.  `getModelsRelErr`: the interpolants of the actuator-disk data and of the
projection data (`interp2d_pairs`, external) are arbitrary functions from points to axial velocities.
-/
namespace Wiz
noncomputable section
open Classical

/-- A Python number whose type matters: the format code `d` accepts an `int` only. -/
inductive PyReal
  | int (k : ℤ)
  | flt (x : Num)

/-- its value -/
def PyReal.val : PyReal → Num
  | .int k => .fin k
  | .flt x => x

/-- `'{:d}'.format(k)` (external code). -/
def fmtD (k : ℤ) : List Char := if k < 0 then '-' :: Nat.toDigits 10 k.natAbs else Nat.toDigits 10 k.natAbs

/-- `'{:02d}'.format(k)`: zeros go after the sign (external code). -/
def fmt02D (k : ℤ) : List Char := if k < 0 then '-' :: padLeft '0' 1 (Nat.toDigits 10 k.natAbs) else padLeft '0' 2 (Nat.toDigits 10 k.natAbs)

/-- `int(x)` of a float: truncation towards zero (external code). -/
def pyInt (x : ℝ) : ℤ := if 0 ≤ x then ⌊x⌋ else ⌈x⌉

/-- `base='CT0{:d}_HH{:02d}_Lambda{:02d}_Yaw{:02d}'.format(int(CT*100),int(HH*10),Lambda,-Yaw)`: a `ValueError` unless `Lambda` and
`Yaw` are of type `int`.  Models wiz/article_blockage/helper_functions.py:476. -/
def caseBase (CT HH : ℝ) (Lambda Yaw : PyReal) : Except String (List Char) :=
  match Lambda, Yaw with
  | .int l, .int y => .ok ("CT0".toList ++ fmtD (pyInt (CT * 100)) ++ "_HH".toList ++ fmt02D (pyInt (HH * 10)) ++
      "_Lambda".toList ++ fmt02D l ++ "_Yaw".toList ++ fmt02D (-y))
  | _, _ => .error "ValueError: Unknown format code 'd' for object of type 'float'"

/-- The files read: one MATLAB file, or CSV files for the two coordinates and the four fields. -/
inductive PlaneFiles
  | mat (f : List Char)
  | csv (first z U V W Om : List Char)

/-- What `loadPlane` records about the case (`HH` and `Lambda` after replacement). -/
structure CaseAttr where
  CT : ℝ
  HH : ℝ
  Lambda : PyReal
  Yaw : PyReal
  Horizontal : Bool

/-- The files of a case with ground effect.  Models wiz/article_blockage/helper_functions.py:516-539. -/
def groundFiles (base : List Char) (HH : ℝ) (Horizontal : Bool) : PlaneFiles :=
  let dir := "../data/Ground/".toList
  let first := if Horizontal then dir ++ "Horizontal_X.csv".toList
    else if HH = 2.0 then dir ++ "Vertical_Y_HH20.csv".toList else dir ++ "Vertical_Y_HH15.csv".toList
  let z := if Horizontal then dir ++ "Horizontal_Z.csv".toList else dir ++ "Vertical_Z.csv".toList
  let base2 := base ++ ['_'] ++ (if Horizontal then "Horizontal".toList else "Vertical".toList)
  .csv first z (dir ++ base2 ++ "_U.csv".toList) (dir ++ base2 ++ "_V.csv".toList)
    (dir ++ base2 ++ "_W.csv".toList) (dir ++ base2 ++ "_Om.csv".toList)

/-- `loadPlane(CT,HH,Lambda,Horizontal,Yaw)`: `none` is the printed message "Case not existing".
Models wiz/article_blockage/helper_functions.py:468-551 (`int(CT*100)` and `int(HH*10)` in exact arithmetic). -/
def loadCase (CT HH : ℝ) (Lambda : PyReal) (Horizontal : Bool) (Yaw : PyReal) : Except String (Option (PlaneFiles × CaseAttr)) :=
  let Lambda := if Num.fin 20 < Lambda.val then PyReal.int 99 else Lambda
  let HH := if 9 < HH then 9.9 else HH
  match caseBase CT HH Lambda Yaw with
  | .error e => .error e
  | .ok base =>
    let attr : CaseAttr := ⟨CT, HH, Lambda, Yaw, Horizontal⟩
    if 9 < HH then
      if Horizontal = false then .ok none
      else if 0 < Num.abs Yaw.val ∧ ¬ Num.Eqv Lambda.val (.fin 99) then .ok none
      else .ok (some (.mat ("../data/AD_".toList ++ base ++ ".mat".toList), attr))
    else
      if ¬ Num.Eqv Yaw.val 0 then .ok none
      else if ¬ (Num.Eqv Lambda.val (.fin 6) ∨ Num.Eqv Lambda.val (.fin 99)) then .ok none
      else .ok (some (groundFiles base HH Horizontal, attr))

/-- the case as `setupModel(AD)` reads it -/
def CaseAttr.case (a : CaseAttr) (yaw : ℝ) : BlockageCase := ⟨a.CT, a.HH, a.Lambda.val, yaw, a.Horizontal⟩

/-! ### `getModelsRelErr` -/

/-- The points of one direction.  Models wiz/article_blockage/helper_functions.py:784-800. -/
def probePts (Horizontal UseRho : Bool) (rho : List ℝ) (theta roff : ℝ) : List (V3 ℝ) :=
  rho.map fun r =>
    let Z := if UseRho then r * Real.cos theta else r
    let C := if UseRho then -r * Real.sin theta else r * 0 + roff
    if Horizontal then ⟨C, C * 0, Z⟩ else ⟨C * 0, C, Z⟩

/-- The axial velocity of one model at the points.  `U0` of `setupModel` is its default `1`.
Models wiz/article_blockage/helper_functions.py:802-813. -/
def modelVel (mini : (ℝ → Num) → ℝ) (ad : OutputAD) (adW gpW : V3 ℝ → Num) (mt : Bool) (pts : List (V3 ℝ)) (name : String) :
    Except String (List Num) :=
  if name = "VC" ∨ name = "VD" ∨ name = "SS" then
    match setupModel mini (some ad) ad.case mt 1 none name with
    | .error e => .error e
    | .ok vc => match vc.fU pts with
      | .error e => .error e
      | .ok u => .ok (u.map V3.z)
  else if name = "AD" then .ok (pts.map adW)
  else if name = "GP" then .ok (pts.map gpW)
  else .error "Exception: Model not supported"

/-- One row of `ModelsRE`: `(VCW-ADW)/ADW*100`.  Models wiz/article_blockage/helper_functions.py:801-814. -/
def relErrRow (mini : (ℝ → Num) → ℝ) (ad : OutputAD) (adW gpW : V3 ℝ → Num) (mt : Bool) (pts : List (V3 ℝ)) (name : String) :
    Except String (List Num) :=
  match modelVel mini ad adW gpW mt pts name with
  | .error e => .error e
  | .ok w => .ok (List.zipWith (fun p v => (v - adW p) / adW p * 100) pts w)

/-- The loops: for each pair of `zip(angles,Roffsets)` the rows of all the models.
Models wiz/article_blockage/helper_functions.py:783-814. -/
def relErrRows (mini : (ℝ → Num) → ℝ) (ad : OutputAD) (adW gpW : V3 ℝ → Num) (mt Horizontal UseRho : Bool) (rho : List ℝ)
    (models : List String) (pairs : List (ℝ × ℝ)) : Except String (List (List (List Num))) :=
  pairs.mapM fun q => models.mapM (relErrRow mini ad adW gpW mt (probePts Horizontal UseRho rho q.1 q.2))

/-- `getModelsRelErr` for loaded data (`none`, i.e. a case that does not exist, is an `AttributeError`): `ModelsRE` (one matrix
`[angle][rho]` per model, initialised with zeros) and `ModelsMRE` (means over the angles).  The arguments `U0`, `R`, `HH`,
`Lambda`, `Yaw` of the function beyond the choice of the data have no effect and are left out.
Models wiz/article_blockage/helper_functions.py:761-819. -/
def getModelsRelErr (mini : (ℝ → Num) → ℝ) (AD : Option OutputAD) (adW gpW : V3 ℝ → Num) (mt Horizontal UseRho : Bool)
    (angles roffsets rho : List ℝ) (models : List String) : Except String (List (List (List Num)) × List (List Num)) :=
  match AD with
  | none => .error "AttributeError"
  | some ad =>
    match (if mt then (match ad.fCenter with | .error e => .error e | .ok _ => .ok ()) else .ok () : Except String Unit) with
    | .error e => .error e
    | .ok () =>
      match relErrRows mini ad adW gpW mt Horizontal UseRho rho models (List.zip angles roffsets) with
      | .error e => .error e
      | .ok rows =>
        let RE := (List.range models.length).map fun i =>
          (rows.map fun r => r.getD i []) ++ List.replicate (angles.length - rows.length) (List.replicate rho.length 0)
        let MRE := RE.map fun M => (List.range rho.length).map fun j => npMean (M.map fun row => row.getD j .nan)
        .ok (RE, MRE)

end
end Wiz
