import Verif.Model.WindFarm

/-!
# Model of the helpers of `wiz/article_blockage/helper_functions.py`

Printing, plotting, interpolation by SciPy splines (`interp2d_pairs`) and the reading of the data files are
not modelled; the data a file holds (`OutputAD`) is an arbitrary record.
-/
namespace Wiz
noncomputable section
open Classical

/-- The loop of `np.argmin`: `i` is the index of the head of the list, `b` the index and `m` the value of the
best entry so far; an entry replaces it only if strictly smaller (external code). -/
def argminFrom : ℕ → ℕ → ℝ → List ℝ → ℕ
  | _, b, _, [] => b
  | i, b, m, x :: xs => if x < m then argminFrom (i + 1) i x xs else argminFrom (i + 1) b m xs

/-- `argmin` of a 1-d array (external code). -/
def argmin : List ℝ → Except String ℕ
  | [] => .error "ValueError: attempt to get argmin of an empty sequence"
  | x :: xs => .ok (argminFrom 1 0 x xs)

/-- `find_nearest(array,value)`.  Models wiz/article_blockage/helper_functions.py:53-56. -/
def findNearest (a : List ℝ) (v : ℝ) : Except String (ℝ × ℕ) :=
  match argmin (a.map fun x => |x - v|) with
  | .error e => .error e
  | .ok i => .ok (a.getD i 0, i)

/-- `gamma_CT_fun(x,*p)` (an `IndexError` for fewer than four parameters).
Models wiz/article_blockage/helper_functions.py:69-76. -/
def gammaCTfun (x : Num) (p : List ℝ) : Except String Num :=
  match p with
  | p0 :: p1 :: p2 :: p3 :: _ => .ok (-2 * (.fin p0 * x + .fin p1 * x^2 + .fin p2 * x^3 + .fin p3 * x^4))
  | _ => .error "IndexError"

/-- `gamma_CT_fun` on an array of thrust coefficients (the NumPy expression acts entry by entry; `*p` must have four
parameters even if the array is empty).  Models wiz/article_blockage/helper_functions.py:69-76. -/
def gammaCTfunArr (x : List Num) (p : List ℝ) : Except String (List Num) :=
  if p.length < 4 then .error "IndexError" else x.mapM fun c => gammaCTfun c p

/-- `np.interp(x,X,U)` at each abscissa of `xs`. -/
def interpAt (xs X : List ℝ) (U : List Num) : List Num := xs.map fun x => interp1 x (List.zip X U)

/-- `relerrinduction(X,U1,U2,x1,x2)`: `U1[-1]` on a non-empty array.
Models wiz/article_blockage/helper_functions.py:78-85. -/
def relErrInduction (X : List ℝ) (U1 U2 : List Num) (x1 x2 : ℝ) : Num :=
  let Xprobe := linspace x1 x2 100
  let last := U1.getD (U1.length - 1) .nan
  let U1probe := (interpAt Xprobe X U1).map fun u => u / last
  let U2probe := (interpAt Xprobe X U2).map fun u => u / last
  npMean (List.zipWith (fun a b => Num.abs (a - b) / a) U1probe U2probe) * .fin 100

/-- `relerrinduction_mid` (`x=0`) and `relerrinduction_25` (`x=-2.5`): both arguments interpolated at one
abscissa.  Models wiz/article_blockage/helper_functions.py:94-104. -/
def relErrInductionAt (X : List ℝ) (U1 U2 : List Num) (x : ℝ) : Num :=
  let u1 := interp1 x (List.zip X U1)
  let u2 := interp1 x (List.zip X U2)
  npMean [Num.abs (u1 - u2) / u1] * .fin 100

/-- The operating point and plane of a case. -/
structure BlockageCase where
  CT : ℝ
  HH : ℝ
  Lambda : Num
  Yaw : ℝ
  Horizontal : Bool

/-- The data of a plane of the actuator-disk simulation: coordinates along the two directions and matrices
`[iz][ix]` (rows along `z`).  Models the attributes of `OutputAD`
(wiz/article_blockage/helper_functions.py:334-429, 468-551). -/
structure OutputAD where
  case : BlockageCase
  x : List ℝ
  y : List ℝ
  z : List ℝ
  X : List (List ℝ)
  Y : List (List ℝ)
  Z : List (List ℝ)
  U : List (List ℝ)
  V : List (List ℝ)
  W : List (List ℝ)

/-- `M[i,j]` -/
def matGet (M : List (List ℝ)) (i j : ℕ) : Except String ℝ :=
  match M[i]? with
  | none => .error "IndexError"
  | some row => match row[j]? with
    | none => .error "IndexError"
    | some v => .ok v

/-- `OutputAD.fCenter`.  Models wiz/article_blockage/helper_functions.py:381-390. -/
def OutputAD.fCenter (ad : OutputAD) : Except String ℝ :=
  match findNearest (if ad.case.Horizontal then ad.x else ad.y) 0 with
  | .error e => .error e
  | .ok (_, ix0) =>
    match findNearest ad.z 0 with
    | .error e => .error e
    | .ok (_, iz0) => matGet ad.W iz0 ix0

/-- `M[:,j]` -/
def matCol (M : List (List ℝ)) (j : ℕ) : List ℝ := M.map fun row => row.getD j 0

/-- `OutputAD.fAxial(z)` at one height: the three components interpolated along the column of the data that is
nearest to the axis.  Models wiz/article_blockage/helper_functions.py:392-408 (the four matrices have the same
shape and at least one column per entry of `x` or `y`). -/
def OutputAD.fAxial (ad : OutputAD) (z : ℝ) : Except String (V3 Num) :=
  match findNearest (if ad.case.Horizontal then ad.x else ad.y) 0 with
  | .error e => .error e
  | .ok (_, i0) =>
    let z0 := matCol ad.Z i0
    let f := fun M => interp1 z (List.zip z0 ((matCol M i0).map .fin))
    .ok ⟨f ad.U, f ad.V, f ad.W⟩

/-- `OutputAD.fRadial(r,z0)` at one radius: the three components interpolated along the row of the data that is
nearest to `z0`.  Models wiz/article_blockage/helper_functions.py:410-429 (the warning is not modelled). -/
def OutputAD.fRadial (ad : OutputAD) (r z0 : ℝ) : Except String (V3 Num) :=
  match findNearest ad.z z0 with
  | .error e => .error e
  | .ok (_, iz0) =>
    let r0 := (if ad.case.Horizontal then ad.X else ad.Y).getD iz0 []
    let f := fun M : List (List ℝ) => interp1 r (List.zip r0 ((M.getD iz0 []).map .fin))
    .ok ⟨f ad.U, f ad.V, f ad.W⟩

/-- An `OutputVC` object. -/
structure OutputVC where
  WT : WT
  h_hub : ℝ
  Horizontal : Bool

/-- `compute_u(…,longi=False,root=False)` -/
def plainOpts : Opts := { longi := false, root := false }

/-- `OutputVC.fU(X,Y,Z)`.  Models wiz/article_blockage/helper_functions.py:431-434. -/
def OutputVC.fU (vc : OutputVC) (pts : List (V3 ℝ)) : Except String (List (V3 Num)) :=
  (vc.WT.computeU (pts.map fun p => ⟨p.x, p.y + vc.h_hub, p.z⟩) plainOpts).1

/-- `np.meshgrid(va,vb)` flattened row by row: rows along the second argument. -/
def meshgrid (va vb : List ℝ) : List (ℝ × ℝ) := vb.flatMap fun b => va.map fun a => (a, b)

/-- `OutputVC.fHorz(vx,vz)`: `(X,Z,U,W)` entry by entry.
Models wiz/article_blockage/helper_functions.py:436-440. -/
def OutputVC.fHorz (vc : OutputVC) (vx vz : List ℝ) : Except String (List (ℝ × ℝ × Num × Num)) :=
  let g := meshgrid vx vz
  match (vc.WT.computeU (g.map fun q => ⟨q.1, q.1 * 0 + vc.h_hub, q.2⟩) plainOpts).1 with
  | .error e => .error e
  | .ok u => .ok (List.zipWith (fun q v => (q.1, q.2, v.x, v.z)) g u)

/-- `OutputVC.fVert(vy,vz)`: `(Y,Z,V,W)` entry by entry.
Models wiz/article_blockage/helper_functions.py:442-447. -/
def OutputVC.fVert (vc : OutputVC) (vy vz : List ℝ) : Except String (List (ℝ × ℝ × Num × Num)) :=
  let g := meshgrid vy vz
  match (vc.WT.computeU (g.map fun q => ⟨q.2 * 0, q.1 + vc.h_hub, q.2⟩) plainOpts).1 with
  | .error e => .error e
  | .ok u => .ok (List.zipWith (fun q v => (q.1, q.2, v.y, v.z)) g u)

/-- `OutputVC.fAxial(z)`.  Models wiz/article_blockage/helper_functions.py:449-453. -/
def OutputVC.fAxial (vc : OutputVC) (z : List ℝ) : Except String (List (V3 Num)) :=
  (vc.WT.computeU (z.map fun z => ⟨z * 0, z * 0 + vc.h_hub, z⟩) plainOpts).1

/-- `OutputVC.fRadial(r,z0)`.  Models wiz/article_blockage/helper_functions.py:455-466. -/
def OutputVC.fRadial (vc : OutputVC) (r : List ℝ) (z0 : ℝ) : Except String (List (V3 Num)) :=
  if vc.Horizontal then (vc.WT.computeU (r.map fun r => ⟨r, r * 0 + vc.h_hub, r * 0 + z0⟩) plainOpts).1
  else (vc.WT.computeU (r.map fun r => ⟨r * 0, r + vc.h_hub, r * 0 + z0⟩) plainOpts).1

/-- The skew angle of `setupModel`, in radians.
Models wiz/article_blockage/helper_functions.py:584-587. -/
def blockageChi (Yaw CT : ℝ) : Num :=
  let chi : Num := .fin Yaw * (1 + .fin 0.3 * (1 - Num.sqrt (1 - .fin CT)))
  chi * .fin Real.pi / 180

/-- The turbine of `setupModel` before the strength is overridden (`R=1`).
Models wiz/article_blockage/helper_functions.py:570-593. -/
def blockageTurbine (mini : (ℝ → Num) → ℝ) (c : BlockageCase) (U0 : ℝ) (Model : String) : Except String WT :=
  let R : ℝ := 1
  let Ground : Bool := decide (c.HH < 9)
  let h_hub := c.HH * R
  let r_bar_cut : ℝ := if c.Lambda < .fin 30 then 0.10 else 0
  let nCyl : ℕ := if c.Lambda < .fin 30 then 30 else 1
  let vr_bar := linspace 0 1 100
  let Ct_AD := ctConstCutoff c.CT r_bar_cut vr_bar none
  let w := WT.new R ⟨0, h_hub, 0⟩ ⟨0, 0, 1⟩ ⟨0, 1, 0⟩ ⟨0, 0, 10⟩ (some .pinf) Ground Model
  let w := w.updateWind ⟨U0 * Real.sin (c.Yaw * Real.pi / 180), 0, U0 * Real.cos (c.Yaw * Real.pi / 180)⟩
  let w := w.setChi (some (blockageChi c.Yaw c.CT))
  let p := w.updateLoading mini { r := some (vr_bar.map fun r => r * R), Ct := some Ct_AD, Lambda := some c.Lambda, nCyl := some nCyl }
  match p.1 with
  | .error e => .error e
  | .ok () => .ok p.2

/-- `setupModel(AD,…)`: the case is read from `AD` if one is given.
Models wiz/article_blockage/helper_functions.py:554-610 (`AD.fCenter` without `AD` is an `AttributeError`). -/
def setupModel (mini : (ℝ → Num) → ℝ) (AD : Option OutputAD) (c : BlockageCase) (MatchMidVel : Bool) (U0 : ℝ)
    (gamma_t : Option Num) (Model : String) : Except String OutputVC :=
  let c := match AD with | some ad => ad.case | none => c
  match blockageTurbine mini c U0 Model with
  | .error e => .error e
  | .ok w =>
    match (if MatchMidVel then
        (match AD with
          | none => .error "AttributeError"
          | some ad => match ad.fCenter with
            | .error e => .error e
            | .ok u_center =>
              .ok { w with gamma_t := some [- (.fin U0 * .fin (Real.cos (c.Yaw * Real.pi / 180)) - .fin u_center) * 2] })
        else .ok w : Except String WT) with
    | .error e => .error e
    | .ok w =>
      let w := match gamma_t with | some g => { w with gamma_t := some [g] } | none => w
      .ok ⟨w, c.HH * 1, c.Horizontal⟩

/-- A farm of turbines that share nothing, as a list of references and a heap. -/
def freshFarm (l : List WT) (dflt : WT) : List PyObj × World :=
  ((List.range l.length).map .turbine, ⟨fun t => l.getD t dflt, fun _ => none, fun _ => [], 0⟩)

/-- The body of the loops that set the turbines of `ADFarm2VCFarm` and `VCFarmFromFloris`.
Models wiz/article_blockage/helper_functions.py:283-289 and 321-327. -/
def setTurbine (mini : (ℝ → Num) → ℝ) (f : Option (List Num → List Num)) (w : WT) (CT : Num) : Except String WT :=
  let w := (w.updateYawPos 0).updateWind ⟨1, 0, 0⟩
  let p := w.updateLoading mini { Ct := some [CT], gamma_t_Ct := f }
  match p.1 with
  | .error e => .error e
  | .ok () => .ok p.2

/-- `for WT,CT in zip(WF,CTs)`: turbines beyond the last thrust coefficient stay as they are; the first
exception stops the loop. -/
def setTurbines (mini : (ℝ → Num) → ℝ) (f : Option (List Num → List Num)) : List WT → List Num → Except String (List WT)
  | w :: ws, c :: cs =>
    match setTurbine mini f w c with
    | .error e => .error e
    | .ok w => match setTurbines mini f ws cs with
      | .error e => .error e
      | .ok ws => .ok (w :: ws)
  | ws, _ => .ok ws

/-- `WindTurbine(R=0.5, e_shaft_yaw0=[1,0,0], e_vert=[0,0,1], r_hub=…)` -/
def blockageWT (r_hub : V3 ℝ) (Ground : Bool) (Model : String) : WT :=
  WT.new 0.5 r_hub ⟨1, 0, 0⟩ ⟨0, 0, 1⟩ ⟨0, 0, 10⟩ (some .pinf) Ground Model

/-- `VCFarmFromFloris(CTs,HH,S,gamma_t_Ct,Model)` for an array `CTs` of shape `(nx,ny)`: the turbines of the farm.
Models wiz/article_blockage/helper_functions.py:303-328. -/
def vcFarmFromFloris (mini : (ℝ → Num) → ℝ) (nx ny : ℕ) (CTs : ℕ → ℕ → Num) (HH S : ℝ) (f : Option (List Num → List Num))
    (Model : String) : Except String (List WT) :=
  match gridLayout nx S ny (some S) HH false with
  | .error e => .error e
  | .ok (yWT, zWT, xWT) =>
    match zWT with
    | [] => .error "IndexError"
    | z0 :: _ =>
      let Ground : Bool := decide (z0 < 10)
      let WF := List.zipWith (fun x (yz : ℝ × ℝ) => blockageWT ⟨x, yz.1, yz.2⟩ Ground Model) xWT (List.zip yWT zWT)
      -- `CTs.T.ravel()`
      setTurbines mini f WF ((List.range ny).flatMap fun i => (List.range nx).map fun j => CTs j i)

/-- `ADFarm2VCFarm(ADFarm,name,gamma_t_Ct)`: the axial velocity along the two probe lines.  With no turbine the
name `r_hub` is undefined.  Models wiz/article_blockage/helper_functions.py:264-301. -/
def adFarm2VCFarm (mini : (ℝ → Num) → ℝ) (WT_pos : List (V3 ℝ)) (CTs : List Num) (mid top : List (V3 ℝ))
    (f : Option (List Num → List Num)) : Except String (List Num × List Num) :=
  let WF := WT_pos.map fun p => blockageWT p false "VC"
  match WT_pos.getLast? with
  | none => .error "NameError"
  | some last =>
    let Ground : Bool := decide (last.z < 10)
    match setTurbines mini f WF CTs with
    | .error e => .error e
    | .ok ws =>
      let q := freshFarm ws (blockageWT 0 false "VC")
      let o : Opts := { ground := some Ground, Model := some "VC" }
      let p := farmVelocity q.1 q.2 mid o (some ⟨1, 0, 0⟩)
      match p.1 with
      | .error e => .error e
      | .ok um =>
        let U_mid := um.map V3.x
        if 1 < CTs.length then
          match (farmVelocity q.1 p.2 top o (some ⟨1, 0, 0⟩)).1 with
          | .error e => .error e
          | .ok ut => .ok (U_mid, ut.map V3.x)
        else .ok (U_mid, U_mid.map fun u => u * 0)

end
end Wiz
