import Verif.Model.Geometry
import Verif.Model.SelfSimilar
import Verif.Model.Solver
import Verif.Model.VortexCylinderSkewed

/-!
# Model of the class `WindTurbine` of `wiz/WindTurbine.py`

Vectors given by the user are finite reals; quantities obtained by divisions (`e_horz_g`, wind
directions, angles) are `Num`.  Methods are state transformers; a Python exception is the first
component of the result, the second is the object after the exception.
-/
namespace Wiz
noncomputable section
open Classical

/-- A `WindTurbine` object. -/
structure WT where
  R : ℝ
  r_hub : V3 ℝ
  e_shaft_g0 : V3 ℝ
  e_vert_g : V3 ℝ
  e_shaft_g : V3 ℝ
  e_horz_g : V3 Num
  T_F2g : M3 Num
  T_c2wt : M3 ℝ
  T_wt2g : M3 ℝ
  yaw_pos : ℝ
  U0_g : V3 ℝ
  r : Option (List ℝ)
  gamma_t : Option (List Num)
  gamma_l : Option (List Num)
  Gamma_r : Option Num
  Lambda : Option Num
  Ct : Option (List Num)
  Ground : Bool
  chi : Option Num
  Model : String

/-- `v - np.dot(v.T,e_vert)`, divided by its norm (the code subtracts the scalar product from all
components).  Models wiz/WindTurbine.py:95-96 and 207-208. -/
def horzOf (e_shaft e_vert : V3 ℝ) : V3 Num :=
  let v := V3.subScalar e_shaft (V3.dot e_shaft e_vert)
  V3.sdiv (V3.fin v) (.fin (V3.norm v))

/-- `update_yaw_pos`.  Models wiz/WindTurbine.py:108-115. -/
def WT.updateYawPos (w : WT) (yaw : ℝ) : WT :=
  { w with yaw_pos := yaw, T_wt2g := rotMatAxisAngle w.e_vert_g yaw,
           e_shaft_g := M3.mulVec (rotMatAxisAngle w.e_vert_g yaw) w.e_shaft_g0 }

/-- The constructor (the argument `Ct` is ignored by the code).  Models wiz/WindTurbine.py:61-106. -/
def WT.new (R : ℝ) (r_hub e_shaft_yaw0 e_vert U0 : V3 ℝ) (Lambda : Option Num) (Ground : Bool) (Model : String) : WT :=
  WT.updateYawPos
    { R := R, r_hub := r_hub, e_shaft_g0 := e_shaft_yaw0, e_vert_g := e_vert, e_shaft_g := e_shaft_yaw0,
      e_horz_g := horzOf e_shaft_yaw0 e_vert,
      T_F2g := M3.ofCols (horzOf e_shaft_yaw0 e_vert) (V3.cross (V3.fin e_vert) (horzOf e_shaft_yaw0 e_vert)) (V3.fin e_vert),
      T_c2wt := M3.ofCols (V3.cross e_vert e_shaft_yaw0) e_vert e_shaft_yaw0,
      T_wt2g := M3.id, yaw_pos := 0, U0_g := U0, r := none, gamma_t := none, gamma_l := none, Gamma_r := none,
      Lambda := Lambda, Ct := none, Ground := Ground, chi := none, Model := Model } 0

/-- `update_position`.  Models wiz/WindTurbine.py:117-118. -/
def WT.updatePosition (w : WT) (r_hub : V3 ℝ) : WT := { w with r_hub := r_hub }
/-- `update_wind`.  Models wiz/WindTurbine.py:120-121. -/
def WT.updateWind (w : WT) (U0 : V3 ℝ) : WT := { w with U0_g := U0 }
/-- `set_chi`.  Models wiz/WindTurbine.py:243-244. -/
def WT.setChi (w : WT) (chi : Option Num) : WT := { w with chi := chi }

/-- `np.interp(x,xp,fp)` at one abscissa, for increasing `xp` (external code). -/
def interp1 (x : ℝ) : List (ℝ × Num) → Num
  | [] => .nan
  | [q] => q.2
  | p :: q :: t =>
    if x < p.1 then p.2
    else if x < q.1 then (q.2 - p.2) / .fin (q.1 - p.1) * .fin (x - p.1) + p.2
    else interp1 x (q :: t)

/-- `np.interp(vr0,r,y)`; raises if `r` or `y` is `None`, the lengths differ or `r` is empty. -/
def interpArr (vr0 : List ℝ) (r : Option (List ℝ)) (y : Option (List Num)) : Except String (List Num) :=
  match r, y with
  | some r, some y =>
    if r.length ≠ y.length ∨ r = [] then .error "ValueError"
    else .ok (vr0.map fun x => interp1 x (List.zip r y))
  | _, _ => .error "TypeError"

/-- Arguments of `update_loading`. -/
structure LoadArgs where
  r : Option (List ℝ) := none
  Ct : Option (List Num) := none
  Gamma : Option (List Num) := none
  Lambda : Option Num := none
  nCyl : Option ℕ := some 1
  gamma_t_Ct : Option (List Num → List Num) := none

/-- Reinterpolation of the loading: new `(r,Ct,Gamma)`.  Models wiz/WindTurbine.py:143-157. -/
def reinterp (R : ℝ) (a : LoadArgs) : Except String (Option (List ℝ) × Option (List Num) × Option (List Num)) :=
  match a.nCyl with
  | none => .ok (a.r, a.Ct, a.Gamma)
  | some n =>
    if n = 1 then .ok (some [0.995 * R], a.Ct.map fun c => [npMean c], a.Gamma.map fun g => [npMean g])
    else
      let vr0 := (linspace 0.005 0.995 n).map fun x => x * R
      match a.Ct with
      | some c =>
        match interpArr vr0 a.r (some c) with
        | .ok c' => .ok (some vr0, some c', a.Gamma)
        | .error e => .error e
      | none =>
        match interpArr vr0 a.r a.Gamma with
        | .ok g' => .ok (some vr0, none, some g')
        | .error e => .error e

/-- The solver call of `update_loading`: `(gamma_t,gamma_l,Gamma_r)`; `r=None` is a `TypeError`.
Models wiz/WindTurbine.py:168-180 (`minimize` is SciPy's scalar minimiser). -/
def loadingSolve (minimize : (ℝ → Num) → ℝ) (R : ℝ) (U0 Omega : Num) (r : Option (List ℝ)) (Ct Gamma : Option (List Num))
    (f : Option (List Num → List Num)) : Except String (List Num × Option (List Num) × Option Num) :=
  match f with
  | some f =>
    match Ct with
    | none => .error "Provide `Ct` along `gamma_t_Ct`"
    | some c => .ok (f c, none, none)
  | none =>
    match Ct with
    | some c =>
      match r with
      | none => .error "TypeError"
      | some r =>
        match wakeVorticityFromCt minimize (r.map .fin) c (.fin R) U0 Omega with
        | .ok v => .ok (v.gamma_t, v.gamma_l, v.Gamma_r)
        | .error e => .error e
    | none =>
      match Gamma with
      | some g =>
        match r with
        | none => .error "TypeError"
        | some r =>
          match wakeVorticityFromGamma (r.map .fin) g (.fin R) U0 Omega with
          | .ok v => .ok (v.gamma_t, v.gamma_l, v.Gamma_r)
          | .error e => .error e
      | none => .error "Unknown loading spec"

/-- `update_loading`: every exception is raised before the first assignment to the object.
Models wiz/WindTurbine.py:123-189. -/
def WT.updateLoading (minimize : (ℝ → Num) → ℝ) (w : WT) (a : LoadArgs) : Except String Unit × WT :=
  let U0 := V3.norm w.U0_g
  match reinterp w.R a with
  | .error e => (.error e, w)
  | .ok (r, Ct, Gamma) =>
    match (match a.Lambda with | some l => some l | none => w.Lambda) with
    | none => (.error "Provide `Lambda` for update_loading. (Note: `Lambda=np.Inf` supported) ", w)
    | some Lambda =>
      let Omega := Lambda * .fin U0 / .fin w.R
      match loadingSolve minimize w.R (.fin U0) Omega r Ct Gamma a.gamma_t_Ct with
      | .error e => (.error e, w)
      | .ok (gt, gl, Gr) =>
        let w := { w with gamma_t := some gt, gamma_l := gl, Gamma_r := Gr }
        let w := { w with Lambda := some Lambda }
        let w := { w with r := r }
        (.ok (), { w with Ct := Ct })

/-- `yaw_wind`.  Models wiz/WindTurbine.py:191-203. -/
def WT.yawWind (w : WT) : Num :=
  let u_horz := w.U0_g - V3.smul (V3.dot w.U0_g w.e_vert_g) w.e_vert_g
  let e_w := V3.sdiv (V3.fin u_horz) (.fin (V3.norm u_horz))
  let sign := Num.sign (V3.dot (V3.cross w.e_horz_g (V3.fin w.U0_g)) (V3.fin w.e_vert_g))
  if Num.Eqv sign 0 then Num.arccos (V3.dot e_w w.e_horz_g)
  else sign * Num.arccos (V3.dot e_w w.e_horz_g)

/-- `yaw_error` (`e_horz` and `u_skew` are computed but not used).  Models wiz/WindTurbine.py:205-216. -/
def WT.yawError (w : WT) : Num :=
  let e_w := V3.sdiv (V3.fin w.U0_g) (.fin (V3.norm w.U0_g))
  let yaw_sign := Num.sign (V3.dot (V3.cross e_w (V3.fin w.e_shaft_g)) (V3.fin w.e_vert_g))
  yaw_sign * Num.arccos (V3.dot e_w (V3.fin w.e_shaft_g))

/-- `T_c2g`.  Models wiz/WindTurbine.py:270. -/
def WT.T_c2g (w : WT) : M3 ℝ := M3.mul w.T_wt2g w.T_c2wt

/-- the skew angle computed when none is stored.  Models wiz/WindTurbine.py:273-276. -/
def WT.chiAuto (w : WT) : Num :=
  let e_vert_c := M3.mulVec (M3.transpose w.T_c2g) w.e_vert_g
  Num.sign (.fin e_vert_c.y) * (w.yawWind - .fin w.yaw_pos)

/-- Arguments of `compute_u` (besides the points). -/
structure Opts where
  only_ind : Bool := false
  longi : Bool := false
  tang : Bool := true
  root : Bool := false
  no_wake : Bool := false
  ground : Option Bool := none
  Model : Option String := none
  R_far_field : ℝ := 6

/-- `np.abs(self.chi)>1e-7` -/
def yawed (chi : Num) : Prop := .fin 1e-7 < Num.abs chi

/-- Root vortex at one list of relative points.  Models wiz/WindTurbine.py:299-302. -/
def rootPart (chi m : Num) (Gr : Num) (Y : List (V3 ℝ)) : Except String (List (V3 Num)) :=
  if yawed chi then svcRoot Y Gr m false else .ok (vcRoot Y Gr false)

/-- Tangential vorticity of a single cylinder at one list of relative points.
Models wiz/WindTurbine.py:312-329. -/
def tangPart (chi m : Num) (Model : String) (gt : Num) (R Rff : ℝ) (Y : List (V3 ℝ)) : Except String (List (V3 Num)) :=
  if yawed chi then
    if Model = "VC" then .ok (svcTang Y gt R m 180 false) else .error "NotImplementedError: Model with yaw"
  else if Model = "VC" then .ok (vcTang Y gt R 0)
  else if Model = "VCFF" then .ok (vcTangDoublet Y gt R Rff)
  else if Model = "VD" then .ok (Y.map fun p => doubletLineU p (gt * .fin R^2 * .fin Real.pi) 0 none)
  else if Model = "SS" then .ok (Y.map fun p => ⟨ssUDefault p gt R * 0, ssUDefault p gt R * 0, ssUDefault p gt R⟩)
  else .error "NotImplementedError: Model"

/-- Longitudinal vorticity of a single cylinder at one list of relative points.
Models wiz/WindTurbine.py:334-343. -/
def longiPart (chi m : Num) (Model : String) (gl : Num) (R : ℝ) (Y : List (V3 ℝ)) : Except String (List (V3 Num)) :=
  if Model = "VC" then .ok (if yawed chi then svcLongi Y gl R m 180 false else vcLongi Y gl R false)
  else .error "NotImplementedError: longi component"

/-- `u += part` -/
def accum (u : List (V3 Num)) (v : Except String (List (V3 Num))) : Except String (List (V3 Num)) :=
  match v with
  | .ok v => .ok (addFields u v)
  | .error e => .error e

/-- The loop body of the single-cylinder case for one entry of `Ylist`.
Models wiz/WindTurbine.py:310-346 (`self.gamma_l!=0` is an error on an array of several entries). -/
def singleBody (chi m : Num) (Model : String) (gt : Num) (gl : Option (List Num)) (R : ℝ) (o : Opts) (Y : List (V3 ℝ))
    (u : List (V3 Num)) : Except String (List (V3 Num)) :=
  match (if o.tang ∧ ¬ Num.Eqv gt 0 then accum u (tangPart chi m Model gt R o.R_far_field Y) else .ok u) with
  | .error e => .error e
  | .ok u =>
    match o.longi, gl with
    | true, some [g] => if ¬ Num.Eqv g 0 then accum u (longiPart chi m Model g R Y) else .ok u
    | true, some _ => .error "ValueError"
    | _, _ => .ok u

/-- `for Y in Ylist`, stopping at the first exception -/
def overY (f : List (V3 ℝ) → List (V3 Num) → Except String (List (V3 Num))) (u : List (V3 Num)) :
    List (List (V3 ℝ)) → Except String (List (V3 Num))
  | [] => .ok u
  | Y :: L => match f Y u with
    | .ok u => overY f u L
    | .error e => .error e

/-- The multi-cylinder case.  `pts` are the points in the cylinder frame (rotation only).
Models wiz/WindTurbine.py:348-377. -/
def multiPart (chi m : Num) (Model : String) (gt : List Num) (gl : Option (List Num)) (r : Option (List ℝ)) (cyl : V3 ℝ) (ground : Bool)
    (o : Opts) (pts : List (V3 ℝ)) (u : List (V3 Num)) : Except String (List (V3 Num)) :=
  if Model = "VC" then
    match r with
    | none => .error "TypeError"
    | some r =>
      if gt.length ≠ r.length then .error "ValueError"
      else if gl.any (fun l => decide (l.length ≠ r.length)) then .error "ValueError"
      else
        let u := if o.tang then
            addFields u (if yawed chi then svcsTang pts [⟨cyl, List.zipWith (fun g R => (g, R, m)) gt r⟩] 180 ground
              else vcsTang pts [⟨cyl, List.zip gt r⟩] 0 ground)
          else u
        match o.longi, gl with
        | true, some gl => .ok (addFields u
            (if yawed chi then svcsLongi pts [⟨cyl, List.zipWith (fun g R => (g, R, m)) gl r⟩] 180 ground
              else vcsLongi pts [⟨cyl, List.zip gl r⟩] ground))
        | _, _ => .ok u
  else .error "NotImplementedError: Model with multiple cylinders"

/-- `bSelZero` at one relative point.  Models wiz/WindTurbine.py:383-387. -/
def inRotorTube (R : ℝ) (p : V3 ℝ) : Prop := Real.sqrt (p.x^2 + p.y^2) < R * 1.001 ∧ -0.60 * R ≤ p.z

/-- The induced velocity in the cylinder frame, before `no_wake`.  Models wiz/WindTurbine.py:280-377. -/
def WT.inducedC (w : WT) (chi : Num) (gt : List Num) (pts : List (V3 ℝ)) (o : Opts) : Except String (List (V3 Num)) :=
  let ground := o.ground.getD w.Ground
  let Model := o.Model.getD w.Model
  let ptsC := pts.map (transformT w.T_c2g)
  let cyl := transformT w.T_c2g w.r_hub
  let m := Num.tan chi
  let Ylist := if ground then [relPts ptsC cyl, mirrorPts ptsC cyl] else [relPts ptsC cyl]
  let u0 : List (V3 Num) := pts.map fun _ => 0
  let u1 := match o.root, w.Gamma_r with
    | true, some Gr => if ¬ Num.Eqv Gr 0 then overY (fun Y u => accum u (rootPart chi m Gr Y)) u0 Ylist else .ok u0
    | _, _ => .ok u0
  match u1 with
  | .error e => .error e
  | .ok u1 =>
    match gt with
    | [g] => overY (singleBody chi m Model g w.gamma_l w.R o) u1 Ylist
    | gt => multiPart chi m Model gt w.gamma_l w.r cyl ground o ptsC u1

/-- `no_wake`.  Models wiz/WindTurbine.py:378-390. -/
def zeroWake (R : ℝ) (rel : List (V3 ℝ)) (u : List (V3 Num)) : List (V3 Num) :=
  List.zipWith (fun p u => if inRotorTube R p then 0 else u) rel u

/-- Back to global axes and free stream.  Models wiz/WindTurbine.py:405-411. -/
def WT.toGlobal (w : WT) (only_ind : Bool) (u : List (V3 Num)) : List (V3 Num) :=
  u.map fun v => if only_ind then transform (M3.fin w.T_c2g) v else transform (M3.fin w.T_c2g) v + V3.fin w.U0_g

/-- `compute_u(Xg,Yg,Zg,…)` (points flattened to a list).  `chi` is stored in the object before the
loading check.  Models wiz/WindTurbine.py:246-412. -/
def WT.computeU (w : WT) (pts : List (V3 ℝ)) (o : Opts) : Except String (List (V3 Num)) × WT :=
  let chi := match w.chi with | some c => c | none => w.chiAuto
  let w := { w with chi := some chi }
  match w.gamma_t with
  | none => (.error "Please set loading with `update_loading` before calling `compute_u`", w)
  | some gt =>
    match w.inducedC chi gt pts o with
    | .error e => (.error e, w)
    | .ok u =>
      let u := if o.no_wake then zeroWake w.R (relPts (pts.map (transformT w.T_c2g)) (transformT w.T_c2g w.r_hub)) u else u
      (.ok (w.toGlobal o.only_ind u), w)

/-! ### Histories -/

/-- A method call on a turbine. -/
inductive Op where
  | yaw (yaw : ℝ)
  | position (r_hub : V3 ℝ)
  | wind (U0 : V3 ℝ)
  | loading (a : LoadArgs)
  | chi (chi : Option Num)
  | eval (pts : List (V3 ℝ)) (o : Opts)

/-- The object after a method call (the caller catches exceptions). -/
def WT.step (minimize : (ℝ → Num) → ℝ) (w : WT) : Op → WT
  | .yaw y => w.updateYawPos y
  | .position p => w.updatePosition p
  | .wind u => w.updateWind u
  | .loading a => (w.updateLoading minimize a).2
  | .chi c => w.setChi c
  | .eval pts o => (w.computeU pts o).2

/-- The object after a sequence of method calls. -/
def WT.run (minimize : (ℝ → Num) → ℝ) (w : WT) (h : List Op) : WT := h.foldl (WT.step minimize) w

end
end Wiz
