import Verif.NumPy

/-!
# Model of `wiz/VortexPoint.py`: two-dimensional vortex points

Simplification: points have exactly two columns (`ndim==2`); with three columns the code
only appends a zero third component (VortexPoint.py:103).  Positions, circulations and
core sizes are finite reals.
-/
namespace Wiz
noncomputable section
open Classical

/-- Pairs of coordinates or velocity components. -/
@[ext] structure V2 (α : Type) where
  x : α
  y : α

instance {α} [Add α] : Add (V2 α) := ⟨fun a b => ⟨a.x + b.x, a.y + b.y⟩⟩
instance {α} [Zero α] : Zero (V2 α) := ⟨⟨0, 0⟩⟩
@[simp] theorem V2.add_x {α} [Add α] (a b : V2 α) : (a + b).x = a.x + b.x := rfl
@[simp] theorem V2.add_y {α} [Add α] (a b : V2 α) : (a + b).y = a.y + b.y := rfl
@[simp] theorem V2.zero_x {α} [Zero α] : (0 : V2 α).x = 0 := rfl
@[simp] theorem V2.zero_y {α} [Zero α] : (0 : V2 α).y = 0 := rfl
instance {α} [AddCommMonoid α] : AddCommMonoid (V2 α) where
  add := (· + ·)
  add_assoc a b c := by ext <;> simp [add_assoc]
  zero := 0
  zero_add a := by ext <;> simp
  add_zero a := by ext <;> simp
  add_comm a b := by ext <;> simp [add_comm]
  nsmul := nsmulRec
/-- A real pair seen as a pair of floats. -/
def V2.fin (v : V2 ℝ) : V2 Num := ⟨.fin v.x, .fin v.y⟩

/-- `vp_u(CP,Pv,Gamma,rcore,bViscous)`.  Models wiz/VortexPoint.py:9-25. -/
def vpU (CP Pv : V2 ℝ) (Gamma rcore : ℝ) (bViscous : Bool) : V2 Num :=
  let DPx := CP.x - Pv.x
  let DPy := CP.y - Pv.y
  let r2 : Num := Num.fin (DPx^2 + DPy^2)
  let t : V2 ℝ := ⟨-DPy, DPx⟩
  let g : Num := Num.fin Gamma
  let twoPi : Num := 2 * Num.fin Real.pi
  if bViscous then
    ⟨g * .fin t.x / r2 / twoPi * (1 - Num.exp (-r2 / Num.fin rcore ^ 2)),
     g * .fin t.y / r2 / twoPi * (1 - Num.exp (-r2 / Num.fin rcore ^ 2))⟩
  else
    ⟨g * .fin t.x / r2 / twoPi, g * .fin t.y / r2 / twoPi⟩

/-- The smoothing functions selected by `vps_u` (`None` when `SmoothModel==0`): the pair
`(fE, fKernel)`.  Models wiz/VortexPoint.py:49-84. -/
def vpsSetup (SmoothModel KernelOrder : ℤ) :
    Except String (Option ((Num → Num) × (Num → Num))) :=
  if SmoothModel = 0 then .ok none
  else if SmoothModel = 1 then
    let fE : Num → Num := fun rho2 => Num.exp (-rho2)
    if KernelOrder = 2 then .ok (some (fE, fun _ => 1))
    else if KernelOrder = 4 then .ok (some (fE, fun rho2 => 1 - rho2))
    else if KernelOrder = 6 then .ok (some (fE, fun rho2 => 1 - 2 * rho2 + rho2 ^ 2 / 2))
    else if KernelOrder = 8 then
      .ok (some (fE, fun rho2 => 1 - 3 * rho2 + 3 * rho2 ^ 2 / 2 - rho2 ^ 3 / 6))
    else .error "fKernel order not implemented for Majda model"
  else if SmoothModel = 2 then
    let fE : Num → Num := fun rho2 => Num.exp (-rho2 / 2)
    if KernelOrder = 2 then .ok (some (fun rho2 => Num.exp (-rho2), fun _ => 1))
    else if KernelOrder = 4 then .ok (some (fE, fun rho2 => 1 - 1 / 2 * rho2))
    else if KernelOrder = 6 then .ok (some (fE, fun rho2 => 1 - rho2 + 1 / 8 * rho2 ^ 2))
    else if KernelOrder = 8 then
      .ok (some (fE, fun rho2 => 1 - 3 / 2 * rho2 + 3 / 8 * rho2 ^ 2 - 1 / 48 * rho2 ^ 3))
    else if KernelOrder = 10 then
      .ok (some (fE, fun rho2 =>
        1 - 2 * rho2 + 3 / 4 * rho2 ^ 2 - 1 / 12 * rho2 ^ 3 + 1 / 384 * rho2 ^ 4))
    else .error "Kernel order not implemented for Gaussian2"
  else .error "Unknown smooth model"

/-- One iteration of the vortex loop: `Ui[icp,:] = Ui[icp,:] + ...`.
`SmoothParam[iv]` raises `TypeError` when `SmoothParam` is `None` and `IndexError` when it
is too short; `Gammas[iv]` raises `IndexError`.  The unreachable inner
`if SmoothModel==0` and the `KernelOrder==0` alternative (never reached: order 0 was
rejected before) are left out.  Models wiz/VortexPoint.py:91-114. -/
def vpsStep (k : Option ((Num → Num) × (Num → Num))) (x0 xv : V2 ℝ)
    (Gammas : List ℝ) (SmoothParam : Option (List ℝ)) (iv : ℕ) (U : V2 Num) : Except String (V2 Num) :=
  let dx := x0.x - xv.x
  let dy := x0.y - xv.y
  let r2 := dx * dx + dy * dy
  if r2 < 1e-15 then .ok U
  else
    match k with
    | none =>
      match Gammas[iv]? with
      | none => .error "IndexError"
      | some g =>
        let c : Num := Num.fin g / (2 * Num.fin Real.pi)
        .ok (U + ⟨c * .fin (-dy) / .fin r2, c * .fin dx / .fin r2⟩)
    | some (fE, fKernel) =>
      match SmoothParam with
      | none => .error "TypeError"
      | some sp =>
        match sp[iv]? with
        | none => .error "IndexError"
        | some core =>
          let rho2 : Num := Num.fin r2 / Num.fin core ^ 2
          let E := fE rho2
          let Qm := fKernel rho2
          match Gammas[iv]? with
          | none => .error "IndexError"
          | some g =>
            let c : Num := Num.fin g / (2 * Num.fin Real.pi)
            .ok (U + ⟨c * .fin (-dy) * (1 - Qm * E) / .fin r2, c * .fin dx * (1 - Qm * E) / .fin r2⟩)

/-- Loop over the vortices `iv, iv+1, …` at one control point.
Models wiz/VortexPoint.py:90-114. -/
def vpsLoop (k : Option ((Num → Num) × (Num → Num))) (x0 : V2 ℝ)
    (Gammas : List ℝ) (SmoothParam : Option (List ℝ)) : ℕ → List (V2 ℝ) → V2 Num → Except String (V2 Num)
  | _, [], U => .ok U
  | iv, xv :: XV, U =>
    match vpsStep k x0 xv Gammas SmoothParam iv U with
    | .error e => .error e
    | .ok U' => vpsLoop k x0 Gammas SmoothParam (iv + 1) XV U'

/-- Loop over the control points.  Models wiz/VortexPoint.py:87-89,116. -/
def vpsPoints (k : Option ((Num → Num) × (Num → Num))) (XV : List (V2 ℝ))
    (Gammas : List ℝ) (SmoothParam : Option (List ℝ)) : List (V2 ℝ) → Except String (List (V2 Num))
  | [] => .ok []
  | x0 :: CP =>
    match vpsLoop k x0 Gammas SmoothParam 0 XV 0 with
    | .error e => .error e
    | .ok U =>
      match vpsPoints k XV Gammas SmoothParam CP with
      | .error e => .error e
      | .ok Us => .ok (U :: Us)

/-- `vps_u(CP,XV,Gammas,SmoothModel,KernelOrder,SmoothParam)`.
Models wiz/VortexPoint.py:28-117. -/
def vpsU (CP XV : List (V2 ℝ)) (Gammas : List ℝ) (SmoothModel KernelOrder : ℤ)
    (SmoothParam : Option (List ℝ)) : Except String (List (V2 Num)) :=
  match vpsSetup SmoothModel KernelOrder with
  | .error e => .error e
  | .ok k => vpsPoints k XV Gammas SmoothParam CP

end
end Wiz
