import Verif.Model.VortexPoint

/-!
# Model of `wiz/examples/CurledWake_2D.py`: far-wake models of the curled wake

Simplifications: `gamma_x` (and `sigma`, when it is an array) have the same length as `theta`,
as the docstrings require; the inputs are finite reals.  One control point at a time: the
functions treat the control points independently (lines 55-60, 97-103).
-/
namespace Wiz
noncomputable section
open Classical

/-- The smoothing factors `Ks`: `1` without smoothing, else `1-exp(-d2/sigma**2)` with
`d2=(z-ze)**2+(y-ye)**2`.  Models wiz/examples/CurledWake_2D.py:45-49 and 88-92. -/
def curledKs (d2 : List Num) : Option (List ℝ) → List Num
  | none => d2.map fun _ => 1
  | some sigma => List.zipWith (fun d s => 1 - Num.exp (-d / Num.fin s ^ 2)) d2 sigma

/-- `ve_u(Ycp,Zcp,R,theta,theta_y,gamma_x,sigma)` at the control point `cp = (ycp,zcp)`;
the result is `(uy,uz)`.  Models wiz/examples/CurledWake_2D.py:27-64. -/
def veU (cp : V2 ℝ) (R : ℝ) (theta : List ℝ) (theta_y : ℝ) (gamma_x : List ℝ) (sigma : Option (List ℝ)) : V2 Num :=
  let ye := theta.map fun t => R * Real.cos t * Real.cos theta_y
  let ze := theta.map fun t => R * Real.sin t
  let gamm := gamma_x.map fun g => Num.fin (R * g) / Num.fin (2 * Real.pi)
  let denom := List.zipWith (fun y z => Num.fin ((cp.x - y)^2 + (cp.y - z)^2)) ye ze
  let Ks := curledKs (List.zipWith (fun y z => Num.fin ((cp.y - z)^2 + (cp.x - y)^2)) ye ze) sigma
  let DenInv := List.zipWith (· * ·) (List.zipWith (· / ·) gamm denom) Ks
  ⟨trapz (List.zipWith (fun z d => - Num.fin (cp.y - z) * d) ze DenInv) theta,
   trapz (List.zipWith (fun y d => Num.fin (cp.x - y) * d) ye DenInv) theta⟩

/-- `vcl_u(Xcp,Ycp,Zcp,R,theta,theta_y,gamma_x,sigma)` at the control point `cp = (x,y,z)`;
the result is `(uy,uz)`.  Models wiz/examples/CurledWake_2D.py:66-107. -/
def vclU (cp : V3 ℝ) (R : ℝ) (theta : List ℝ) (theta_y : ℝ) (gamma_x : List ℝ) (sigma : Option (List ℝ)) : V2 Num :=
  let x1 := theta.map fun t => - R * Real.cos t * Real.sin theta_y
  let y1 := theta.map fun t => R * Real.cos t * Real.cos theta_y
  let z1 := theta.map fun t => R * Real.sin t
  let gamm := gamma_x.map fun g => Num.fin (R * g) / Num.fin (4 * Real.pi)
  let Ks := curledKs (List.zipWith (fun y z => Num.fin ((cp.z - z)^2 + (cp.y - y)^2)) y1 z1) sigma
  let Den1 := List.zipWith (fun x d => Num.sqrt (Num.fin ((cp.x - x)^2) + d)) x1
    (List.zipWith (fun y z => Num.fin ((cp.y - y)^2 + (cp.z - z)^2)) y1 z1)
  let Den2 := x1.map fun x => Num.fin (cp.x - x)
  let DenInv := List.zipWith (· * ·)
    (List.zipWith (· / ·) gamm (List.zipWith (fun d1 d2 => d1 * (d1 - d2)) Den1 Den2)) Ks
  ⟨trapz (List.zipWith (fun z d => Num.fin (z - cp.z) * d) z1 DenInv) theta,
   trapz (List.zipWith (fun y d => Num.fin (cp.y - y) * d) y1 DenInv) theta⟩

end
end Wiz
