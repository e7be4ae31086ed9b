import Verif.Model.VortexCylinderSkewed
import Verif.Model.RingStack

/-!
# Model of the scripts that draw a skewed wake in wind coordinates

`wiz/examples/VortexCylinderSkewed.py` and `wiz/examples/VortexCylinderSkewedSuperp.py` evaluate a skewed wake in planes normal to the
wind: the points are turned to rotor axes, the velocities of the wake and of the wind are added there, and the sum is turned
back.  The parameters at the top of the scripts are arguments here; grids are lists of points.
-/
namespace Wiz
noncomputable section

/-- `Tw2c(x_w,y_w,z_w)`: wind coordinates to rotor coordinates.
Models wiz/examples/VortexCylinderSkewed.py:64-71 and wiz/examples/VortexCylinderSkewedSuperp.py:105-112. -/
def Tw2c (bWindCoord : Bool) (theta_yaw : ℝ) (p : V3 ℝ) : V3 ℝ :=
  if bWindCoord then
    ⟨p.x * Real.cos theta_yaw + p.z * Real.sin theta_yaw, p.y, -p.x * Real.sin theta_yaw + p.z * Real.cos theta_yaw⟩
  else p

/-- `Tc2w(x_c,y_c,z_c)`: rotor coordinates to wind coordinates (applied to velocities).
Models wiz/examples/VortexCylinderSkewed.py:72-79 and wiz/examples/VortexCylinderSkewedSuperp.py:113-120. -/
def Tc2w (bWindCoord : Bool) (theta_yaw : ℝ) (u : V3 Num) : V3 Num :=
  if bWindCoord then
    ⟨u.x * .fin (Real.cos theta_yaw) - u.z * .fin (Real.sin theta_yaw), u.y, u.x * .fin (Real.sin theta_yaw) + u.z * .fin (Real.cos theta_yaw)⟩
  else u

/-- The free wind, added to `uz_c` and `ux_c`.
Models wiz/examples/VortexCylinderSkewed.py:101-102, 128-129 and wiz/examples/VortexCylinderSkewedSuperp.py:134-135. -/
def addWind (theta_yaw U0 : ℝ) (u : V3 Num) : V3 Num :=
  ⟨u.x + .fin (U0 * Real.sin theta_yaw), u.y, u.z + .fin (U0 * Real.cos theta_yaw)⟩

/-- `ux,uy,uz` of the skewed cylinder (and, with `bRootVortex`, of the opposite cylinder at the hub radius) in wind
coordinates.  Models wiz/examples/VortexCylinderSkewed.py:59, 90-103. -/
def skewScript (bWindCoord bRootVortex : Bool) (theta_yaw chi gamma_t R r_hub U0 : ℝ) (pts_w : List (V3 ℝ)) : List (V3 Num) :=
  let m := Num.tan (.fin chi)
  let pts_c := pts_w.map (Tw2c bWindCoord theta_yaw)
  let u_c := svcTang pts_c (.fin gamma_t) R m 180 false
  let u_c := if bRootVortex then List.zipWith (· + ·) u_c (svcTang pts_c (.fin (-gamma_t)) r_hub m 180 false) else u_c
  u_c.map fun u => Tc2w bWindCoord theta_yaw (addWind theta_yaw U0 u)

/-- `ux,uy,uz` of concentric cylinders `(gamma,R)` of one turbine at the origin, all of slope `m`, in wind coordinates.
Models wiz/examples/VortexCylinderSkewedSuperp.py:59, 82-90, 131-136. -/
def superpScript (bWindCoord : Bool) (theta_yaw chi U0 : ℝ) (cyls : List (ℝ × ℝ)) (pts_w : List (V3 ℝ)) : List (V3 Num) :=
  let m := Num.tan (.fin chi)
  let pts_c := pts_w.map (Tw2c bWindCoord theta_yaw)
  let u_c := svcsTang pts_c [⟨0, cyls.map fun c => (.fin c.1, c.2, 1 * m)⟩] 180 false
  u_c.map fun u => Tc2w bWindCoord theta_yaw (addWind theta_yaw U0 u)

/-- `ux_r,uy_r,uz_r`: the same wake made of `NRings` rings down to `ZRings`.
Models wiz/examples/VortexCylinderSkewed.py:106-130. -/
def ringScript (bWindCoord bRootVortex : Bool) (theta_yaw chi gamma_t R r_hub U0 ZRings : ℝ) (NRings : ℕ) (pts_w : List (V3 ℝ)) :
    Except String (List (V3 Num)) :=
  match ringStack gamma_t R chi ZRings NRings with
  | .error e => .error e
  | .ok rings =>
    .ok (pts_w.map fun p =>
      let p_c := Tw2c bWindCoord theta_yaw p
      let u := ringsU p_c rings 0
      let u := if bRootVortex then u + ringsU p_c (rings.map fun q => ⟨-q.Gamma, q.R * 0 + r_hub, q.pos⟩) 0 else u
      Tc2w bWindCoord theta_yaw (addWind theta_yaw U0 u))

/-- `xc_w,yc_w`: projection of the rotor circle drawn in the figures.
Models wiz/examples/VortexCylinderSkewed.py:150-152 and wiz/examples/VortexCylinderSkewedSuperp.py:148-150. -/
def rotorProjection (theta_yaw R : ℝ) : List (ℝ × ℝ) :=
  (linspace 0 (2 * Real.pi) 50).map fun psi => (R * Real.cos psi * Real.cos theta_yaw, R * Real.sin psi)

/-- `Speed=np.sqrt(uz**2)` clipped to `clim`: `Speed[Speed>clim[1]]=clim[1]`, then `Speed[Speed<clim[0]]=clim[0]`.
Models wiz/examples/VortexCylinderSkewed.py:141-146 and wiz/examples/VortexCylinderSkewedSuperp.py:139-144. -/
def plotSpeed (clim : Option (ℝ × ℝ)) (uz : Num) : Num :=
  let speed := Num.sqrt (uz^2)
  match clim with
  | none => speed
  | some (lo, hi) =>
    open Classical in
    let speed := if Num.fin hi < speed then .fin hi else speed
    open Classical in
    if speed < .fin lo then .fin lo else speed

/-- `gt_hub`, `gt_tip`: normalised circulation at the normalised distance `rh` from the hub or the tip.  Real arithmetic:
for `0<=rh<1/2`.  Models wiz/examples/VortexCylinderSkewedSuperp.py:65-68. -/
def shapeGt (tau rh : ℝ) : ℝ := 1 - Real.exp (-Real.tan (rh * Real.pi) / tau)

/-- `dgt_hub`, `dgt_tip`: the slopes used for the strength of the cylinders.  For `0<=rh<1/2` and `cos(rh/tau)!=0`.
Models wiz/examples/VortexCylinderSkewedSuperp.py:66, 69-70. -/
def shapeDgt (tau rh : ℝ) : ℝ := 1 / tau * (1 / (Real.cos (rh / tau)^2)) * Real.exp (-Real.tan (rh * Real.pi) / tau)

end
end Wiz
