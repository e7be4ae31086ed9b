import Verif.Model.WindFarm

/-!
# Model of the wind-farm blockage scripts

`wiz/article_windfarm_plots/test_Task8_WindFarm_Spacing_NoGround.py` and
`wiz/article_windfarm_plots/test_Task9_WindFarm_GroundEffect.py`: the numbers that are plotted.  The loops over the lists of
thrust coefficients, sizes and spacings are left out (one value is one call), as are the figures.
-/
namespace Wiz
noncomputable section
open Classical

/-- `u25D_th`: the reference velocity on the axis of one turbine.
Models test_Task8_WindFarm_Spacing_NoGround.py:76 and 141, test_Task9_WindFarm_GroundEffect.py:68, 89 and 149. -/
def blockRef (CT : Num) (R zT : ℝ) : Num := 1 - .fin 0.5 * (1 - Num.sqrt (1 - CT)) * (1 + .fin (zT / √(R^2 + zT^2)))

/-- `(uz+U0)/U0` of `windfarm_gridlayout_CTconst` at the point `(0,y,zTarget)`; the coordinates are scalars, which NumPy
treats as a one-point batch.
Models test_Task8_WindFarm_Spacing_NoGround.py:82-83, 147-148, test_Task9_WindFarm_GroundEffect.py:74-78, 95-99, 155-156. -/
def blockVel (y zT R : ℝ) (CT U0 : Num) (nx : ℤ) (S : ℝ) (nz : ℤ) (h : ℝ) (mirror : Bool) : Except String Num :=
  match gridlayoutCTconst [⟨0, y, zT⟩] R CT U0 nx S nz (some S) h mirror with
  | .error e => .error e
  | .ok u => .ok (((u.getD 0 0).z + U0) / U0)

/-- the plotted value of the spacing studies `(1-vuz_wf/u25D_th)*100`, without ground (`ground=none`, point and rotors at height
0) or with ground at the hub height given.
Models test_Task8_WindFarm_Spacing_NoGround.py:78-88, 143-152, test_Task9_WindFarm_GroundEffect.py:151-161. -/
def blockSpacing (ground : Option ℝ) (zT R : ℝ) (CT U0 : Num) (nx : ℤ) (S : ℝ) (nz : ℤ) : Except String Num :=
  match blockVel (ground.getD 0) zT R CT U0 nx S nz (ground.getD 0) ground.isSome with
  | .error e => .error e
  | .ok v => .ok ((1 - v / blockRef CT R zT) * 100)

/-- the plotted value of the ground-effect study: `DeltaUz = no ground - ground`, `UzNewRef = u25D_th - DeltaUz`,
`(1-UzNewRef/u25D_th)*100`.
Models test_Task9_WindFarm_GroundEffect.py:70-82 and 91-103. -/
def blockGround (HH zT R : ℝ) (CT U0 : Num) (nx : ℤ) (S : ℝ) (nz : ℤ) : Except String Num :=
  match blockVel HH zT R CT U0 nx S nz HH true with
  | .error e => .error e
  | .ok vg =>
    match blockVel HH zT R CT U0 nx S nz HH false with
    | .error e => .error e
    | .ok vn => .ok ((1 - (blockRef CT R zT - (vn - vg)) / blockRef CT R zT) * 100)

end
end Wiz
