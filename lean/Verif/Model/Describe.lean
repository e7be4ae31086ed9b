import Verif.Model.ProjData
import Verif.Model.WindFarm
set_option autoImplicit false

/-!
# Model of the textual descriptions of `wiz/WindTurbine.py` and `wiz/WindFarm.py`

`tostring` concatenates lines ` - label: value`; the model gives the list of the labels and of the values
that are printed.  How Python and NumPy turn one value into characters is not modelled.
-/
namespace Wiz
noncomputable section
open Classical

/-- A value printed by `tostring`: a text, a number, an angle followed by `deg`, a vector, a matrix, a count
or the rows of an array.  Models wiz/WindTurbine.py:415-428 and wiz/WindFarm.py:76-78. -/
inductive Shown where
  | text (s : String)
  | num (x : Num)
  | deg (x : Num)
  | vec (v : V3 Num)
  | mat (m : M3 Num)
  | count (n : ℕ)
  | rows (l : List (V3 ℝ))

/-- `np.round(x,4)` of a finite number (external code). -/
def npRound4 (x : ℝ) : ℝ := npRint (x * 10000) / 10000

/-- `np.round(x,4)` of a float: NaN and infinities are unchanged (external code). -/
def Num.round4 : Num → Num
  | .fin x => .fin (npRound4 x)
  | x => x

/-- `np.round(v,4)` of a vector (external code). -/
def V3.round4 (v : V3 Num) : V3 Num := ⟨v.x.round4, v.y.round4, v.z.round4⟩

/-- `np.round(m,4)` of a matrix (external code). -/
def M3.round4 (m : M3 Num) : M3 Num :=
  ⟨m.xx.round4, m.xy.round4, m.xz.round4, m.yx.round4, m.yy.round4, m.yz.round4, m.zx.round4, m.zy.round4, m.zz.round4⟩

/-- `x*180/np.pi`.  Models wiz/WindTurbine.py:419, 421, 423 and 424. -/
def inDeg (x : Num) : Num := x * .fin 180 / .fin Real.pi

/-- `WindTurbine.tostring`.  Models wiz/WindTurbine.py:414-429. -/
def WT.tostring (name : String) (short : Bool) (w : WT) : List (String × Shown) :=
  [("class WindTurbine", .text name), ("R", .num (.fin w.R)), ("r_hub", .vec (V3.fin w.r_hub)), ("U0", .vec (V3.fin w.U0_g)),
   ("yaw_err", .deg (inDeg w.yawError))] ++
  if short then [] else
  [("wd", .deg (inDeg w.yawWind)), ("e_shaft", .vec (V3.round4 (V3.fin w.e_shaft_g))), ("yaw_pos", .deg (inDeg (.fin w.yaw_pos))),
   ("yaw_err", .deg (inDeg (-w.yawWind + .fin w.yaw_pos))), ("T_F2g", .mat (M3.round4 w.T_F2g)),
   ("T_c2wt", .mat (M3.round4 (M3.fin w.T_c2wt))), ("T_wt2g", .mat (M3.round4 (M3.fin w.T_wt2g))),
   ("T_c2g", .mat (M3.round4 (M3.fin w.T_c2g)))]

/-- `WindTurbine.__repr__`.  Models wiz/WindTurbine.py:431-436. -/
def WT.repr (name : String) (w : WT) : List (String × Shown) := w.tostring name false

/-- `WindFarm.tostring` (`short` is not used); evaluating `layout` makes a new array, and raises if an item has no
`r_hub`.  Models wiz/WindFarm.py:75-79. -/
def farmTostring (name : String) (_short : Bool) (f : List PyObj) (s : World) : Except String (List (String × Shown)) × World :=
  match farmLayout f s with
  | (.ok a, s') => (.ok [("class WindFarm", .text name), ("Number of turbines", .count f.length), ("layout", .rows (s'.arr a))], s')
  | (.error e, s') => (.error e, s')

/-- `WindFarm.__repr__`.  Models wiz/WindFarm.py:81-82. -/
def farmRepr (name : String) (f : List PyObj) (s : World) : Except String (List (String × Shown)) × World :=
  farmTostring name false f s

end
end Wiz
