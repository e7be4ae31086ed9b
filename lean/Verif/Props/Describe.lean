import Verif.Model.Describe
import Verif.Props.Turbine
import Verif.Props.RoundLinear
import Verif.Props.WindFarmLayout
import Verif.Props.TurbineMemory
set_option autoImplicit false

/-!
# C155: what `print(turbine)` and `print(farm)` show
-/
namespace Wiz
noncomputable section
open Spec Classical

/-- `np.rint` is at most one half away from its argument -/
theorem npRint_near (x : ℝ) : |(npRint x : ℝ) - x| ≤ 1/2 := by
  unfold npRint
  split
  · rename_i h
    have := (C123_rounding x h).1
    simpa using this
  · rename_i h
    push Not at h
    have := (C123_rounding (-x) (by linarith)).1
    push_cast
    rw [show -(roundEven (-x) : ℝ) - x = -((roundEven (-x) : ℝ) - (-x)) by ring, abs_neg]
    exact this

/-- a printed entry is at most half a unit of the fourth decimal away -/
theorem npRound4_near (x : ℝ) : |npRound4 x - x| ≤ 1/20000 := by
  have h := npRint_near (x * 10000)
  unfold npRound4
  rw [show (npRint (x * 10000) : ℝ) / 10000 - x = ((npRint (x * 10000) : ℝ) - x * 10000) / 10000 by ring, abs_div,
    abs_of_pos (by norm_num : (0:ℝ) < 10000)]
  linarith

/-- rounding to four decimals keeps an entry of a unit vector in [-1,1] -/
theorem npRound4_unit (x : ℝ) (h : |x| ≤ 1) : |npRound4 x| ≤ 1 := by
  have h1 := npRint_near (x * 10000)
  have hz : |npRint (x * 10000)| ≤ 10000 := by
    obtain ⟨a, b⟩ := abs_le.1 h
    obtain ⟨c, d⟩ := abs_le.1 h1
    have u : (npRint (x * 10000) : ℝ) < ((10001 : ℤ) : ℝ) := by push_cast; linarith
    have l : ((-10001 : ℤ) : ℝ) < (npRint (x * 10000) : ℝ) := by push_cast; linarith
    have u' := Int.cast_lt.1 u
    have l' := Int.cast_lt.1 l
    rw [abs_le]; omega
  unfold npRound4
  rw [abs_div, abs_of_pos (by norm_num : (0:ℝ) < 10000), div_le_one (by norm_num)]
  have : ((|npRint (x * 10000)| : ℤ) : ℝ) ≤ ((10000 : ℤ) : ℝ) := Int.cast_le.2 hz
  rw [Int.cast_abs] at this
  simpa using this

theorem inDeg_fin (x : ℝ) : inDeg (.fin x) = .fin (x * 180 / Real.pi) := by
  unfold inDeg
  rw [Num.fin_mul, Num.fin_div Real.pi_ne_zero]

/-- the values printed with a given label, from top to bottom -/
def shown (label : String) (l : List (String × Shown)) : List Shown := (l.filter fun e => e.1 = label).map fun e => e.2

/-- C155: what a turbine prints after any history: its radius, the hub position and the wind last set, the yaw last
requested in degrees, and the shaft and the three axes of the rotor, right to half a unit of the fourth decimal, with no
entry of absolute value above one. -/
theorem C155_turbine (mini : (ℝ → Num) → ℝ) (R : ℝ) (hub shaft vert U0 : V3 ℝ) (L : Option Num) (G : Bool) (M name : String)
    (ho : Orthonormal shaft vert) (h : List Op) :
    let l := ((WT.new R hub shaft vert U0 L G M).run mini h).repr name
    let s := turn vert (lastYaw h) shaft
    let a := V3.cross vert s
    shown "class WindTurbine" l = [.text name] ∧ shown "R" l = [.num (.fin R)] ∧
    shown "r_hub" l = [.vec (V3.fin (lastHub hub h))] ∧ shown "U0" l = [.vec (V3.fin (lastWind U0 h))] ∧
    shown "yaw_pos" l = [.deg (.fin (lastYaw h * 180 / Real.pi))] ∧
    (∃ e : V3 ℝ, shown "e_shaft" l = [.vec (V3.fin e)] ∧
      |e.x - s.x| ≤ 5e-5 ∧ |e.y - s.y| ≤ 5e-5 ∧ |e.z - s.z| ≤ 5e-5 ∧ |e.x| ≤ 1 ∧ |e.y| ≤ 1 ∧ |e.z| ≤ 1) ∧
    ∃ m : M3 ℝ, shown "T_c2g" l = [.mat (M3.fin m)] ∧
      |m.xx - a.x| ≤ 5e-5 ∧ |m.yx - a.y| ≤ 5e-5 ∧ |m.zx - a.z| ≤ 5e-5 ∧
      |m.xy - vert.x| ≤ 5e-5 ∧ |m.yy - vert.y| ≤ 5e-5 ∧ |m.zy - vert.z| ≤ 5e-5 ∧
      |m.xz - s.x| ≤ 5e-5 ∧ |m.yz - s.y| ≤ 5e-5 ∧ |m.zz - s.z| ≤ 5e-5 ∧
      (|m.xx| ≤ 1 ∧ |m.xy| ≤ 1 ∧ |m.xz| ≤ 1) ∧ (|m.yx| ≤ 1 ∧ |m.yy| ≤ 1 ∧ |m.yz| ≤ 1) ∧ |m.zx| ≤ 1 ∧ |m.zy| ≤ 1 ∧ |m.zz| ≤ 1 := by
  intro l s a
  obtain ⟨y1, y2, y3, y4, y5⟩ := C05_last_yaw mini R hub shaft vert U0 L G M h
  have hi := frame_run mini shaft vert R h _ (frame_new R hub shaft vert U0 L G M)
  have m1 := memory_hub mini h (WT.new R hub shaft vert U0 L G M)
  have m2 := memory_wind mini h (WT.new R hub shaft vert U0 L G M)
  obtain ⟨a', s', f1, f2, f3, f4, f5, f6, f7, f8, f9⟩ := frame_cols shaft vert R ho _ hi
  have es : s' = s := by rw [f3, y1]
  have ea : a' = a := by rw [f9, es]
  subst es ea
  change _ = lastHub hub h at m1
  change _ = lastWind U0 h at m2
  have key : ∀ v : V3 ℝ, V3.dot v v = 1 → |v.x| ≤ 1 ∧ |v.y| ≤ 1 ∧ |v.z| ≤ 1 := by
    intro v hv
    simp only [V3.dot] at hv
    refine ⟨abs_le_one_iff_mul_self_le_one.2 ?_, abs_le_one_iff_mul_self_le_one.2 ?_, abs_le_one_iff_mul_self_le_one.2 ?_⟩ <;>
    nlinarith [mul_self_nonneg v.x, mul_self_nonneg v.y, mul_self_nonneg v.z]
  obtain ⟨ka1, ka2, ka3⟩ := key _ f4
  obtain ⟨ks1, ks2, ks3⟩ := key _ f5
  obtain ⟨kv1, kv2, kv3⟩ := key _ ho.vert
  have near : ∀ x : ℝ, |npRound4 x - x| ≤ 5e-5 := fun x => (npRound4_near x).trans (by norm_num)
  have hl : l = ((WT.new R hub shaft vert U0 L G M).run mini h).repr name := rfl
  clear_value l
  generalize hw : (WT.new R hub shaft vert U0 L G M).run mini h = w at *
  subst hl
  refine ⟨rfl, ?_, ?_, ?_, ?_, ⟨⟨npRound4 s.x, npRound4 s.y, npRound4 s.z⟩, ?_, near _, near _, near _,
    npRound4_unit _ ks1, npRound4_unit _ ks2, npRound4_unit _ ks3⟩,
    ⟨⟨npRound4 a.x, npRound4 vert.x, npRound4 s.x, npRound4 a.y, npRound4 vert.y, npRound4 s.y, npRound4 a.z, npRound4 vert.z, npRound4 s.z⟩,
      ?_, near _, near _, near _, near _, near _, near _, near _, near _, near _,
      ⟨npRound4_unit _ ka1, npRound4_unit _ kv1, npRound4_unit _ ks1⟩, ⟨npRound4_unit _ ka2, npRound4_unit _ kv2, npRound4_unit _ ks2⟩,
      npRound4_unit _ ka3, npRound4_unit _ kv3, npRound4_unit _ ks3⟩⟩
  · simp [shown, WT.repr, WT.tostring, y5]
  · simp [shown, WT.repr, WT.tostring, m1]
  · simp [shown, WT.repr, WT.tostring, m2]
  · simp [shown, WT.repr, WT.tostring, y1, inDeg_fin]
  · simp [shown, WT.repr, WT.tostring, y2, V3.round4, V3.fin, Num.round4]
    exact ⟨rfl, rfl, rfl⟩
  · simp [shown, WT.repr, WT.tostring, f1, M3.round4, M3.fin, Num.round4, M3.ofCols]

/-- every entry of `m` is within `e` of the entry of the matrix with columns `a`, `b`, `c` -/
structure NearCols (e : ℝ) (m : M3 ℝ) (a b c : V3 ℝ) : Prop where
  a : |m.xx - a.x| ≤ e ∧ |m.yx - a.y| ≤ e ∧ |m.zx - a.z| ≤ e
  b : |m.xy - b.x| ≤ e ∧ |m.yy - b.y| ≤ e ∧ |m.zy - b.z| ≤ e
  c : |m.xz - c.x| ≤ e ∧ |m.yz - c.y| ≤ e ∧ |m.zz - c.z| ≤ e

theorem round4_near (M : M3 ℝ) (a b c : V3 ℝ) (h : M = M3.ofCols a b c) : ∃ m, M3.round4 (M3.fin M) = M3.fin m ∧ NearCols 5e-5 m a b c := by
  have near : ∀ x : ℝ, |npRound4 x - x| ≤ 5e-5 := fun x => (npRound4_near x).trans (by norm_num)
  subst h
  exact ⟨⟨npRound4 a.x, npRound4 b.x, npRound4 c.x, npRound4 a.y, npRound4 b.y, npRound4 c.y, npRound4 a.z, npRound4 b.z, npRound4 c.z⟩, rfl,
    ⟨near _, near _, near _⟩, ⟨near _, near _, near _⟩, ⟨near _, near _, near _⟩⟩

theorem T_F2g_run (mini : (ℝ → Num) → ℝ) (h : List Op) : ∀ w : WT, (w.run mini h).T_F2g = w.T_F2g := by
  induction h with
  | nil => intro w; rfl
  | cons o h ih =>
    intro w
    show ((w.step mini o).run mini h).T_F2g = _
    rw [ih]
    cases o with
    | loading a => exact (loading_frame mini w a).2.2.2.2.2.2.1
    | eval pts o => simp only [WT.step]; rw [computeU_state]
    | _ => rfl

/-- C155: the three other matrices printed: `T_F2g` has the columns shaft, vertical × shaft and vertical of the turbine at zero yaw, `T_c2wt`
the columns vertical × shaft, vertical and shaft of the turbine at zero yaw, and `T_wt2g` those of the rotation about the vertical by the yaw last requested. -/
theorem C155_frames (mini : (ℝ → Num) → ℝ) (R : ℝ) (hub shaft vert U0 : V3 ℝ) (L : Option Num) (G : Bool) (M name : String)
    (ho : Orthonormal shaft vert) (h : List Op) :
    let l := ((WT.new R hub shaft vert U0 L G M).run mini h).repr name
    ∃ F C W : M3 ℝ, shown "T_F2g" l = [.mat (M3.fin F)] ∧ shown "T_c2wt" l = [.mat (M3.fin C)] ∧ shown "T_wt2g" l = [.mat (M3.fin W)] ∧
      NearCols 5e-5 F shaft (V3.cross vert shaft) vert ∧ NearCols 5e-5 C (V3.cross vert shaft) vert shaft ∧
      NearCols 5e-5 W (turn vert (lastYaw h) ⟨1,0,0⟩) (turn vert (lastYaw h) ⟨0,1,0⟩) (turn vert (lastYaw h) ⟨0,0,1⟩) := by
  intro l
  obtain ⟨y1, -⟩ := C05_last_yaw mini R hub shaft vert U0 L G M h
  have hi := frame_run mini shaft vert R h _ (frame_new R hub shaft vert U0 L G M)
  have hF : ((WT.new R hub shaft vert U0 L G M).run mini h).T_F2g = M3.fin (M3.ofCols shaft (V3.cross vert shaft) vert) := by
    rw [T_F2g_run]
    show M3.ofCols (horzOf shaft vert) (V3.cross (V3.fin vert) (horzOf shaft vert)) (V3.fin vert) = _
    rw [horzOf_ortho shaft vert ho, fin_cross]
    rfl
  have hW := hi.T_wt2g
  rw [y1] at hW
  have eW : rotMatAxisAngle vert (lastYaw h) = M3.ofCols (turn vert (lastYaw h) ⟨1,0,0⟩) (turn vert (lastYaw h) ⟨0,1,0⟩) (turn vert (lastYaw h) ⟨0,0,1⟩) := by
    rw [← turn_eq, ← turn_eq, ← turn_eq]
    ext <;> simp [M3.ofCols, M3.mulVec]
  obtain ⟨F, f1, f2⟩ := round4_near _ shaft (V3.cross vert shaft) vert rfl
  obtain ⟨C, c1, c2⟩ := round4_near _ _ _ _ hi.T_c2wt
  obtain ⟨W, w1, w2⟩ := round4_near _ _ _ _ (hW.trans eW)
  refine ⟨F, C, W, ?_, ?_, ?_, f2, c2, w2⟩
  · simp [l, shown, WT.repr, WT.tostring, hF, f1]
  · simp [l, shown, WT.repr, WT.tostring, c1]
  · simp [l, shown, WT.repr, WT.tostring, w1]

theorem angles_shown (name : String) (w : WT) (θ yw : ℝ) (h1 : w.yawError = .fin θ) (h2 : w.yawWind = .fin yw) :
    shown "yaw_err" (w.repr name) = [.deg (.fin (θ * 180 / Real.pi)), .deg (.fin ((w.yaw_pos - yw) * 180 / Real.pi))] ∧
    shown "wd" (w.repr name) = [.deg (.fin (yw * 180 / Real.pi))] ∧
    shown "yaw_err" (w.tostring name true) = [.deg (.fin (θ * 180 / Real.pi))] := by
  have e : -yw + w.yaw_pos = w.yaw_pos - yw := by ring
  refine ⟨?_, ?_, ?_⟩ <;> simp [shown, WT.repr, WT.tostring, h1, h2, inDeg_fin, e]

/-- C155 (all horizontal winds but the exactly opposed one): the long description prints two angles labelled `yaw_err`.
The first, in (-180,180), is the turn from the wind to the shaft; the second is the yaw last requested minus the printed
wind direction.  They differ by whole turns, and are the same number exactly when the second is in (-180,180); the short
description prints the first.  Missing: they need not be the same number, see `C155_two_errors_refuted`. -/
theorem C155_two_errors_partial (mini : (ℝ → Num) → ℝ) (R : ℝ) (hub shaft vert U0 : V3 ℝ) (L : Option Num) (G : Bool) (M name : String)
    (ho : Orthonormal shaft vert) (h : List Op) :
    let w := (WT.new R hub shaft vert U0 L G M).run mini h
    let e_w := V3.smul (1 / V3.norm (lastWind U0 h)) (lastWind U0 h)
    lastWind U0 h ≠ 0 → V3.dot (lastWind U0 h) vert = 0 → turn vert (lastYaw h) shaft ≠ -e_w →
    ∃ a b c : ℝ, shown "yaw_err" (w.repr name) = [.deg (.fin a), .deg (.fin b)] ∧ shown "wd" (w.repr name) = [.deg (.fin c)] ∧
      shown "yaw_err" (w.tostring name true) = [.deg (.fin a)] ∧
      -180 < a ∧ a < 180 ∧ turn vert (a * Real.pi / 180) e_w = turn vert (lastYaw h) shaft ∧
      -180 < c ∧ c ≤ 180 ∧ turn vert (c * Real.pi / 180) shaft = e_w ∧
      b = lastYaw h * 180 / Real.pi - c ∧ (∃ k : ℤ, b = a + 360 * k) ∧ (a = b ↔ -180 < b ∧ b < 180) := by
  intro w e_w
  have m2 := memory_wind mini h (WT.new R hub shaft vert U0 L G M)
  change w.U0_g = lastWind U0 h at m2
  obtain ⟨y1, y2, y3, y4, y5⟩ := C05_last_yaw mini R hub shaft vert U0 L G M h
  intro hU hv hne
  obtain ⟨θ, yw, h1, h2, h3, h4, h5, k, h6⟩ := C07_yaw_error_partial mini R hub shaft vert U0 L G M ho h
    (by rw [show ((WT.new R hub shaft vert U0 L G M).run mini h).U0_g = _ from m2]; exact hU)
    (by rw [show ((WT.new R hub shaft vert U0 L G M).run mini h).U0_g = _ from m2]; exact hv)
    (by rw [show ((WT.new R hub shaft vert U0 L G M).run mini h).U0_g = _ from m2, y2]; exact hne)
  rw [show ((WT.new R hub shaft vert U0 L G M).run mini h).U0_g = _ from m2, y2] at h4
  have hhor : horizontal vert (lastWind U0 h) = lastWind U0 h := by
    unfold horizontal; rw [hv]; ext <;> simp
  obtain ⟨yw', w1, w2, w3, w4⟩ := C06_yaw_wind mini R hub shaft vert U0 L G M ho h (by
    rw [show ((WT.new R hub shaft vert U0 L G M).run mini h).U0_g = _ from m2, hhor]; exact hU)
  rw [show ((WT.new R hub shaft vert U0 L G M).run mini h).U0_g = _ from m2, hhor] at w4
  have : yw' = yw := by rw [w1] at h5; exact Num.fin.inj h5
  subst this
  obtain ⟨s1, s2, s3⟩ := angles_shown name w θ yw' h1 h5
  rw [show w.yaw_pos = _ from y1] at s1
  have hp := Real.pi_pos
  have hb : (lastYaw h - yw') * 180 / Real.pi = θ * 180 / Real.pi + 360 * ((-k : ℤ) : ℝ) := by
    rw [h6]; push_cast; field_simp; ring
  have ha1 : -180 < θ * 180 / Real.pi := by rw [lt_div_iff₀ hp]; nlinarith
  have ha2 : θ * 180 / Real.pi < 180 := by rw [div_lt_iff₀ hp]; nlinarith
  refine ⟨_, _, _, s1, s2, s3, ha1, ha2, ?_, ?_, ?_, ?_, ?_, ⟨-k, hb⟩, fun e => by rw [← e]; exact ⟨ha1, ha2⟩, fun ⟨b1, b2⟩ => ?_⟩
  · rw [show θ * 180 / Real.pi * Real.pi / 180 = θ by field_simp]; exact h4
  · rw [lt_div_iff₀ hp]; nlinarith
  · rw [div_le_iff₀ hp]; nlinarith
  · rw [show yw' * 180 / Real.pi * Real.pi / 180 = yw' by field_simp]; exact w4
  · ring
  · rw [hb] at b1 b2 ⊢
    have l : ((-1 : ℤ) : ℝ) < ((-k : ℤ) : ℝ) := by push_cast at *; linarith
    have u : ((-k : ℤ) : ℝ) < ((1 : ℤ) : ℝ) := by push_cast at *; linarith
    have l' := Int.cast_lt.1 l
    have u' := Int.cast_lt.1 u
    have : (-k : ℤ) = 0 := by omega
    rw [this]; simp

/-- C155: with the wind exactly opposed to the shaft the two printed angles never agree: the first is 0, the second half a
turn (plus whole turns). -/
theorem C155_two_errors_opposed (mini : (ℝ → Num) → ℝ) (R : ℝ) (hub shaft vert U0 : V3 ℝ) (L : Option Num) (G : Bool) (M name : String)
    (ho : Orthonormal shaft vert) (h : List Op) :
    let w := (WT.new R hub shaft vert U0 L G M).run mini h
    let e_w := V3.smul (1 / V3.norm (lastWind U0 h)) (lastWind U0 h)
    lastWind U0 h ≠ 0 → turn vert (lastYaw h) shaft = -e_w →
    ∃ b : ℝ, shown "yaw_err" (w.repr name) = [.deg (.fin 0), .deg (.fin b)] ∧ ∃ k : ℤ, b = 180 + 360 * k := by
  intro w e_w
  have m2 := memory_wind mini h (WT.new R hub shaft vert U0 L G M)
  change w.U0_g = lastWind U0 h at m2
  obtain ⟨y1, y2, y3, y4, y5⟩ := C05_last_yaw mini R hub shaft vert U0 L G M h
  intro hU hop
  obtain ⟨z1, -⟩ := C07_opposed_refuted mini R hub shaft vert U0 L G M ho h
    (by rw [show ((WT.new R hub shaft vert U0 L G M).run mini h).U0_g = _ from m2]; exact hU)
    (by rw [show ((WT.new R hub shaft vert U0 L G M).run mini h).U0_g = _ from m2, y2]; exact hop)
  have hn := norm_pos hU
  have hv : V3.dot (lastWind U0 h) vert = 0 := by
    have := (turn_ortho shaft vert (lastYaw h) ho).orth
    rw [hop] at this
    have e : V3.dot (-e_w) vert = -(1 / V3.norm (lastWind U0 h) * V3.dot (lastWind U0 h) vert) := by
      rw [← dot_smul_left]; simp only [e_w, V3.dot, V3.neg_x, V3.neg_y, V3.neg_z]; ring
    rw [e] at this
    have h1 : (1 / V3.norm (lastWind U0 h)) ≠ 0 := by positivity
    rcases mul_eq_zero.1 (neg_eq_zero.1 this) with q | q
    · exact absurd q h1
    · exact q
  have hhor : horizontal vert (lastWind U0 h) = lastWind U0 h := by
    unfold horizontal; rw [hv]; ext <;> simp
  obtain ⟨yw, w1, w2, w3, w4⟩ := C06_yaw_wind mini R hub shaft vert U0 L G M ho h (by
    rw [show ((WT.new R hub shaft vert U0 L G M).run mini h).U0_g = _ from m2, hhor]; exact hU)
  rw [show ((WT.new R hub shaft vert U0 L G M).run mini h).U0_g = _ from m2, hhor] at w4
  obtain ⟨s1, -, -⟩ := angles_shown name w 0 yw z1 w1
  rw [show w.yaw_pos = _ from y1] at s1
  have hpi : turn vert Real.pi e_w = -e_w := by
    have he : V3.dot e_w vert = 0 := by simp only [e_w, dot_smul_left, hv, mul_zero]
    unfold turn
    rw [dot_comm, he]
    ext <;> simp
  have e1 : turn vert (lastYaw h) shaft = turn vert (Real.pi + yw) shaft := by
    rw [← turn_turn shaft vert Real.pi yw ho, w4, hpi]; exact hop
  obtain ⟨k, hk⟩ := turn_inj shaft vert _ _ ho e1
  refine ⟨(lastYaw h - yw) * 180 / Real.pi, by rw [s1]; simp, k, ?_⟩
  have hp := Real.pi_ne_zero
  field_simp
  linarith

/-- C155: the two angles printed with the same label can differ: after `update_yaw_pos(2*np.pi)` the default turbine in an
aligned wind prints `yaw_err: 0 deg` and `yaw_err: 360 deg`. -/
theorem C155_two_errors_refuted (mini : (ℝ → Num) → ℝ) (R : ℝ) (hub : V3 ℝ) (L : Option Num) (G : Bool) (M name : String) :
    shown "yaw_err" (((WT.new R hub ⟨0,0,1⟩ ⟨0,1,0⟩ ⟨0,0,10⟩ L G M).run mini [.yaw (2 * Real.pi)]).repr name) =
      [.deg (.fin 0), .deg (.fin 360)] := by
  have hn : V3.norm (⟨0,0,10⟩ : V3 ℝ) = 10 := by
    rw [norm_eq_sqrt_dot]; simp only [V3.dot]
    rw [show (0*0+0*0+10*10 : ℝ) = 10^2 by norm_num, Real.sqrt_sq (by norm_num)]
  have hw : lastWind ⟨0,0,10⟩ [.yaw (2 * Real.pi)] = (⟨0,0,10⟩ : V3 ℝ) := rfl
  have hy : lastYaw [.yaw (2 * Real.pi)] = 2 * Real.pi := by simp [lastYaw]
  have ht : turn ⟨0,1,0⟩ (2 * Real.pi) (⟨0,0,1⟩ : V3 ℝ) = ⟨0,0,1⟩ := by
    unfold turn; ext <;> simp [V3.cross, V3.dot]
  have he : V3.smul (1 / 10) (⟨0,0,10⟩ : V3 ℝ) = ⟨0,0,1⟩ := by ext <;> simp
  obtain ⟨a, b, c, h1, -, -, h2, h3, h4, h5, h6, h7, h8, -, -⟩ := C155_two_errors_partial mini R hub ⟨0,0,1⟩ ⟨0,1,0⟩ ⟨0,0,10⟩ L G M name
    default_orthonormal [.yaw (2 * Real.pi)]
    (by rw [hw]; intro e; have := congrArg V3.z e; norm_num at this)
    (by rw [hw]; simp [V3.dot])
    (by rw [hw, hy, ht, hn, he]; intro e; have := congrArg V3.z e; norm_num at this)
  rw [hw, hn, he] at h4 h7
  rw [hy, ht] at h4
  rw [hy] at h8
  have zero : ∀ t : ℝ, -180 < t → t ≤ 180 → turn ⟨0,1,0⟩ (t * Real.pi / 180) (⟨0,0,1⟩ : V3 ℝ) = ⟨0,0,1⟩ → t = 0 := by
    intro t t1 t2 e
    have hz := congrArg V3.z e
    simp [turn, V3.cross, V3.dot] at hz
    have hp := Real.pi_pos
    have := (Real.cos_eq_one_iff_of_lt_of_lt (x := t * Real.pi / 180) (by nlinarith) (by nlinarith)).1 hz
    have h0 : t * Real.pi = 0 := by linarith
    rcases mul_eq_zero.1 h0 with q | q
    · exact q
    · exact absurd q hp.ne'
  rw [h1, zero a h2 h3.le h4]
  have hb : b = 360 := by
    rw [h8, zero c h5 h6 h7]
    have hp := Real.pi_ne_zero
    field_simp; norm_num
  rw [hb]

/-- C155: the short description is the beginning of the long one, and the long one is what `print` shows -/
theorem C155_short (name : String) (w : WT) : w.tostring name true <+: w.repr name := by
  unfold WT.repr WT.tostring
  simp only [if_true, List.append_nil]
  exact List.prefix_append _ _

/-- C155: a farm prints, after any history, the number of its turbines and their current hub positions in the order of the
list, and printing changes neither the list nor any turbine; if an object that is not a turbine has entered the list, printing
raises and changes nothing. -/
theorem C155_farm (mini : (ℝ → Num) → ℝ) (items : List PyObj) (wt : ℕ → WT) (h : List FOp) (name : String) :
    let q := frun mini items wt h
    let r := farmRepr name q.1 q.2
    (∀ ts : List ℕ, q.1 = ts.map .turbine → ∃ l, r.1 = .ok l ∧ shown "Number of turbines" l = [.count ts.length] ∧
      shown "layout" l = [.rows (ts.map fun t => (q.2.get t).r_hub)]) ∧
    (PyObj.other ∈ q.1 → r.1 = .error "AttributeError") ∧ ∀ t, r.2.get t = q.2.get t := by
  have hfr := fresh_run mini items wt h
  revert hfr
  generalize frun mini items wt h = q
  intro hfr q' r
  have err : ∀ f : List PyObj, PyObj.other ∈ f → layoutRows q.2 f = .error "AttributeError" := by
    intro f
    induction f with
    | nil => intro hm; exact absurd hm (List.not_mem_nil)
    | cons x f ih =>
      intro hm
      cases x with
      | other => rfl
      | turbine t =>
        have := ih (by simpa using hm)
        simp only [layoutRows, this]
  refine ⟨fun ts hts => ?_, fun hm => ?_, fun t => ?_⟩
  · have e : layoutRows q.2 q.1 = .ok (ts.map q.2.hub) := by rw [show q.1 = _ from hts]; exact layoutRows_turbines q.2 ts
    refine ⟨_, by simp only [r, q', farmRepr, farmTostring, farmLayout, e]; rfl, ?_, ?_⟩
    · simp [shown]; rw [show q.1 = _ from hts, List.length_map]
    · simp [shown, World.get, q']
  · simp only [r, q', farmRepr, farmTostring, farmLayout, err q.1 hm]
  · cases hl : layoutRows q.2 q.1 with
    | error e => simp only [r, q', farmRepr, farmTostring, farmLayout, hl]
    | ok l =>
      simp only [r, q', farmRepr, farmTostring, farmLayout, hl]
      unfold World.get World.hub
      simp only
      cases hv : q.2.view t with
      | none => rfl
      | some b =>
        have := hfr t b.1 b.2 hv
        simp only
        rw [Function.update_of_ne (by omega)]

/-- the hypotheses of `C155_two_errors_partial` are met by a turbine yawed by 0.3 in a side wind, and those of
`C155_two_errors_opposed` by a wind blowing up the shaft -/
example (mini : (ℝ → Num) → ℝ) :
    (lastWind ⟨0,0,10⟩ [Op.yaw 0.3, Op.wind ⟨10,0,0⟩] ≠ 0 ∧ V3.dot (lastWind ⟨0,0,10⟩ [Op.yaw 0.3, Op.wind ⟨10,0,0⟩]) ⟨0,1,0⟩ = 0) ∧
    ∃ b : ℝ, shown "yaw_err" (((WT.new 50 0 ⟨0,0,1⟩ ⟨0,1,0⟩ ⟨0,0,10⟩ none false "VC").run mini [.wind ⟨0,0,-1⟩]).repr "WT1") = [.deg (.fin 0), .deg (.fin b)] ∧
      ∃ k : ℤ, b = 180 + 360 * k := by
  refine ⟨⟨?_, by simp [lastWind, V3.dot]⟩, ?_⟩
  · intro e; have := congrArg V3.x e; norm_num [lastWind] at this
  · have hw : lastWind ⟨0,0,10⟩ [.wind ⟨0,0,-1⟩] = (⟨0,0,-1⟩ : V3 ℝ) := rfl
    have hn : V3.norm (⟨0,0,-1⟩ : V3 ℝ) = 1 := by
      rw [norm_eq_sqrt_dot]; simp [V3.dot]
    refine C155_two_errors_opposed mini 50 0 ⟨0,0,1⟩ ⟨0,1,0⟩ ⟨0,0,10⟩ none false "VC" "WT1" default_orthonormal [.wind ⟨0,0,-1⟩] ?_ ?_
    · rw [hw]; intro e; have := congrArg V3.z e; norm_num at this
    · rw [hw, hn]; ext <;> simp [turn, lastYaw, V3.cross, V3.dot]

/-- a farm of two turbines, and one into which `extend` has put a string -/
example (mini : (ℝ → Num) → ℝ) (wt : ℕ → WT) :
    (frun mini [] wt [.append (.turbine 0), .append (.turbine 1)]).1 = [0, 1].map .turbine ∧
    PyObj.other ∈ (frun mini [] wt [.inherited fun l => l ++ [.other]]).1 := by
  constructor <;> simp [frun, fstep, farmNew, farmAppend]

end
end Wiz
