import Mathlib.Analysis.SpecialFunctions.Pow.Real
import Mathlib.Analysis.SpecialFunctions.Trigonometric.Basic
import Mathlib.Analysis.SpecialFunctions.Trigonometric.Inverse
import Mathlib.Analysis.SpecialFunctions.Complex.Arg
import Mathlib.Tactic.Positivity
import Mathlib.Tactic.FieldSimp
import Mathlib.Tactic.Linarith
import Mathlib.Tactic.Ring

/-!
# Numbers

`Num` models a NumPy `float64` *without rounding*: an exact real number, `+inf`, `-inf`
or `nan`, with IEEE-754 style propagation.  Signed zeros are not modelled (a zero divisor
is treated as `+0`).  This is the numeric domain of the whole model: a result `fin v`
certifies that no division by zero or square root of a negative number was met on the
way (those give `inf`/`nan`).
-/

namespace Wiz

open Classical

/-- NumPy float, exact arithmetic. -/
inductive Num where
  | fin (x : ℝ)
  | pinf
  | ninf
  | nan

namespace Num

noncomputable section

instance : Coe ℝ Num := ⟨fin⟩
instance : Zero Num := ⟨fin 0⟩
instance : One Num := ⟨fin 1⟩
instance (n : ℕ) [n.AtLeastTwo] : OfNat Num n := ⟨fin (OfNat.ofNat n)⟩
instance : Inhabited Num := ⟨nan⟩

/-- IEEE negation. -/
def neg : Num → Num
  | fin a => fin (-a)
  | pinf => ninf
  | ninf => pinf
  | nan => nan

/-- IEEE addition (`inf - inf = nan`). -/
def add : Num → Num → Num
  | fin a, fin b => fin (a + b)
  | fin _, pinf => pinf
  | fin _, ninf => ninf
  | pinf, fin _ => pinf
  | ninf, fin _ => ninf
  | pinf, pinf => pinf
  | ninf, ninf => ninf
  | _, _ => nan

/-- `+inf` with the sign of `a`; `nan` when `a = 0` (used for `0 * inf`, `0/0`). -/
def infSign (a : ℝ) : Num := if 0 < a then pinf else if a < 0 then ninf else nan

/-- IEEE multiplication (`0 * inf = nan`). -/
def mul : Num → Num → Num
  | fin a, fin b => fin (a * b)
  | fin a, pinf => infSign a
  | fin a, ninf => infSign (-a)
  | pinf, fin a => infSign a
  | ninf, fin a => infSign (-a)
  | pinf, pinf => pinf
  | ninf, ninf => pinf
  | pinf, ninf => ninf
  | ninf, pinf => ninf
  | nan, _ => nan
  | _, nan => nan

/-- IEEE division (`x/0 = ±inf`, `0/0 = nan`, `x/inf = 0`). -/
def div : Num → Num → Num
  | fin a, fin b => if b = 0 then infSign a else fin (a / b)
  | fin _, pinf => fin 0
  | fin _, ninf => fin 0
  | pinf, fin b => if b < 0 then ninf else pinf
  | ninf, fin b => if b < 0 then pinf else ninf
  | _, _ => nan

instance : Neg Num := ⟨neg⟩
instance : Add Num := ⟨add⟩
instance : Sub Num := ⟨fun a b => add a (neg b)⟩
instance : Mul Num := ⟨mul⟩
instance : Div Num := ⟨div⟩

/-- `x**n` for a literal natural exponent. -/
def npow (x : Num) : ℕ → Num
  | 0 => 1
  | n + 1 => npow x n * x

instance : HPow Num ℕ Num := ⟨npow⟩

/-- `np.sqrt`, also `x**0.5`. -/
def sqrt : Num → Num
  | fin a => if 0 ≤ a then fin (Real.sqrt a) else nan
  | pinf => pinf
  | _ => nan

/-- `x**p` for a non-integer real exponent `p`. -/
def rpow : Num → ℝ → Num
  | fin a, p => if 0 < a then fin (a ^ p) else if a = 0 then (if 0 < p then fin 0 else pinf) else nan
  | pinf, p => if 0 < p then pinf else fin 0
  | ninf, p => if 0 < p then pinf else fin 0
  | nan, _ => nan

/-- `np.abs`. -/
def abs : Num → Num
  | fin a => fin |a|
  | pinf => pinf
  | ninf => pinf
  | nan => nan

/-- `np.sin`, `nan` on non-finite input. -/
def sin : Num → Num
  | fin a => fin (Real.sin a)
  | _ => nan
/-- `np.cos`. -/
def cos : Num → Num
  | fin a => fin (Real.cos a)
  | _ => nan
/-- `np.tan` (poles not hit in exact arithmetic except at odd multiples of pi/2, where a
float never lands; modelled as `nan` there). -/
def tan : Num → Num
  | fin a => if Real.cos a = 0 then nan else fin (Real.tan a)
  | _ => nan
/-- `np.exp`. -/
def exp : Num → Num
  | fin a => fin (Real.exp a)
  | pinf => pinf
  | ninf => fin 0
  | nan => nan
/-- `np.log`. -/
def log : Num → Num
  | fin a => if 0 < a then fin (Real.log a) else if a = 0 then ninf else nan
  | pinf => pinf
  | _ => nan
/-- `np.cosh`. -/
def cosh : Num → Num
  | fin a => fin (Real.cosh a)
  | pinf => pinf
  | ninf => pinf
  | nan => nan
/-- `np.arccos`: `nan` outside `[-1,1]`. -/
def arccos : Num → Num
  | fin a => if -1 ≤ a ∧ a ≤ 1 then fin (Real.arccos a) else nan
  | _ => nan
/-- `np.sign`. -/
def sign : Num → Num
  | fin a => if 0 < a then fin 1 else if a < 0 then fin (-1) else fin 0
  | pinf => fin 1
  | ninf => fin (-1)
  | nan => nan

/-- IEEE `<` (false on `nan`). -/
def Lt : Num → Num → Prop
  | fin a, fin b => a < b
  | fin _, pinf => True
  | ninf, fin _ => True
  | ninf, pinf => True
  | _, _ => False

/-- IEEE `<=` (false on `nan`). -/
def Le : Num → Num → Prop
  | fin a, fin b => a ≤ b
  | fin _, pinf => True
  | ninf, fin _ => True
  | ninf, pinf => True
  | pinf, pinf => True
  | ninf, ninf => True
  | _, _ => False

instance : LT Num := ⟨Lt⟩
instance : LE Num := ⟨Le⟩

/-- IEEE `==` (false on `nan`). -/
def Eqv : Num → Num → Prop
  | fin a, fin b => a = b
  | pinf, pinf => True
  | ninf, ninf => True
  | _, _ => False

/-- The value is an ordinary (finite) number. -/
def IsFin (a : Num) : Prop := ∃ x : ℝ, a = fin x

/-! ### Simplification lemmas: finite numbers compute like reals -/

@[simp] theorem zero_def : (0 : Num) = fin 0 := rfl
@[simp] theorem one_def : (1 : Num) = fin 1 := rfl
@[simp] theorem ofNat_def (n : ℕ) [n.AtLeastTwo] : (OfNat.ofNat n : Num) = fin (OfNat.ofNat n) := rfl
@[simp] theorem fin_inj {a b : ℝ} : fin a = fin b ↔ a = b := by
  constructor
  · intro h; injection h
  · rintro rfl; rfl
@[simp] theorem fin_add (a b : ℝ) : fin a + fin b = fin (a + b) := rfl
@[simp] theorem fin_neg (a : ℝ) : -fin a = fin (-a) := rfl
@[simp] theorem fin_sub (a b : ℝ) : fin a - fin b = fin (a - b) := by
  change add (fin a) (neg (fin b)) = _
  simp [add, neg, sub_eq_add_neg]
@[simp] theorem fin_mul (a b : ℝ) : fin a * fin b = fin (a * b) := rfl
theorem fin_div {a b : ℝ} (hb : b ≠ 0) : fin a / fin b = fin (a / b) := by
  change div _ _ = _
  simp [div, hb]
theorem fin_div_zero (a : ℝ) : fin a / fin 0 = infSign a := by
  change div _ _ = _
  simp [div]
@[simp] theorem fin_pow (a : ℝ) (n : ℕ) : fin a ^ n = fin (a ^ n) := by
  change npow _ _ = _
  induction n with
  | zero => simp [npow]
  | succ n ih => rw [npow, ih, fin_mul, pow_succ]
theorem sqrt_fin {a : ℝ} (ha : 0 ≤ a) : sqrt (fin a) = fin (Real.sqrt a) := by simp [sqrt, ha]
theorem sqrt_fin_neg {a : ℝ} (ha : a < 0) : sqrt (fin a) = nan := by simp [sqrt, not_le.mpr ha]
theorem rpow_fin {a : ℝ} (p : ℝ) (ha : 0 < a) : rpow (fin a) p = fin (a ^ p) := by simp [rpow, ha]
@[simp] theorem abs_fin (a : ℝ) : abs (fin a) = fin |a| := rfl
@[simp] theorem sin_fin (a : ℝ) : sin (fin a) = fin (Real.sin a) := rfl
@[simp] theorem cos_fin (a : ℝ) : cos (fin a) = fin (Real.cos a) := rfl
@[simp] theorem exp_fin (a : ℝ) : exp (fin a) = fin (Real.exp a) := rfl
@[simp] theorem cosh_fin (a : ℝ) : cosh (fin a) = fin (Real.cosh a) := rfl
@[simp] theorem lt_fin {a b : ℝ} : (fin a < fin b) ↔ a < b := Iff.rfl
@[simp] theorem le_fin {a b : ℝ} : (fin a ≤ fin b) ↔ a ≤ b := Iff.rfl
@[simp] theorem eqv_fin {a b : ℝ} : Eqv (fin a) (fin b) ↔ a = b := Iff.rfl
@[simp] theorem nan_lt (a : Num) : ¬ (nan < a) := by
  intro h; change Lt nan a at h; cases a <;> simp [Lt] at h
@[simp] theorem lt_nan (a : Num) : ¬ (a < nan) := by
  intro h; change Lt a nan at h; cases a <;> simp [Lt] at h
@[simp] theorem isFin_fin (a : ℝ) : IsFin (fin a) := ⟨a, rfl⟩
@[simp] theorem not_isFin_nan : ¬ IsFin nan := by rintro ⟨x, h⟩; cases h
@[simp] theorem not_isFin_pinf : ¬ IsFin pinf := by rintro ⟨x, h⟩; cases h
@[simp] theorem not_isFin_ninf : ¬ IsFin ninf := by rintro ⟨x, h⟩; cases h
@[simp] theorem eqv_pinf_pinf : Eqv pinf pinf := trivial
@[simp] theorem not_eqv_fin_pinf (a : ℝ) : ¬ Eqv (fin a) pinf := fun h => h
@[simp] theorem nan_add (a : Num) : nan + a = nan := by cases a <;> rfl
@[simp] theorem add_nan (a : Num) : a + nan = nan := by cases a <;> rfl
@[simp] theorem nan_mul (a : Num) : nan * a = nan := by cases a <;> rfl
@[simp] theorem mul_nan (a : Num) : a * nan = nan := by cases a <;> rfl
@[simp] theorem nan_div (a : Num) : nan / a = nan := by cases a <;> rfl
@[simp] theorem neg_nan : -nan = nan := rfl
@[simp] theorem nan_sub (a : Num) : nan - a = nan := by cases a <;> rfl
@[simp] theorem sub_nan (a : Num) : a - nan = nan := by cases a <;> rfl
@[simp] theorem sqrt_nan : sqrt nan = nan := rfl

protected theorem add_comm' (a b : Num) : a + b = b + a := by
  cases a <;> cases b <;> first | rfl | (simp [add_comm])

protected theorem add_assoc' (a b c : Num) : a + b + c = a + (b + c) := by
  cases a <;> cases b <;> cases c <;> first | rfl | (simp [add_assoc])

protected theorem zero_add' (a : Num) : 0 + a = a := by
  cases a <;> first | rfl | simp

/-- Addition of NumPy floats (without rounding) is commutative and associative,
including on `inf` and `nan`. -/
instance : AddCommMonoid Num where
  add := (· + ·)
  add_assoc := Num.add_assoc'
  zero := 0
  zero_add := Num.zero_add'
  add_zero a := by rw [Num.add_comm', Num.zero_add']
  add_comm := Num.add_comm'
  nsmul := nsmulRec

protected theorem mul_comm' (a b : Num) : a * b = b * a := by
  cases a <;> cases b <;> first | rfl | (simp [mul_comm])

theorem IsFin.add {a b : Num} (ha : IsFin a) (hb : IsFin b) : IsFin (a + b) := by
  obtain ⟨x, rfl⟩ := ha; obtain ⟨y, rfl⟩ := hb; exact ⟨x + y, rfl⟩
theorem IsFin.mul {a b : Num} (ha : IsFin a) (hb : IsFin b) : IsFin (a * b) := by
  obtain ⟨x, rfl⟩ := ha; obtain ⟨y, rfl⟩ := hb; exact ⟨x * y, rfl⟩

/-- Value of a finite number (`0` on `inf`/`nan`; only used together with `IsFin`). -/
def toReal : Num → ℝ
  | fin a => a
  | _ => 0
@[simp] theorem toReal_fin (a : ℝ) : toReal (fin a) = a := rfl

end

end Num

/-- Triples of coordinates or velocity components. -/
@[ext] structure V3 (α : Type) where
  x : α
  y : α
  z : α

/-- 3×3 matrices, row by row (`xy` is row 0, column 1). -/
@[ext] structure M3 (α : Type) where
  xx : α
  xy : α
  xz : α
  yx : α
  yy : α
  yz : α
  zx : α
  zy : α
  zz : α

/-- Componentwise sum of velocities (`ux+=ux1; uy+=uy1; uz+=uz1`). -/
instance {α} [Add α] : Add (V3 α) := ⟨fun a b => ⟨a.x + b.x, a.y + b.y, a.z + b.z⟩⟩
instance {α} [Zero α] : Zero (V3 α) := ⟨⟨0, 0, 0⟩⟩

@[simp] theorem V3.add_x {α} [Add α] (a b : V3 α) : (a + b).x = a.x + b.x := rfl
@[simp] theorem V3.add_y {α} [Add α] (a b : V3 α) : (a + b).y = a.y + b.y := rfl
@[simp] theorem V3.add_z {α} [Add α] (a b : V3 α) : (a + b).z = a.z + b.z := rfl
@[simp] theorem V3.zero_x {α} [Zero α] : (0 : V3 α).x = 0 := rfl
@[simp] theorem V3.zero_y {α} [Zero α] : (0 : V3 α).y = 0 := rfl
@[simp] theorem V3.zero_z {α} [Zero α] : (0 : V3 α).z = 0 := rfl

instance {α} [AddCommMonoid α] : AddCommMonoid (V3 α) where
  add := (· + ·)
  add_assoc a b c := by ext <;> simp [add_assoc]
  zero := 0
  zero_add a := by ext <;> simp
  add_zero a := by ext <;> simp
  add_comm a b := by ext <;> simp [add_comm]
  nsmul := nsmulRec

/-- The velocity is made of ordinary numbers. -/
def V3.IsFin (v : V3 Num) : Prop := v.x.IsFin ∧ v.y.IsFin ∧ v.z.IsFin

/-- A real vector seen as a vector of floats. -/
def V3.fin (v : V3 ℝ) : V3 Num := ⟨Num.fin v.x, Num.fin v.y, Num.fin v.z⟩

end Wiz
