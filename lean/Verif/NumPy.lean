import Verif.Num

/-!
# The NumPy functions used by wiz

Models of the NumPy library functions `wiz` calls (external code, read from the NumPy
documentation; only used with finite real grids unless stated otherwise).
-/

namespace Wiz
noncomputable section
open Classical

/-- `np.linspace(a,b,n)` (endpoint included).  For `n=1` NumPy returns `[a]`, which is
what the formula gives since the only index is `0`. -/
def linspace (a b : ℝ) (n : ℕ) : List ℝ :=
  (List.range n).map fun i : ℕ => a + (i : ℝ) * ((b - a) / ((n : ℝ) - 1))

/-- `np.trapz(y,x)`: trapezoidal rule over the consecutive samples. -/
def trapz : List Num → List ℝ → Num
  | y0 :: y1 :: ys, x0 :: x1 :: xs =>
      Num.fin (x1 - x0) * (y0 + y1) / 2 + trapz (y1 :: ys) (x1 :: xs)
  | _, _ => 0

/-- `np.sum` of a 1-d array. -/
def npSum (l : List Num) : Num := l.foldr (· + ·) 0

/-- `np.mean` of a 1-d array (`nan` for the empty array). -/
def npMean (l : List Num) : Num := npSum l / Num.fin (l.length : ℝ)

/-- `np.cumsum`. -/
def cumsumAux : Num → List Num → List Num
  | _, [] => []
  | s, x :: xs => (s + x) :: cumsumAux (s + x) xs
/-- `np.cumsum` of a 1-d array. -/
def cumsum (l : List Num) : List Num := cumsumAux 0 l

end

/-! ### 3-vectors and 3×3 matrices (np.dot, np.cross, column_stack, .T) -/

/-- `np.dot` of two 3-vectors. -/
def V3.dot {α} [Add α] [Mul α] (a b : V3 α) : α := a.x * b.x + a.y * b.y + a.z * b.z
/-- `np.cross` of two 3-vectors. -/
def V3.cross {α} [Sub α] [Mul α] (a b : V3 α) : V3 α :=
  ⟨a.y * b.z - a.z * b.y, a.z * b.x - a.x * b.z, a.x * b.y - a.y * b.x⟩
/-- scalar times vector. -/
def V3.smul {α} [Mul α] (s : α) (a : V3 α) : V3 α := ⟨s * a.x, s * a.y, s * a.z⟩
/-- difference of vectors. -/
instance {α} [Sub α] : Sub (V3 α) := ⟨fun a b => ⟨a.x - b.x, a.y - b.y, a.z - b.z⟩⟩
/-- division by a scalar. -/
def V3.sdiv {α} [Div α] (a : V3 α) (s : α) : V3 α := ⟨a.x / s, a.y / s, a.z / s⟩
/-- opposite vector. -/
instance {α} [Neg α] : Neg (V3 α) := ⟨fun a => ⟨-a.x, -a.y, -a.z⟩⟩
/-- `v - s` where NumPy broadcasts the scalar `s` to the three components. -/
def V3.subScalar {α} [Sub α] (a : V3 α) (s : α) : V3 α := ⟨a.x - s, a.y - s, a.z - s⟩

@[simp] theorem V3.sub_x {α} [Sub α] (a b : V3 α) : (a - b).x = a.x - b.x := rfl
@[simp] theorem V3.sub_y {α} [Sub α] (a b : V3 α) : (a - b).y = a.y - b.y := rfl
@[simp] theorem V3.sub_z {α} [Sub α] (a b : V3 α) : (a - b).z = a.z - b.z := rfl
@[simp] theorem V3.neg_x {α} [Neg α] (a : V3 α) : (-a).x = -a.x := rfl
@[simp] theorem V3.neg_y {α} [Neg α] (a : V3 α) : (-a).y = -a.y := rfl
@[simp] theorem V3.neg_z {α} [Neg α] (a : V3 α) : (-a).z = -a.z := rfl
@[simp] theorem V3.smul_x {α} [Mul α] (s : α) (a : V3 α) : (V3.smul s a).x = s * a.x := rfl
@[simp] theorem V3.smul_y {α} [Mul α] (s : α) (a : V3 α) : (V3.smul s a).y = s * a.y := rfl
@[simp] theorem V3.smul_z {α} [Mul α] (s : α) (a : V3 α) : (V3.smul s a).z = s * a.z := rfl
@[simp] theorem V3.fin_x (v : V3 ℝ) : (V3.fin v).x = Num.fin v.x := rfl
@[simp] theorem V3.fin_y (v : V3 ℝ) : (V3.fin v).y = Num.fin v.y := rfl
@[simp] theorem V3.fin_z (v : V3 ℝ) : (V3.fin v).z = Num.fin v.z := rfl

/-- matrix times vector (`np.dot(M,v)`). -/
def M3.mulVec {α} [Add α] [Mul α] (M : M3 α) (v : V3 α) : V3 α :=
  ⟨M.xx * v.x + M.xy * v.y + M.xz * v.z,
   M.yx * v.x + M.yy * v.y + M.yz * v.z,
   M.zx * v.x + M.zy * v.y + M.zz * v.z⟩
/-- transposed matrix. -/
def M3.transpose {α} (M : M3 α) : M3 α := ⟨M.xx, M.yx, M.zx, M.xy, M.yy, M.zy, M.xz, M.yz, M.zz⟩
/-- matrix product (`np.dot(A,B)`). -/
def M3.mul {α} [Add α] [Mul α] (A B : M3 α) : M3 α :=
  ⟨A.xx*B.xx + A.xy*B.yx + A.xz*B.zx, A.xx*B.xy + A.xy*B.yy + A.xz*B.zy, A.xx*B.xz + A.xy*B.yz + A.xz*B.zz,
   A.yx*B.xx + A.yy*B.yx + A.yz*B.zx, A.yx*B.xy + A.yy*B.yy + A.yz*B.zy, A.yx*B.xz + A.yy*B.yz + A.yz*B.zz,
   A.zx*B.xx + A.zy*B.yx + A.zz*B.zx, A.zx*B.xy + A.zy*B.yy + A.zz*B.zy, A.zx*B.xz + A.zy*B.yz + A.zz*B.zz⟩
/-- `np.column_stack((a,b,c))`. -/
def M3.ofCols {α} (a b c : V3 α) : M3 α := ⟨a.x, b.x, c.x, a.y, b.y, c.y, a.z, b.z, c.z⟩
/-- identity matrix. -/
def M3.id {α} [Zero α] [One α] : M3 α := ⟨1, 0, 0, 0, 1, 0, 0, 0, 1⟩
/-- determinant. -/
def M3.det {α} [Add α] [Sub α] [Mul α] (M : M3 α) : α :=
  M.xx*(M.yy*M.zz - M.yz*M.zy) - M.xy*(M.yx*M.zz - M.yz*M.zx) + M.xz*(M.yx*M.zy - M.yy*M.zx)
/-- real matrix seen as a float matrix. -/
def M3.fin (M : M3 ℝ) : M3 Num :=
  ⟨.fin M.xx, .fin M.xy, .fin M.xz, .fin M.yx, .fin M.yy, .fin M.yz, .fin M.zx, .fin M.zy, .fin M.zz⟩

/-- `np.linalg.norm` of a finite 3-vector. -/
noncomputable def V3.norm (v : V3 ℝ) : ℝ := Real.sqrt (v.x^2 + v.y^2 + v.z^2)
/-- `np.linalg.norm` of a 3-vector of floats. -/
noncomputable def V3.normN (v : V3 Num) : Num := Num.sqrt (v.x^2 + v.y^2 + v.z^2)

end Wiz
