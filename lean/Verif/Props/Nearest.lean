import Verif.Model.Blockage

/-! # C89: nearest grid point and the data read through it -/
namespace Wiz
open Classical

theorem argminFrom_spec (f : ℕ → ℝ) : ∀ (l : List ℝ) (i b : ℕ) (m : ℝ), (∀ k x, l[k]? = some x → f (i + k) = x) → f b = m → b < i →
    (∀ k < i, m ≤ f k) → (∀ k < b, m < f k) →
    let r := argminFrom i b m l
    r < i + l.length ∧ (∀ k < i + l.length, f r ≤ f k) ∧ ∀ k < r, f r < f k := by
  intro l
  induction l with
  | nil =>
    intro i b m _ hb hbi h1 h2 r
    simp only [List.length_nil, add_zero]
    exact ⟨hbi, fun k hk => by rw [show f r = m from hb]; exact h1 k hk, fun k hk => by rw [show f r = m from hb]; exact h2 k hk⟩
  | cons x xs ih =>
    intro i b m hf hb hbi h1 h2
    have hx : f i = x := by simpa using hf 0 x (by simp)
    have hf' : ∀ k y, xs[k]? = some y → f (i + 1 + k) = y := by
      intro k y hk
      have := hf (k + 1) y (by simpa using hk)
      rw [← this]; congr 1; omega
    unfold argminFrom
    have e : i + (x :: xs).length = i + 1 + xs.length := by simp; omega
    rw [e]
    by_cases hxm : x < m
    · rw [if_pos hxm]
      apply ih (i + 1) i x hf' hx (by omega)
      · intro k hk
        rcases Nat.lt_succ_iff_lt_or_eq.mp hk with h | h
        · exact (hxm.trans_le (h1 k h)).le
        · rw [h, hx]
      · intro k hk; exact hxm.trans_le (h1 k hk)
    · rw [if_neg hxm]
      apply ih (i + 1) b m hf' hb (by omega)
      · intro k hk
        rcases Nat.lt_succ_iff_lt_or_eq.mp hk with h | h
        · exact h1 k h
        · rw [h, hx]; exact not_lt.mp hxm
      · exact h2

/-- C89: `find_nearest(array,value)` returns an entry of the array and its index; no entry is nearer to the
value, and every earlier entry is strictly farther (the first of several nearest entries is taken).  It fails
exactly on an empty array. -/
theorem C89_find_nearest (a : List ℝ) (v : ℝ) :
    ((∃ e, findNearest a v = .error e) ↔ a = []) ∧
    (∀ x i, findNearest a v = .ok (x, i) → a[i]? = some x ∧ (∀ y ∈ a, |x - v| ≤ |y - v|) ∧
      ∀ j < i, ∀ y, a[j]? = some y → |x - v| < |y - v|) := by
  cases a with
  | nil =>
    have h : findNearest [] v = .error "ValueError: attempt to get argmin of an empty sequence" := rfl
    rw [h]
    exact ⟨⟨fun _ => rfl, fun _ => ⟨_, rfl⟩⟩, fun _ _ h => nomatch h⟩
  | cons x0 xs =>
    let a := x0 :: xs
    let f : ℕ → ℝ := fun k => |a.getD k 0 - v|
    have hval : findNearest a v = .ok (a.getD (argminFrom 1 0 |x0 - v| (xs.map fun x => |x - v|)) 0, argminFrom 1 0 |x0 - v| (xs.map fun x => |x - v|)) := rfl
    obtain ⟨h1, h2, h3⟩ := argminFrom_spec f (xs.map fun x => |x - v|) 1 0 |x0 - v|
      (by
        intro k y hk
        simp only [List.getElem?_map, Option.map_eq_some_iff] at hk
        obtain ⟨z, hz, rfl⟩ := hk
        show |(x0 :: xs).getD (1 + k) 0 - v| = _
        rw [Nat.add_comm, List.getD_cons_succ, List.getD_eq_getElem?_getD, hz]; rfl)
      rfl one_pos (by intro k hk; have : k = 0 := by omega
                      subst this; exact le_refl _) (by intro k hk; omega)
    generalize argminFrom 1 0 |x0 - v| (xs.map fun x => |x - v|) = r at *
    have hlen : 1 + (xs.map fun x => |x - v|).length = a.length := by simp [a]; omega
    rw [hlen] at h1 h2
    refine ⟨⟨fun ⟨e, he⟩ => (by rw [hval] at he; cases he), fun h => (by cases h)⟩, ?_⟩
    intro x i h
    rw [hval] at h
    have h := Except.ok.inj h
    simp only [Prod.mk.injEq] at h
    obtain ⟨rfl, rfl⟩ := h
    refine ⟨?_, ?_, ?_⟩
    · show a[r]? = _
      rw [List.getElem?_eq_getElem h1, List.getD_eq_getElem?_getD, List.getElem?_eq_getElem h1]; rfl
    · intro y hy
      obtain ⟨k, hk, rfl⟩ := List.mem_iff_getElem.mp hy
      have := h2 k hk
      show f r ≤ _
      convert this using 1
      show |a[k] - v| = |a.getD k 0 - v|
      rw [List.getD_eq_getElem?_getD, List.getElem?_eq_getElem hk]; rfl
    · intro j hj y hy
      have := h3 j hj
      show f r < _
      convert this using 1
      show |y - v| = |a.getD j 0 - v|
      rw [List.getD_eq_getElem?_getD, hy]; rfl

/-- `find_nearest` on a grid that contains the value once -/
theorem nearest_node (a : List ℝ) (v : ℝ) (hd : a.Nodup) (i : ℕ) (hi : a[i]? = some v) : findNearest a v = .ok (v, i) := by
  obtain ⟨h1, h2⟩ := C89_find_nearest a v
  cases hf : findNearest a v with
  | error e =>
    have := h1.mp ⟨e, hf⟩
    rw [this] at hi; exact nomatch hi
  | ok q =>
    obtain ⟨x, j⟩ := q
    obtain ⟨e1, e2, -⟩ := h2 x j hf
    have hv := e2 v (List.mem_of_getElem? hi)
    rw [sub_self, abs_zero] at hv
    have hx : x = v := by
      have := abs_nonneg (x - v)
      have : |x - v| = 0 := le_antisymm hv this
      linarith [abs_eq_zero.mp this]
    subst hx
    have : j = i := by
      obtain ⟨hj, ej⟩ := List.getElem?_eq_some_iff.mp e1
      obtain ⟨hi', ei⟩ := List.getElem?_eq_some_iff.mp hi
      exact (List.Nodup.getElem_inj_iff hd).mp (ej.trans ei.symm)
    rw [this]

/-- C89: on a plane whose grid contains the axis and the rotor plane, `fCenter` reads the axial velocity stored at
that node: column of `x=0` (of `y=0` on a vertical plane), row of `z=0`. -/
theorem C89_center (ad : OutputAD) (ix iz : ℕ) (w : ℝ) (row : List ℝ)
    (hx : (if ad.case.Horizontal then ad.x else ad.y).Nodup) (hx0 : (if ad.case.Horizontal then ad.x else ad.y)[ix]? = some 0)
    (hz : ad.z.Nodup) (hz0 : ad.z[iz]? = some 0) (hrow : ad.W[iz]? = some row) (hw : row[ix]? = some w) :
    ad.fCenter = .ok w := by
  unfold OutputAD.fCenter
  rw [nearest_node _ 0 hx ix hx0]
  simp only
  rw [nearest_node _ 0 hz iz hz0]
  simp only
  unfold matGet
  rw [hrow]
  simp only
  rw [hw]

theorem interp1_first (x : ℝ) (v : Num) (l : List (ℝ × Num)) (h : ∀ q ∈ l, x < q.1) (hv : ∃ a, v = .fin a)
    (hl : ∀ q ∈ l, ∃ a, q.2 = .fin a) : interp1 x ((x, v) :: l) = v := by
  cases l with
  | nil => rfl
  | cons q t =>
    unfold interp1
    rw [if_neg (lt_irrefl x), if_pos (h q (by simp))]
    obtain ⟨a, rfl⟩ := hv
    obtain ⟨b, hb⟩ := hl q (by simp)
    have hq := h q (by simp)
    rw [hb]
    show (Num.fin b - Num.fin a) / Num.fin (q.1 - x) * Num.fin (x - x) + Num.fin a = _
    rw [Num.fin_sub, Num.fin_div (by linarith), Num.fin_mul, Num.fin_add]
    congr 1; ring

/-- `np.interp` reproduces the data at the nodes -/
theorem interp1_node (X : List ℝ) (hX : X.Pairwise (· < ·)) : ∀ (U : List ℝ) (k : ℕ) (x u : ℝ), X[k]? = some x → U[k]? = some u →
    interp1 x (List.zip X (U.map .fin)) = .fin u := by
  induction X with
  | nil => intro U k x u h _; exact nomatch h
  | cons p X ih =>
    intro U k x u hx hu
    have hp := List.pairwise_cons.mp hX
    cases U with
    | nil => exact nomatch hu
    | cons q U =>
      cases k with
      | zero =>
        simp only [List.getElem?_cons_zero, Option.some.injEq] at hx hu
        subst hx; subst hu
        rw [List.map_cons, List.zip_cons_cons]
        apply interp1_first
        · intro r hr; exact hp.1 _ (List.of_mem_zip hr).1
        · exact ⟨_, rfl⟩
        · intro r hr
          obtain ⟨a, -, ha⟩ := List.mem_map.mp (List.of_mem_zip hr).2
          exact ⟨a, ha.symm⟩
      | succ k =>
        simp only [List.getElem?_cons_succ] at hx hu
        have hpx : p < x := hp.1 x (List.mem_of_getElem? hx)
        have hrec := ih hp.2 U k x u hx hu
        rw [List.map_cons, List.zip_cons_cons]
        have hne : ∃ q' t, List.zip X (U.map Num.fin) = q' :: t := by
          cases X with
          | nil => exact nomatch hx
          | cons a X => cases U with
            | nil => exact nomatch hu
            | cons b U => exact ⟨_, _, rfl⟩
        obtain ⟨q', t, he⟩ := hne
        rw [he] at hrec ⊢
        have hq' : q'.1 ≤ x := by
          cases X with
          | nil => exact nomatch hx
          | cons a X => cases U with
            | nil => exact nomatch hu
            | cons b U =>
              simp only [List.map_cons, List.zip_cons_cons, List.cons.injEq] at he
              rw [← he.1]
              cases k with
              | zero => simp at hx; exact hx.le
              | succ k =>
                simp only [List.getElem?_cons_succ] at hx
                exact ((List.pairwise_cons.mp hp.2).1 x (List.mem_of_getElem? hx)).le
        show (if x < p then _ else if x < q'.1 then _ else interp1 x (q' :: t)) = _
        rw [if_neg (not_lt.mpr hpx.le), if_neg (not_lt.mpr hq'), hrec]

/-- C89: on the axis `fAxial` returns the stored velocities at the heights of the grid: for a grid column `i0`
on the axis whose heights increase, the velocity at the height of row `k` is that of the node. -/
theorem C89_axial (ad : OutputAD) (i0 k : ℕ) (z u v w : ℝ) (rz ru rv rw : List ℝ)
    (hx : (if ad.case.Horizontal then ad.x else ad.y).Nodup) (hx0 : (if ad.case.Horizontal then ad.x else ad.y)[i0]? = some 0)
    (hinc : (ad.Z.map fun row => row.getD i0 0).Pairwise (· < ·))
    (hz : ad.Z[k]? = some rz ∧ rz[i0]? = some z) (hu : ad.U[k]? = some ru ∧ ru[i0]? = some u)
    (hv : ad.V[k]? = some rv ∧ rv[i0]? = some v) (hw : ad.W[k]? = some rw ∧ rw[i0]? = some w) :
    ad.fAxial z = .ok (V3.fin ⟨u, v, w⟩) := by
  unfold OutputAD.fAxial
  rw [nearest_node _ 0 hx i0 hx0]
  have key : ∀ (M : List (List ℝ)) (r : List ℝ) (m : ℝ), M[k]? = some r ∧ r[i0]? = some m →
      interp1 z (List.zip (matCol ad.Z i0) ((matCol M i0).map .fin)) = .fin m := by
    intro M r m hm
    apply interp1_node _ hinc _ k
    · simp [hz.1, List.getD_eq_getElem?_getD, hz.2]
    · simp [matCol, hm.1, List.getD_eq_getElem?_getD, hm.2]
  simp only [key _ _ _ hu, key _ _ _ hv, key _ _ _ hw]
  rfl

/-- C89: `fRadial` at a grid height `z0` returns the stored velocities at the radii of the grid row. -/
theorem C89_radial (ad : OutputAD) (iz k : ℕ) (r z0 u v w : ℝ) (rx ru rv rw : List ℝ)
    (hz : ad.z.Nodup) (hz0 : ad.z[iz]? = some z0)
    (hx : (if ad.case.Horizontal then ad.X else ad.Y)[iz]? = some rx) (hinc : rx.Pairwise (· < ·)) (hr : rx[k]? = some r)
    (hu : ad.U[iz]? = some ru ∧ ru[k]? = some u) (hv : ad.V[iz]? = some rv ∧ rv[k]? = some v) (hw : ad.W[iz]? = some rw ∧ rw[k]? = some w) :
    ad.fRadial r z0 = .ok (V3.fin ⟨u, v, w⟩) := by
  unfold OutputAD.fRadial
  rw [nearest_node _ z0 hz iz hz0]
  have e : (if ad.case.Horizontal then ad.X else ad.Y).getD iz [] = rx := by rw [List.getD_eq_getElem?_getD, hx]; rfl
  have key : ∀ (M : List (List ℝ)) (row : List ℝ) (m : ℝ), M[iz]? = some row ∧ row[k]? = some m →
      interp1 r (List.zip rx ((M.getD iz []).map .fin)) = .fin m := by
    intro M row m hm
    have : M.getD iz [] = row := by rw [List.getD_eq_getElem?_getD, hm.1]; rfl
    rw [this]
    exact interp1_node _ hinc _ k _ _ hr hm.2
  simp only [e, key _ _ _ hu, key _ _ _ hv, key _ _ _ hw]
  rfl

/-- a horizontal plane of 2×3 nodes around the rotor centre -/
noncomputable def exampleAD : OutputAD where
  case := ⟨0.8, 9999, .fin 9999, 0, true⟩
  x := [-1, 0, 1]
  y := [0]
  z := [-1, 0]
  X := [[-1, 0, 1], [-1, 0, 1]]
  Y := [[0, 0, 0], [0, 0, 0]]
  Z := [[-1, -1, -1], [0, 0, 0]]
  U := [[1, 2, 3], [4, 5, 6]]
  V := [[0, 0, 0], [0, 0, 0]]
  W := [[0.9, 0.85, 0.9], [0.8, 0.7, 0.8]]

example : exampleAD.fCenter = .ok 0.7 :=
  C89_center exampleAD 1 1 0.7 [0.8, 0.7, 0.8] (by simp [exampleAD]; norm_num) (by simp [exampleAD]) (by simp [exampleAD]) (by simp [exampleAD]) rfl rfl

example : exampleAD.fAxial (-1) = .ok (V3.fin ⟨2, 0, 0.85⟩) :=
  C89_axial exampleAD 1 0 (-1) 2 0 0.85 [-1,-1,-1] [1,2,3] [0,0,0] [0.9,0.85,0.9] (by simp [exampleAD]; norm_num) (by simp [exampleAD])
    (by simp [exampleAD]) ⟨rfl, rfl⟩ ⟨rfl, rfl⟩ ⟨rfl, rfl⟩ ⟨rfl, rfl⟩

example : exampleAD.fRadial 1 0 = .ok (V3.fin ⟨6, 0, 0.8⟩) :=
  C89_radial exampleAD 1 2 1 0 6 0 0.8 [-1,0,1] [4,5,6] [0,0,0] [0.8,0.7,0.8] (by simp [exampleAD]) (by simp [exampleAD])
    (by simp [exampleAD]) (by simp) rfl ⟨rfl, rfl⟩ ⟨rfl, rfl⟩ ⟨rfl, rfl⟩

end Wiz
