import Verif.Props.WindFarm

/-! # Grid layouts and grid farms (C22, C23) -/
namespace Wiz
open Classical

theorem arange1_nat (n : ℕ) : arange1 (n : ℤ) = (List.range n).map fun i : ℕ => (i : ℤ) + 1 := by
  simp [arange1]

/-- the grid cells in the order of the loops: row `i`, column `j` (from 0) -/
def cells (nx nz : ℕ) : List (ℕ × ℕ) := (List.range nz).flatMap fun i => (List.range nx).map fun j => (i, j)

theorem cells_length (nx nz : ℕ) : (cells nx nz).length = nz * nx := by
  simp [cells, List.length_flatMap]

theorem cells_get (nx nz i j : ℕ) (hi : i < nz) (hj : j < nx) : (cells nx nz)[i * nx + j]? = some (i, j) := by
  induction nz with
  | zero => omega
  | succ n ih =>
    have e : cells nx (n + 1) = cells nx n ++ (List.range nx).map fun j => (n, j) := by
      simp [cells, List.range_succ, List.flatMap_append]
    rw [e]
    by_cases h : i < n
    · rw [List.getElem?_append_left, ih h]
      rw [cells_length]
      calc i * nx + j < i * nx + nx := by omega
        _ = (i + 1) * nx := by ring
        _ ≤ n * nx := Nat.mul_le_mul_right _ h
    · have : i = n := by omega
      subst this
      rw [List.getElem?_append_right (by rw [cells_length]; omega), cells_length]
      simp [hj]

/-- lateral coordinate -/
noncomputable def cellX (nx : ℕ) (xS : ℝ) (q : ℕ × ℕ) : ℝ := (((((q.2 : ℤ) + 1) - Int.floor (((nx : ℤ) : ℝ) / 2) - 1 : ℤ)) : ℝ) * xS
/-- longitudinal coordinate -/
noncomputable def cellZ (zS : ℝ) (q : ℕ × ℕ) : ℝ := ((((q.1 : ℤ) + 1) - 1 : ℤ) : ℝ) * zS

theorem foldl_set (fx fy fz : ℕ × ℕ → ℝ) (L : List (ℕ × ℕ)) : ∀ (k : ℕ) (x y z : List ℝ), k + L.length ≤ x.length → y.length = x.length → z.length = x.length →
    L.foldl (fun (s : GridState) q => { k := s.k + 1, x := s.x.set (s.k + 1 - 1) (fx q), y := s.y.set (s.k + 1 - 1) (fy q), z := s.z.set (s.k + 1 - 1) (fz q) }) ⟨k, x, y, z⟩ =
      ⟨k + L.length, x.take k ++ L.map fx ++ x.drop (k + L.length), y.take k ++ L.map fy ++ y.drop (k + L.length), z.take k ++ L.map fz ++ z.drop (k + L.length)⟩ := by
  have one : ∀ (f : ℕ × ℕ → ℝ) (q : ℕ × ℕ) (L : List (ℕ × ℕ)) (k : ℕ) (x : List ℝ), k + (L.length + 1) ≤ x.length →
      (x.set k (f q)).take (k + 1) ++ L.map f ++ (x.set k (f q)).drop (k + 1 + L.length) = x.take k ++ (f q :: L.map f) ++ x.drop (k + (L.length + 1)) := by
    intro f q L k x h
    have e1 : (x.set k (f q)).take (k + 1) = x.take k ++ [f q] := by
      rw [List.take_succ, List.getElem?_set_self (by omega)]
      simp [List.take_set, List.set_eq_of_length_le]
    have e2 : (x.set k (f q)).drop (k + 1 + L.length) = x.drop (k + (L.length + 1)) := by
      rw [List.drop_set_of_lt (by omega)]; congr 1; omega
    rw [e1, e2]
    simp
  induction L with
  | nil => intro k x y z _ _ _; simp
  | cons q L ih =>
    intro k x y z h hy hz
    simp only [List.length_cons] at h
    simp only [List.foldl_cons, Nat.add_sub_cancel]
    have := ih (k + 1) (x.set k (fx q)) (y.set k (fy q)) (z.set k (fz q)) (by simp; omega) (by simp [hy]) (by simp [hz])
    simp only [Nat.add_sub_cancel] at this
    rw [this, one fx q L k x h, one fy q L k y (by omega), one fz q L k z (by omega)]
    simp only [List.map_cons, List.length_cons]
    congr 1
    omega

theorem foldl_flatMap' {α β γ : Type} (f : γ → β → γ) (g : α → List β) (l : List α) : ∀ c, (l.flatMap g).foldl f c = l.foldl (fun c a => (g a).foldl f c) c := by
  induction l with
  | nil => intro c; rfl
  | cons a l ih => intro c; simp [List.flatMap_cons, List.foldl_append, ih]

theorem gridPass_eq (nx nz : ℕ) (xS zS h : ℝ) (k : ℕ) (x y z : List ℝ) (hk : k + nz * nx ≤ x.length) (hy : y.length = x.length) (hz : z.length = x.length) :
    gridPass nx nz xS zS h ⟨k, x, y, z⟩ = ⟨k + nz * nx, x.take k ++ (cells nx nz).map (cellX nx xS) ++ x.drop (k + nz * nx),
      y.take k ++ List.replicate (nz * nx) h ++ y.drop (k + nz * nx), z.take k ++ (cells nx nz).map (cellZ zS) ++ z.drop (k + nz * nx)⟩ := by
  have := foldl_set (cellX nx xS) (fun _ => h) (cellZ zS) (cells nx nz) k x y z (by rw [cells_length]; exact hk) hy hz
  rw [cells_length] at this
  have hr : (cells nx nz).map (fun _ => h) = List.replicate (nz * nx) h := by
    rw [List.map_const', cells_length]
  rw [hr] at this
  rw [← this]
  unfold gridPass
  rw [arange1_nat, arange1_nat, cells, foldl_flatMap', List.foldl_map]
  simp only [List.foldl_map]
  rfl

theorem grid_closed (nx nz : ℕ) (xS zS h : ℝ) (mirror : Bool) :
    gridLayout nx xS nz (some zS) h mirror = .ok
      ((cells nx nz).map (cellX nx xS) ++ (if mirror then (cells nx nz).map (cellX nx xS) else []),
       List.replicate (nz * nx) h ++ (if mirror then List.replicate (nz * nx) (-h) else []),
       (cells nx nz).map (cellZ zS) ++ (if mirror then (cells nx nz).map (cellZ zS) else [])) := by
  unfold gridLayout
  cases mirror
  · simp only [Bool.false_eq_true, if_false]
    have hn : ¬ ((nz : ℤ) * nx * 1 < 0) := not_lt.2 (by positivity)
    have ht : ((nz : ℤ) * nx * 1).toNat = nz * nx := by rw [mul_one]; exact_mod_cast Int.toNat_natCast (nz * nx)
    rw [if_neg hn, ht, gridPass_eq _ _ _ _ _ _ _ _ _ (by simp) (by simp) (by simp)]
    simp
  · simp only [if_true]
    have hn : ¬ ((nz : ℤ) * nx * 2 < 0) := not_lt.2 (by positivity)
    have ht : ((nz : ℤ) * nx * 2).toNat = nz * nx * 2 := by exact_mod_cast Int.toNat_natCast (nz * nx * 2)
    have hcl := cells_length nx nz
    rw [if_neg hn, ht, gridPass_eq _ _ _ _ _ 0 (List.replicate (nz * nx * 2) 0) _ _ (by simp; omega) (by simp) (by simp),
      gridPass_eq]
    have hd : ∀ l l' : List ℝ, l.length = nz * nx → List.take (nz * nx) (l ++ l') = l := by
      intro l l' hl; rw [← hl]; simp
    have e : nz * nx + nz * nx = nz * nx * 2 := by ring
    rotate_left
    · simp [hcl]; omega
    · simp [hcl]
    · simp [hcl]
    simp only [List.take_zero, List.nil_append, zero_add, e]
    rw [hd _ _ (by simp [hcl]), hd _ _ (by simp), hd _ _ (by simp [hcl])]
    have hl : ∀ l : List ℝ, l.length = nz * nx → List.drop (nz * nx * 2) (l ++ List.drop (nz * nx) (List.replicate (nz * nx * 2) (0:ℝ))) = [] := by
      intro l hl; apply List.drop_eq_nil_of_le; simp [hl]; omega
    rw [hl _ (by simp [hcl]), hl _ (by simp), hl _ (by simp [hcl])]
    simp

/-- C22: `gridLayout` places `nz·nx` turbines (twice that with `mirror`); number `i·nx+j` stands at
`((j - ⌊nx/2⌋)·xSpacing, hub_height, i·zSpacing)`, and with `mirror` number `nz·nx+i·nx+j` at the
same place with `-hub_height`. -/
theorem C22_positions (nx nz : ℕ) (xS zS h : ℝ) (mirror : Bool) :
    ∃ x y z, gridLayout nx xS nz (some zS) h mirror = .ok (x, y, z) ∧
      x.length = (if mirror then 2 * (nz * nx) else nz * nx) ∧ y.length = x.length ∧ z.length = x.length ∧
      ∀ i j : ℕ, i < nz → j < nx →
        (x[i * nx + j]? = some (((j : ℝ) - ((nx / 2 : ℕ) : ℝ)) * xS) ∧ y[i * nx + j]? = some h ∧ z[i * nx + j]? = some ((i : ℝ) * zS)) ∧
        (mirror = true → x[nz * nx + (i * nx + j)]? = some (((j : ℝ) - ((nx / 2 : ℕ) : ℝ)) * xS) ∧
          y[nz * nx + (i * nx + j)]? = some (-h) ∧ z[nz * nx + (i * nx + j)]? = some ((i : ℝ) * zS)) := by
  refine ⟨_, _, _, grid_closed nx nz xS zS h mirror, ?_, ?_, ?_, ?_⟩
  · cases mirror <;> simp [cells_length]; ring
  · cases mirror <;> simp [cells_length]
  · cases mirror <;> simp [cells_length]
  · intro i j hi hj
    have hlt : i * nx + j < nz * nx := by
      calc i * nx + j < i * nx + nx := by omega
        _ = (i + 1) * nx := by ring
        _ ≤ nz * nx := Nat.mul_le_mul_right _ hi
    have hx : cellX nx xS (i, j) = ((j : ℝ) - ((nx / 2 : ℕ) : ℝ)) * xS := by
      unfold cellX
      have : Int.floor (((nx : ℤ) : ℝ) / 2) = ((nx / 2 : ℕ) : ℤ) := by
        have := Int.floor_div_natCast ((nx : ℤ) : ℝ) 2
        rw [Int.floor_intCast] at this
        simpa using this
      rw [this]
      rw [Int.cast_sub, Int.cast_sub, Int.cast_add, Int.cast_natCast, Int.cast_natCast, Int.cast_one]
      ring
    have hz : cellZ zS (i, j) = (i : ℝ) * zS := by unfold cellZ; push_cast; ring
    have hc := cells_get nx nz i j hi hj
    constructor
    · refine ⟨?_, ?_, ?_⟩
      · rw [List.getElem?_append_left (by simpa [cells_length] using hlt), List.getElem?_map, hc, Option.map_some, hx]
      · rw [List.getElem?_append_left (by simpa using hlt), List.getElem?_replicate, if_pos hlt]
      · rw [List.getElem?_append_left (by simpa [cells_length] using hlt), List.getElem?_map, hc, Option.map_some, hz]
    · rintro rfl
      simp only [if_true]
      refine ⟨?_, ?_, ?_⟩
      · rw [List.getElem?_append_right (by simp [cells_length]), List.length_map, cells_length, Nat.add_sub_cancel_left, List.getElem?_map, hc, Option.map_some, hx]
      · rw [List.getElem?_append_right (by simp), List.length_replicate, Nat.add_sub_cancel_left, List.getElem?_replicate, if_pos hlt]
      · rw [List.getElem?_append_right (by simp [cells_length]), List.length_map, cells_length, Nat.add_sub_cancel_left, List.getElem?_map, hc, Option.map_some, hz]

theorem index_split (nx nz m : ℕ) (h : m < nz * nx) : ∃ i j, i < nz ∧ j < nx ∧ m = i * nx + j := by
  have hx : 0 < nx := by
    rcases Nat.eq_zero_or_pos nx with h0 | h0
    · subst h0; simp at h
    · exact h0
  refine ⟨m / nx, m % nx, (Nat.div_lt_iff_lt_mul hx).2 h, Nat.mod_lt _ hx, ?_⟩
  rw [Nat.mul_comm]; exact (Nat.div_add_mod m nx).symm

/-- C22: with non-zero spacings (and a non-zero hub height if mirrored) no two turbines stand at the same
place. -/
theorem C22_distinct (nx nz : ℕ) (xS zS h : ℝ) (mirror : Bool) (hxS : xS ≠ 0) (hzS : zS ≠ 0) (hh : mirror = true → h ≠ 0) (x y z : List ℝ)
    (hg : gridLayout nx xS nz (some zS) h mirror = .ok (x, y, z)) (m n : ℕ) (hm : m < x.length) (hn : n < x.length)
    (e1 : x[m]? = x[n]?) (e2 : y[m]? = y[n]?) (e3 : z[m]? = z[n]?) : m = n := by
  obtain ⟨x', y', z', h1, h2, h3, h4, h5⟩ := C22_positions nx nz xS zS h mirror
  rw [hg] at h1
  obtain ⟨rfl, h1'⟩ := Prod.mk.inj (Except.ok.inj h1)
  obtain ⟨rfl, rfl⟩ := Prod.mk.inj h1'
  -- the block (0 or 1), row and column of an index
  have split : ∀ m, m < x.length → ∃ b i j, i < nz ∧ j < nx ∧ m = b * (nz * nx) + (i * nx + j) ∧
      x[m]? = some (((j : ℝ) - ((nx / 2 : ℕ) : ℝ)) * xS) ∧ y[m]? = some (if b = 0 then h else -h) ∧ z[m]? = some ((i : ℝ) * zS) ∧ (b = 0 ∨ (b = 1 ∧ mirror = true)) := by
    intro m hm
    by_cases hlt : m < nz * nx
    · obtain ⟨i, j, hi, hj, rfl⟩ := index_split nx nz m hlt
      obtain ⟨⟨a, b, c⟩, -⟩ := h5 i j hi hj
      exact ⟨0, i, j, hi, hj, by ring, a, by simpa using b, c, .inl rfl⟩
    · cases hmi : mirror with
      | false => rw [hmi] at h2; simp at h2; omega
      | true =>
        rw [hmi] at h2; simp only [if_true] at h2
        obtain ⟨i, j, hi, hj, he⟩ := index_split nx nz (m - nz * nx) (by omega)
        obtain ⟨-, hb⟩ := h5 i j hi hj
        obtain ⟨a, b, c⟩ := hb hmi
        have hm' : m = nz * nx + (i * nx + j) := by omega
        rw [← hm'] at a b c
        exact ⟨1, i, j, hi, hj, by omega, a, by simpa using b, c, .inr ⟨rfl, rfl⟩⟩
  obtain ⟨b, i, j, hi, hj, rfl, a1, a2, a3, hb⟩ := split m hm
  obtain ⟨b', i', j', hi', hj', rfl, a1', a2', a3', hb'⟩ := split n hn
  rw [a1, a1'] at e1
  rw [a2, a2'] at e2
  rw [a3, a3'] at e3
  have f1 := mul_right_cancel₀ hxS (Option.some.inj e1)
  have f3 := mul_right_cancel₀ hzS (Option.some.inj e3)
  have f2 := Option.some.inj e2
  have hj2 : j = j' := by
    have : (j : ℝ) = j' := by linarith
    exact_mod_cast this
  have hi2 : i = i' := by exact_mod_cast f3
  have hbb : b = b' := by
    rcases hb with rfl | ⟨rfl, hmi⟩ <;> rcases hb' with rfl | ⟨rfl, hmi'⟩
    · rfl
    · exfalso; simp at f2; exact hh hmi' (by linarith)
    · exfalso; simp at f2; exact hh hmi (by linarith)
    · rfl
  rw [hj2, hi2, hbb]

/-- C22: leaving `zSpacing` at its default `None` raises as soon as there is a turbine, and gives an
empty layout otherwise. -/
theorem C22_none (nx nz : ℕ) (xS h : ℝ) (mirror : Bool) :
    (0 < nx → 0 < nz → ∃ e, gridLayout nx xS nz none h mirror = .error e) ∧
    (nx = 0 ∨ nz = 0 → gridLayout nx xS nz none h mirror = .ok ([], [], [])) := by
  have hn : ¬ ((nz : ℤ) * nx * (if mirror then 2 else 1 : ℤ) < 0) := by cases mirror <;> simp only [Bool.false_eq_true, if_false, if_true] <;> exact not_lt.2 (by positivity)
  constructor
  · intro hx hz
    unfold gridLayout
    simp only [if_neg hn]
    rw [if_pos ⟨by simp [arange1]; omega, by simp [arange1]; omega⟩]
    exact ⟨_, rfl⟩
  · intro h0
    unfold gridLayout
    simp only [if_neg hn]
    rw [if_neg (by rcases h0 with rfl | rfl <;> simp [arange1])]
    rcases h0 with rfl | rfl <;> simp

example : ∃ x y z, gridLayout (2:ℕ) 2 (2:ℕ) (some 3) 2 true = .ok (x, y, z) ∧ x[0]? = some (-2 : ℝ) ∧ y[5]? = some (-2 : ℝ) ∧ z[7]? = some (3 : ℝ) := by
  obtain ⟨x, y, z, h1, -, -, -, h5⟩ := C22_positions 2 2 2 3 2 true
  refine ⟨x, y, z, h1, ?_, ?_, ?_⟩
  · have := (h5 0 0 (by norm_num) (by norm_num)).1.1; norm_num at this; exact this
  · have := ((h5 0 1 (by norm_num) (by norm_num)).2 rfl).2.1; norm_num at this; exact this
  · have := ((h5 1 1 (by norm_num) (by norm_num)).2 rfl).2.2; norm_num at this; exact this

/-! ### C23 -/

/-- the cylinder group of a grid cell -/
noncomputable def cellGroup (nx : ℕ) (xS zS h : ℝ) (g : Num) (R : ℝ) (q : ℕ × ℕ) : CylGroup := ⟨⟨cellX nx xS q, h, cellZ zS q⟩, [(g, R)]⟩

theorem groups_of_lists (X Y Z : List ℝ) (hy : Y.length = X.length) (hz : Z.length = X.length) (cy : List (Num × ℝ)) :
    ((List.range X.length).map fun i : ℕ => (⟨⟨X.getD i 0, Y.getD i 0, Z.getD i 0⟩, cy⟩ : CylGroup)) =
      (List.zip X (List.zip Y Z)).map fun q => ⟨⟨q.1, q.2.1, q.2.2⟩, cy⟩ := by
  apply List.ext_getElem
  · simp [hy, hz]
  · intro i h1 h2
    have hi : i < X.length := by simpa using h1
    have hi2 : i < Y.length := by omega
    have hi3 : i < Z.length := by omega
    simp [List.getD_eq_getElem?_getD, hi, hi2, hi3]

theorem grid_groups (nx nz : ℕ) (xS zS h : ℝ) (mirror : Bool) (g : Num) (R : ℝ) (x y z : List ℝ)
    (hg : gridLayout nx xS nz (some zS) h mirror = .ok (x, y, z)) :
    ((List.range x.length).map fun i : ℕ => (⟨⟨x.getD i 0, y.getD i 0, z.getD i 0⟩, [(g, R)]⟩ : CylGroup)) =
      (cells nx nz).map (cellGroup nx xS zS h g R) ++ (if mirror then (cells nx nz).map (cellGroup nx xS zS (-h) g R) else []) := by
  rw [grid_closed] at hg
  obtain ⟨rfl, h1⟩ := Prod.mk.inj (Except.ok.inj hg)
  obtain ⟨rfl, rfl⟩ := Prod.mk.inj h1
  have hrep : ∀ h : ℝ, List.replicate (nz * nx) h = (cells nx nz).map fun _ => h := by
    intro h; rw [List.map_const', cells_length]
  have zipm : ∀ (L : List (ℕ × ℕ)) (a b c : ℕ × ℕ → ℝ), List.zip (L.map a) (List.zip (L.map b) (L.map c)) = L.map fun q => (a q, b q, c q) := by
    intro L a b c
    induction L with
    | nil => rfl
    | cons q L ih => simp [ih]
  rw [groups_of_lists _ _ _ (by cases mirror <;> simp [cells_length]) (by cases mirror <;> simp)]
  rw [hrep, hrep]
  cases mirror
  · simp only [Bool.false_eq_true, if_false, List.append_nil, zipm, List.map_map]; rfl
  · simp only [if_true]
    rw [List.zip_append (by simp), List.zip_append (by simp), zipm, zipm, List.map_append, List.map_map, List.map_map]
    rfl

theorem gridCT_eq (pts : List (V3 ℝ)) (R : ℝ) (CT U0 : Num) (nx nz : ℕ) (xS zS h : ℝ) (mirror : Bool) :
    gridlayoutCTconst pts R CT U0 nx xS nz (some zS) h mirror = .ok (vcsTang pts
      ((cells nx nz).map (cellGroup nx xS zS h (-2 * U0 * (.fin 0.5 * (1 - Num.sqrt (1 - CT)))) R) ++
        (if mirror then (cells nx nz).map (cellGroup nx xS zS (-h) (-2 * U0 * (.fin 0.5 * (1 - Num.sqrt (1 - CT)))) R) else [])) 0 false) := by
  unfold gridlayoutCTconst
  obtain ⟨x, y, z, h1, -⟩ := C22_positions nx nz xS zS h mirror
  rw [h1]
  simp only
  rw [grid_groups nx nz xS zS h mirror _ R x y z h1]

/-- mirrored groups listed after the groups = ground option -/
theorem vcs_mirror (pts : List (V3 ℝ)) (G : List CylGroup) (eps : ℝ) :
    vcsTang pts (G ++ G.map fun g => ⟨⟨g.pos.x, -g.pos.y, g.pos.z⟩, g.cyls⟩) eps false = vcsTang pts G eps true := by
  obtain ⟨l1, s1⟩ := C50_tang_sum pts (G ++ G.map fun g => ⟨⟨g.pos.x, -g.pos.y, g.pos.z⟩, g.cyls⟩) eps false
  obtain ⟨l2, s2⟩ := C50_tang_sum pts G eps true
  refine ext_getD (by rw [l1, l2]) fun i => ?_
  rw [s1, s2]
  simp only [Bool.false_eq_true, if_false, add_zero, if_true, List.map_append, List.map_map, List.sum_append]
  rw [← List.sum_map_add]
  rfl

/-- C23: the mirrored grid farm computes the same field as the unmirrored grid with the ground option of
the multi-cylinder routine: whatever the sizes, spacings, thrust and points. -/
theorem C23_mirror_is_ground (pts : List (V3 ℝ)) (R : ℝ) (CT U0 : Num) (nx nz : ℕ) (xS zS h : ℝ) :
    ∃ x y z, gridLayout nx xS nz (some zS) h false = .ok (x, y, z) ∧
      gridlayoutCTconst pts R CT U0 nx xS nz (some zS) h true = .ok (vcsTang pts
        ((List.range x.length).map fun i : ℕ => ⟨⟨x.getD i 0, y.getD i 0, z.getD i 0⟩, [(-2 * U0 * (.fin 0.5 * (1 - Num.sqrt (1 - CT))), R)]⟩) 0 true) := by
  obtain ⟨x, y, z, h1, -⟩ := C22_positions nx nz xS zS h false
  refine ⟨x, y, z, h1, ?_⟩
  rw [grid_groups nx nz xS zS h false _ R x y z h1, gridCT_eq]
  simp only [Bool.false_eq_true, if_false, if_true, List.append_nil]
  rw [← vcs_mirror, List.map_map]
  rfl

theorem sum_isFin {ι : Type} (l : List ι) (f : ι → V3 Num) (h : ∀ c ∈ l, (f c).IsFin) : ((l.map f).sum).IsFin := by
  induction l with
  | nil => exact ⟨⟨0, rfl⟩, ⟨0, rfl⟩, ⟨0, rfl⟩⟩
  | cons c l ih =>
    obtain ⟨⟨a, ha⟩, ⟨b, hb⟩, ⟨d, hd⟩⟩ := h c (by simp)
    obtain ⟨⟨a', ha'⟩, ⟨b', hb'⟩, ⟨d', hd'⟩⟩ := ih (fun c hc => h c (by simp [hc]))
    simp only [List.map_cons, List.sum_cons]
    refine ⟨⟨a + a', ?_⟩, ⟨b + b', ?_⟩, ⟨d + d', ?_⟩⟩
    · rw [V3.add_x, ha, ha']; rfl
    · rw [V3.add_y, hb, hb']; rfl
    · rw [V3.add_z, hd, hd']; rfl

/-- C23: with a mirrored layout and `CT ≤ 1`, the field is made of ordinary numbers and its vertical
component vanishes at every point of the ground `Ycp=0`. -/
theorem C23_impermeable (pts : List (V3 ℝ)) (R ct u0 : ℝ) (hR : 0 < R) (hct : ct ≤ 1) (nx nz : ℕ) (xS zS h : ℝ) :
    ∃ u, gridlayoutCTconst pts R (.fin ct) (.fin u0) nx xS nz (some zS) h true = .ok u ∧
      ∀ (i : ℕ) (p : V3 ℝ), pts[i]? = some p → ∃ v : V3 ℝ, u[i]? = some (V3.fin v) ∧ (p.y = 0 → v.y = 0) := by
  have hγ : ∃ γ : ℝ, (-2 * .fin u0 * (.fin 0.5 * (1 - Num.sqrt (1 - .fin ct))) : Num) = .fin γ := by
    have : (1 - Num.fin ct : Num) = .fin (1 - ct) := by simp
    rw [this, Num.sqrt_fin (by linarith)]
    exact ⟨-2 * u0 * (0.5 * (1 - √(1 - ct))), by simp⟩
  obtain ⟨γ, hγ⟩ := hγ
  refine ⟨_, gridCT_eq pts R (.fin ct) (.fin u0) nx nz xS zS h true, fun i p hp => ?_⟩
  rw [hγ]
  simp only [if_true]
  obtain ⟨l1, s1⟩ := C50_tang_sum pts ((cells nx nz).map (cellGroup nx xS zS h (.fin γ) R) ++ (cells nx nz).map (cellGroup nx xS zS (-h) (.fin γ) R)) 0 false
  have hi : i < pts.length := (List.getElem?_eq_some_iff.1 hp).1
  have s1 := s1 i
  have cyf : ∀ f : Num × ℝ → V3 Num, (([((Num.fin γ), R)].filter fun c => 0 < Num.abs c.1).map f).sum = if γ = 0 then 0 else f (.fin γ, R) := by
    intro f
    by_cases h0 : γ = 0
    · subst h0
      rw [if_pos rfl, List.filter_cons_of_neg (by simp)]
      rfl
    · rw [if_neg h0, List.filter_cons_of_pos (by simpa using h0)]
      simp
  simp only [List.map_append, List.map_map, Function.comp_def, cellGroup, Bool.false_eq_true, if_false, add_zero, List.sum_append, cyf] at s1
  have fin1 : ∀ hh : ℝ, ∀ q ∈ cells nx nz, (if γ = 0 then (0 : V3 Num) else
      (vcTang (pts.map fun p => p - ⟨cellX nx xS q, hh, cellZ zS q⟩) (.fin γ) R 0).getD i 0).IsFin := by
    intro hh q _
    split
    · exact ⟨⟨0, rfl⟩, ⟨0, rfl⟩, ⟨0, rfl⟩⟩
    · obtain ⟨e1, e2⟩ := (C40_finite (pts.map fun p => p - ⟨cellX nx xS q, hh, cellZ zS q⟩) γ R hR).2
      rw [List.length_map] at e1
      have : i < (vcTang (pts.map fun p => p - ⟨cellX nx xS q, hh, cellZ zS q⟩) (.fin γ) R 0).length := by omega
      rw [List.getD_eq_getElem?_getD, List.getElem?_eq_getElem this]
      exact e2 _ (List.getElem_mem this)
  obtain ⟨⟨a, ha⟩, ⟨b, hb⟩, ⟨d, hd⟩⟩ := sum_isFin _ _ (fin1 h)
  obtain ⟨⟨a', ha'⟩, ⟨b', hb'⟩, ⟨d', hd'⟩⟩ := sum_isFin _ _ (fin1 (-h))
  refine ⟨⟨a + a', b + b', d + d'⟩, ?_, ?_⟩
  · have hiu : i < (vcsTang pts ((cells nx nz).map (cellGroup nx xS zS h (.fin γ) R) ++ (cells nx nz).map (cellGroup nx xS zS (-h) (.fin γ) R)) 0 false).length := by rw [l1]; exact hi
    rw [List.getElem?_eq_getElem hiu]
    rw [List.getD_eq_getElem?_getD, List.getElem?_eq_getElem hiu, Option.getD_some] at s1
    congr 1
    refine s1.trans ?_
    ext
    · rw [V3.add_x, ha, ha']; rfl
    · rw [V3.add_y, hb, hb']; rfl
    · rw [V3.add_z, hd, hd']; rfl
  · intro hy
    refine pair_sum_zero (cells nx nz) (fun q => if γ = 0 then (0 : V3 Num) else
      (vcTang (pts.map fun p => p - ⟨cellX nx xS q, h, cellZ zS q⟩) (.fin γ) R 0).getD i 0) (fun q => if γ = 0 then (0 : V3 Num) else
      (vcTang (pts.map fun p => p - ⟨cellX nx xS q, -h, cellZ zS q⟩) (.fin γ) R 0).getD i 0) ?_ (b + b') (by rw [V3.add_y, hb, hb']; rfl)
    intro q _ a b ha hb
    by_cases h0 : γ = 0
    · rw [if_pos h0] at ha hb
      simp at ha hb
      rw [← ha, ← hb, add_zero]
    · rw [if_neg h0] at ha hb
      refine vcTang_odd (.fin γ) R 0 _ _ i (p.x - cellX nx xS q) (-h) (p.z - cellZ zS q) a b ?_ ?_ ha hb
      · rw [List.getElem?_map, hp, Option.map_some]; congr 1; ext <;> simp [hy]
      · rw [List.getElem?_map, hp, Option.map_some]; congr 1; ext <;> simp [hy]

/-- C23: with `CT > 1` the strength is `nan`, the loop skips every cylinder and the field is silently zero. -/
theorem C23_overloaded (pts : List (V3 ℝ)) (R ct u0 : ℝ) (hct : 1 < ct) (nx nz : ℕ) (xS zS h : ℝ) (mirror : Bool) :
    gridlayoutCTconst pts R (.fin ct) (.fin u0) nx xS nz (some zS) h mirror = .ok (pts.map fun _ => 0) := by
  have hγ : (-2 * .fin u0 * (.fin 0.5 * (1 - Num.sqrt (1 - .fin ct))) : Num) = .nan := by
    have : (1 - Num.fin ct : Num) = .fin (1 - ct) := by simp
    have h2 : Num.sqrt (.fin (1 - ct)) = .nan := by simp [Num.sqrt]; linarith
    rw [this, h2]
    have h3 : (1 - Num.nan : Num) = .nan := rfl
    have h4 : ∀ a : ℝ, Num.fin a * .nan = .nan := fun a => rfl
    have h5 : (-2 * .fin u0 : Num) = .fin (-2 * u0) := by simp
    rw [h3, h4, h5, h4]
  rw [gridCT_eq, hγ]
  congr 1
  obtain ⟨l1, s1⟩ := C50_tang_sum pts ((cells nx nz).map (cellGroup nx xS zS h .nan R) ++ (if mirror then (cells nx nz).map (cellGroup nx xS zS (-h) .nan R) else [])) 0 false
  refine ext_getD (by rw [l1]; simp) fun i => ?_
  rw [s1, getD_zeros]
  apply List.sum_eq_zero
  intro v hv
  obtain ⟨g, hg, rfl⟩ := List.mem_map.1 hv
  have hc : g.cyls = [(.nan, R)] := by
    rcases List.mem_append.1 hg with h | h
    · obtain ⟨q, -, rfl⟩ := List.mem_map.1 h; rfl
    · split at h
      · obtain ⟨q, -, rfl⟩ := List.mem_map.1 h; rfl
      · simp at h
  have hn : ¬ ((0 : Num) < Num.abs .nan) := fun h => h
  rw [hc, List.filter_cons_of_neg (by simpa using hn)]
  simp

end Wiz
