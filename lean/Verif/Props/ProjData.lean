import Verif.Model.ProjData
import Verif.Props.Nearest
import Mathlib.Data.List.Flatten

/-! # C133: planes cut out of the projection data -/
set_option autoImplicit false
namespace Wiz
open Classical

theorem roundEven_nat (n : ℕ) : roundEven (n : ℝ) = n := by
  unfold roundEven
  simp

theorem npRint_int (n : ℤ) : npRint (n : ℝ) = n := by
  unfold npRint
  split_ifs with h
  · have h' : 0 ≤ n := by exact_mod_cast h
    obtain ⟨k, rfl⟩ := Int.eq_ofNat_of_zero_le h'
    rw [Int.cast_natCast, roundEven_nat]
  · have h' : 0 ≤ -n := by
      have : ¬ (0:ℤ) ≤ n := by exact_mod_cast h
      omega
    obtain ⟨k, hk⟩ := Int.eq_ofNat_of_zero_le h'
    have : -(n:ℝ) = (k:ℝ) := by rw [← Int.cast_neg, hk, Int.cast_natCast]
    rw [this, roundEven_nat]
    omega

theorem npRound3_fix (y : ℝ) : npRound3 y = y ↔ ∃ n : ℤ, y = n / 1000 := by
  constructor
  · intro h; exact ⟨npRint (y * 1000), h.symm⟩
  · rintro ⟨n, rfl⟩
    unfold npRound3
    rw [div_mul_cancel₀ _ (by norm_num), npRint_int]

theorem npRound3_idem (y : ℝ) : npRound3 (npRound3 y) = npRound3 y := (npRound3_fix _).2 ⟨_, rfl⟩

theorem npUnique_eq (l m : List ℝ) (h : ∀ x, x ∈ l ↔ x ∈ m) : npUnique l = npUnique m := by
  unfold npUnique
  congr 1
  ext x
  simp [h]

theorem npUnique_mem (l : List ℝ) (x : ℝ) : x ∈ npUnique l ↔ x ∈ l := by simp [npUnique]

theorem npUnique_fix (l : List ℝ) : npUnique l = l ↔ l.Pairwise (· < ·) := by
  constructor
  · intro h
    rw [← h]
    exact (Finset.sortedLT_sort _).pairwise
  · intro h
    apply List.Perm.eq_of_pairwise (le := (· < ·)) (fun a b _ _ h1 h2 => absurd h2 (not_lt.2 h1.le)) (Finset.sortedLT_sort _).pairwise h
    rw [List.perm_ext_iff_of_nodup ((Finset.sortedLT_sort _).pairwise.imp (fun h => h.ne)) (h.imp fun h => h.ne)]
    intro a
    exact npUnique_mem l a

theorem planeAxis_fix (c y : List ℝ) (h : ∀ x, x ∈ c ↔ x ∈ y) : planeAxis c = y ↔ y.Pairwise (· < ·) ∧ ∀ x ∈ y, ∃ n : ℤ, x = n / 1000 := by
  have e : planeAxis c = npUnique (y.map npRound3) := by
    unfold planeAxis
    apply npUnique_eq
    intro x
    simp only [List.mem_map, h]
  rw [e]
  constructor
  · intro hy
    refine ⟨by rw [← hy]; exact (Finset.sortedLT_sort _).pairwise, ?_⟩
    intro x hx
    rw [← hy, npUnique_mem] at hx
    obtain ⟨x', -, rfl⟩ := List.mem_map.1 hx
    exact ⟨_, rfl⟩
  · rintro ⟨h1, h2⟩
    have : y.map npRound3 = y := by
      conv_rhs => rw [← List.map_id y]
      exact List.map_congr_left fun x hx => (npRound3_fix x).2 (h2 x hx)
    rw [this]
    exact (npUnique_fix y).2 h1

theorem mesh_fst (a b : List ℝ) (hb : b ≠ []) (x : ℝ) : x ∈ (meshIJ a b).1 ↔ x ∈ a := by
  obtain ⟨y, hy⟩ := List.exists_mem_of_ne_nil b hb
  simp only [meshIJ, List.mem_flatMap, List.mem_map]
  constructor
  · rintro ⟨a', ha, b', -, rfl⟩; exact ha
  · intro h; exact ⟨x, h, y, hy, rfl⟩

theorem mesh_snd (a b : List ℝ) (ha : a ≠ []) (x : ℝ) : x ∈ (meshIJ a b).2 ↔ x ∈ b := by
  obtain ⟨y, l, rfl⟩ := List.exists_cons_of_ne_nil ha
  simp [meshIJ]

theorem argmin_abs (a : List ℝ) (v : ℝ) (f : ℝ → ℝ) (hf : ∀ x, f x = |x - v|) :
    ((∃ e, argmin (a.map f) = .error e) ↔ a = []) ∧
    ∀ k, argmin (a.map f) = .ok k → ∃ x, a[k]? = some x ∧ (∀ y ∈ a, |x - v| ≤ |y - v|) ∧ ∀ j < k, ∀ y, a[j]? = some y → |x - v| < |y - v| := by
  have e : a.map f = a.map fun x => |x - v| := List.map_congr_left fun x _ => hf x
  rw [e]
  obtain ⟨h1, h2⟩ := C89_find_nearest a v
  unfold findNearest at h1 h2
  constructor
  · rw [← h1]
    cases argmin (a.map fun x => |x - v|) <;> simp
  · intro k hk
    rw [hk] at h2
    exact ⟨_, h2 _ k rfl⟩

/-- C133, horizontal plane: `OutputProj(Horizontal=True)` fails exactly on data without heights; otherwise it shows the horizontal plane of the
data nearest to hub height (the first of several): entry `(i,j)` has lateral coordinate `y1[j]`, axial coordinate `x1[i]` and the
axial velocity of the data at `(x1[i],y1[j],z1[k])`. -/
theorem C133_horizontal (d : ProjFile) (HH : ℝ) :
    ((∃ e, outputProj d HH true = .error e) ↔ d.z1 = []) ∧
    ∀ p, outputProj d HH true = .ok p → ∃ (k : ℕ) (zk : ℝ), d.z1[k]? = some zk ∧ (∀ z ∈ d.z1, |zk - HH| ≤ |z - HH|) ∧
      (∀ k' < k, ∀ z, d.z1[k']? = some z → |zk - HH| < |z - HH|) ∧
      p.rows = d.x1.length ∧ p.cols = d.y1.length ∧
      ∀ (i j : ℕ) (x y : ℝ), d.x1[i]? = some x → d.y1[j]? = some y →
        (p.fVert i j).1 = y ∧ (p.fVert i j).2.1 = x ∧ (p.fVert i j).2.2.2 = d.u i j k := by
  obtain ⟨h1, h2⟩ := argmin_abs d.z1 HH (fun z => |0 - (z - HH)|) (fun z => by rw [zero_sub, abs_neg])
  unfold outputProj
  rw [if_pos rfl, List.map_map]
  have hfun : ((fun z0 : ℝ => |0 - z0|) ∘ fun z => z - HH) = fun z => |0 - (z - HH)| := rfl
  rw [hfun]
  cases hk : argmin (d.z1.map fun z => |0 - (z - HH)|) with
  | error e =>
    exact ⟨⟨fun _ => h1.1 ⟨e, hk⟩, fun _ => ⟨e, rfl⟩⟩, fun p hp => (by cases hp)⟩
  | ok k =>
    obtain ⟨zk, a1, a2, a3⟩ := h2 k hk
    refine ⟨⟨fun ⟨e, he⟩ => (by cases he), fun h => ?_⟩, fun p hp => ⟨k, zk, a1, a2, a3, ?_⟩⟩
    · obtain ⟨e, he⟩ := h1.2 h
      rw [hk] at he; exact nomatch he
    · cases hp
      refine ⟨rfl, rfl, fun i j x y hx hy => ⟨?_, ?_, rfl⟩⟩
      · change d.y1.getD j 0 = y
        rw [List.getD_eq_getElem?_getD, hy]; rfl
      · change d.x1.getD i 0 = x
        rw [List.getD_eq_getElem?_getD, hx]; rfl

/-- C133, vertical plane: `OutputProj(Horizontal=False)` fails exactly on data without lateral positions; otherwise it shows the vertical plane of the
data nearest to the rotor axis: entry `(i,k)` has height `z1[k]-HH` over the hub, axial coordinate `x1[i]` and the axial velocity of the data at
`(x1[i],y1[j],z1[k])`. -/
theorem C133_vertical (d : ProjFile) (HH : ℝ) :
    ((∃ e, outputProj d HH false = .error e) ↔ d.y1 = []) ∧
    ∀ p, outputProj d HH false = .ok p → ∃ (j : ℕ) (yj : ℝ), d.y1[j]? = some yj ∧ (∀ y ∈ d.y1, |yj| ≤ |y|) ∧
      (∀ j' < j, ∀ y, d.y1[j']? = some y → |yj| < |y|) ∧
      p.rows = d.x1.length ∧ p.cols = d.z1.length ∧
      ∀ (i k : ℕ) (x z : ℝ), d.x1[i]? = some x → d.z1[k]? = some z →
        (p.fVert i k).1 = z - HH ∧ (p.fVert i k).2.1 = x ∧ (p.fVert i k).2.2.2 = d.u i j k := by
  obtain ⟨h1, h2⟩ := argmin_abs d.y1 0 (fun z => |0 - z|) (fun z => by rw [zero_sub, abs_neg, sub_zero])
  unfold outputProj
  rw [if_neg Bool.false_ne_true]
  cases hk : argmin (d.y1.map fun z => |0 - z|) with
  | error e =>
    exact ⟨⟨fun _ => h1.1 ⟨e, hk⟩, fun _ => ⟨e, rfl⟩⟩, fun p hp => (by cases hp)⟩
  | ok j =>
    obtain ⟨yj, a1, a2, a3⟩ := h2 j hk
    simp only [sub_zero] at a2 a3
    refine ⟨⟨fun ⟨e, he⟩ => (by cases he), fun h => ?_⟩, fun p hp => ⟨j, yj, a1, a2, a3, ?_⟩⟩
    · obtain ⟨e, he⟩ := h1.2 h
      rw [hk] at he; exact nomatch he
    · cases hp
      refine ⟨rfl, rfl, fun i k x z hx hz => ⟨?_, ?_, rfl⟩⟩
      · change (d.z1.map fun z => z - HH).getD k 0 = z - HH
        rw [List.getD_eq_getElem?_getD, List.getElem?_map, hz]; rfl
      · change d.x1.getD i 0 = x
        rw [List.getD_eq_getElem?_getD, hx]; rfl

/-- C133: the axes handed to the interpolants are the coordinates of the columns and rows of the matrices exactly when these increase and are
whole multiples of 0.001 (otherwise they are rounded, merged or re-ordered without the velocities). -/
theorem C133_axes (d : ProjFile) (HH : ℝ) (H : Bool) (p : OutputProj) (hp : outputProj d HH H = .ok p) (hx : d.x1 ≠ [])
    (cols : List ℝ) (hcols : cols = if H then d.y1 else d.z1.map fun z => z - HH) (hc : cols ≠ []) :
    (p.x = cols ↔ cols.Pairwise (· < ·) ∧ ∀ y ∈ cols, ∃ n : ℤ, y = n / 1000) ∧
    (p.z = d.x1 ↔ d.x1.Pairwise (· < ·) ∧ ∀ x ∈ d.x1, ∃ n : ℤ, x = n / 1000) := by
  unfold outputProj at hp
  cases H with
  | true =>
    rw [if_pos rfl] at hp hcols
    subst hcols
    simp only at hp
    split at hp
    · exact nomatch hp
    · cases hp
      exact ⟨planeAxis_fix _ _ (mesh_snd _ _ hx), planeAxis_fix _ _ (mesh_fst _ _ hc)⟩
  | false =>
    rw [if_neg Bool.false_ne_true] at hp hcols
    subst hcols
    simp only at hp
    split at hp
    · exact nomatch hp
    · cases hp
      exact ⟨planeAxis_fix _ _ (mesh_snd _ _ hx), planeAxis_fix _ _ (mesh_fst _ _ hc)⟩

/-- C133, false part: the velocity `fVert` returns next to the axial one should be the component in the plane, along the coordinate returned
first — `v` (lateral) in the horizontal plane, `w` (vertical) in the vertical plane.  The code returns the component normal to the
plane: the answer is right only where the two happen to be equal in the data. -/
theorem C133_inplane_refuted (d : ProjFile) (HH : ℝ) :
    (∀ p, outputProj d HH true = .ok p → ∃ (k : ℕ) (zk : ℝ), d.z1[k]? = some zk ∧ (∀ z ∈ d.z1, |zk - HH| ≤ |z - HH|) ∧
      ∀ i j, (p.fVert i j).2.2.1 = d.v i j k ↔ d.w i j k = d.v i j k) ∧
    (∀ p, outputProj d HH false = .ok p → ∃ (j : ℕ) (yj : ℝ), d.y1[j]? = some yj ∧ (∀ y ∈ d.y1, |yj| ≤ |y|) ∧
      ∀ i k, (p.fVert i k).2.2.1 = d.w i j k ↔ d.w i j k = d.v i j k) := by
  constructor
  · intro p hp
    obtain ⟨h1, h2⟩ := argmin_abs d.z1 HH (fun z => |0 - (z - HH)|) (fun z => by rw [zero_sub, abs_neg])
    unfold outputProj at hp
    rw [if_pos rfl, List.map_map] at hp
    simp only at hp
    split at hp
    · exact nomatch hp
    · rename_i k hk
      obtain ⟨zk, a1, a2, a3⟩ := h2 k hk
      cases hp
      exact ⟨k, zk, a1, a2, fun i j => Iff.rfl⟩
  · intro p hp
    obtain ⟨h1, h2⟩ := argmin_abs d.y1 0 (fun z => |0 - z|) (fun z => by rw [zero_sub, abs_neg, sub_zero])
    unfold outputProj at hp
    rw [if_neg Bool.false_ne_true] at hp
    simp only at hp
    split at hp
    · exact nomatch hp
    · rename_i k hk
      obtain ⟨zk, a1, a2, a3⟩ := h2 k hk
      simp only [sub_zero] at a2
      cases hp
      exact ⟨k, zk, a1, a2, fun i j => ⟨fun h => h.symm, fun h => h.symm⟩⟩

/-- data on a 2×2×2 grid with a lateral velocity 0.3 and no vertical one: `fVert` of the horizontal plane returns 0 as the lateral velocity -/
example : let d : ProjFile := ⟨[-1, 0], [0, 0.5], [0.5, 1], fun _ _ _ => 0.9, fun _ _ _ => 0.3, fun _ _ _ => 0⟩
    ∃ p, outputProj d 1 true = .ok p ∧ p.fVert 0 1 = (0.5, -1, 0, 0.9) ∧ d.y1.Pairwise (· < ·) ∧ ∀ y ∈ d.y1, ∃ n : ℤ, y = n / 1000 := by
  intro d
  refine ⟨_, rfl, ?_, ?_, ?_⟩
  · simp [OutputProj.fVert, d]
  · simp [d]; norm_num
  · intro y hy
    simp [d] at hy
    rcases hy with rfl | rfl
    · exact ⟨0, by norm_num⟩
    · exact ⟨500, by norm_num⟩

end Wiz
