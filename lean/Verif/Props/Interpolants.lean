import Verif.Model.Interpolants
import Verif.Props.ProjData
set_option autoImplicit false

/-!
# C156: the interpolants of the data planes
-/
namespace Wiz
noncomputable section
open Classical

/-- What is assumed of SciPy's `interp2d` with `kind='cubic'`: it refuses a matrix whose shape does not fit the axes (and that is not a list of
scattered points), and for at least four increasing nodes each way it takes the value of entry `(i,j)` at the `j`-th node of the first axis and
the `i`-th of the second. -/
structure IsSpline (S : Spline) : Prop where
  shape : ∀ x y r c M, ¬ (r = y.length ∧ c = x.length) → ¬ (x.length = y.length ∧ x.length = r * c) → ∃ e, S x y r c M = .error e
  nodes : ∀ x y r c M, x.Pairwise (· < ·) → y.Pairwise (· < ·) → 4 ≤ x.length → 4 ≤ y.length → r = y.length → c = x.length →
    ∃ f, S x y r c M = .ok f ∧ ∀ i j a b, x[j]? = some a → y[i]? = some b → f a b = .fin (M i j)

/-- the assumptions are consistent -/
example : ∃ S, IsSpline S := by
  refine ⟨fun x y r c M => if r = y.length ∧ c = x.length then .ok (fun a b => .fin (M (y.idxOf b) (x.idxOf a))) else .error "ValueError",
    ⟨fun x y r c M h _ => ⟨"ValueError", if_neg h⟩, fun x y r c M hx hy _ _ hr hc => ⟨_, if_pos ⟨hr, hc⟩, fun i j a b ha hb => ?_⟩⟩⟩
  have nx : x.Nodup := hx.imp fun h => h.ne
  have ny : y.Nodup := hy.imp fun h => h.ne
  obtain ⟨hj, rfl⟩ := List.getElem?_eq_some_iff.1 ha
  obtain ⟨hi, rfl⟩ := List.getElem?_eq_some_iff.1 hb
  rw [nx.idxOf_getElem, ny.idxOf_getElem]

/-- C156: nothing can be evaluated before `setupInterpolants` -/
theorem C156_before (S : Spline) (p : OutputProj) (pts : List (V3 ℝ)) :
    (∃ e, (PlaneObj.mk p none).fW S pts = .error e) ∧ ∃ e, (PlaneObj.mk p none).fU S pts = .error e := ⟨⟨_, rfl⟩, ⟨_, rfl⟩⟩

/-- C156: `fU` has the axial velocity of `fW` and no velocity normal to the plane: none along Y in a horizontal plane, none along X in a
vertical one (where the axial velocity is finite); the number of velocities is the number of points. -/
theorem C156_planar (S : Spline) (p : OutputProj) (pts : List (V3 ℝ)) (u : List (V3 Num)) (hu : (PlaneObj.mk p none).setup.fU S pts = .ok u) :
    ∃ w, (PlaneObj.mk p none).setup.fW S pts = .ok w ∧ w.length = pts.length ∧ u.length = pts.length ∧
      ∀ (i : ℕ) (a b : V3 Num), u[i]? = some a → w[i]? = some b → a.z = b.z ∧ ∀ v : ℝ, b.z = .fin v →
        (if p.Horizontal then a.y else a.x) = 0 ∧ b.x = 0 ∧ b.y = 0 := by
  unfold PlaneObj.fU PlaneObj.setup at hu
  unfold PlaneObj.fW PlaneObj.setup
  simp only [Pairs.eval, PlaneObj.args] at hu ⊢
  cases hW : S p.x p.z p.rows p.cols p.W with
  | error e => rw [hW] at hu; exact nomatch hu
  | ok g =>
    rw [hW] at hu
    simp only at hu ⊢
    generalize hT : (if p.Horizontal = true then (⟨p.x, p.z, p.rows, p.cols, p.U⟩ : Pairs) else ⟨p.x, p.z, p.rows, p.cols, p.V⟩) = T at hu
    cases hS : S T.x T.y T.r T.c T.M with
    | error e => rw [hS] at hu; exact nomatch hu
    | ok t =>
      rw [hS] at hu
      simp only [Except.ok.injEq] at hu
      subst hu
      refine ⟨_, rfl, by simp, by simp, fun i a b ha hb => ?_⟩
      simp only [List.getElem?_zipWith, List.getElem?_map, List.map_map] at ha hb
      cases hp : pts[i]? with
      | none => rw [hp] at hb; exact nomatch hb
      | some q =>
        rw [hp] at ha hb
        simp only [Option.map_some, Option.some.injEq, Function.comp] at ha hb
        subst ha hb
        split_ifs with hh
        · refine ⟨rfl, fun v hv => ?_⟩
          simp only at hv ⊢
          rw [hv]; refine ⟨?_, ?_, ?_⟩ <;> exact congrArg Num.fin (mul_zero v)
        · refine ⟨rfl, fun v hv => ?_⟩
          simp only at hv ⊢
          rw [hv]; refine ⟨?_, ?_, ?_⟩ <;> exact congrArg Num.fin (mul_zero v)

theorem fW_nodes (S : Spline) (hS : IsSpline S) (p : OutputProj) (h1 : p.x.Pairwise (· < ·)) (h2 : p.z.Pairwise (· < ·)) (h3 : 4 ≤ p.x.length)
    (h4 : 4 ≤ p.z.length) (h5 : p.rows = p.z.length) (h6 : p.cols = p.x.length) (L : List (ℕ × ℕ × V3 ℝ))
    (hL : ∀ e ∈ L, p.x[e.2.1]? = some (if p.Horizontal then e.2.2.x else e.2.2.y) ∧ p.z[e.1]? = some e.2.2.z) :
    (PlaneObj.mk p none).setup.fW S (L.map fun e => e.2.2) = .ok (L.map fun e => ⟨0, 0, .fin (p.W e.1 e.2.1)⟩) := by
  obtain ⟨f, hf, hn⟩ := hS.nodes p.x p.z p.rows p.cols p.W h1 h2 h3 h4 h5 h6
  unfold PlaneObj.fW PlaneObj.setup
  simp only [Pairs.eval, PlaneObj.args, hf, List.map_map]
  congr 1
  apply List.map_congr_left
  intro e he
  obtain ⟨a, b⟩ := hL e he
  simp only [Function.comp]
  rw [hn _ _ _ _ a b]
  congr 1 <;> exact congrArg Num.fin (mul_zero _)

/-- C156, nodes of the actuator-disk planes (whose shape `loadPlane` checks): for a plane with four or more increasing coordinates each way, `fU` gives at
nodes the stored axial velocity, the stored in-plane velocity (`U` in a horizontal plane, `V` in a vertical one) and zero normal velocity. -/
theorem C156_disk (S : Spline) (hS : IsSpline S) (p : OutputProj) (h1 : p.x.Pairwise (· < ·)) (h2 : p.z.Pairwise (· < ·)) (h3 : 4 ≤ p.x.length)
    (h4 : 4 ≤ p.z.length) (h5 : p.rows = p.z.length) (h6 : p.cols = p.x.length) (L : List (ℕ × ℕ × V3 ℝ))
    (hL : ∀ e ∈ L, p.x[e.2.1]? = some (if p.Horizontal then e.2.2.x else e.2.2.y) ∧ p.z[e.1]? = some e.2.2.z) :
    (PlaneObj.mk p none).setup.fU S (L.map fun e => e.2.2) =
      .ok (L.map fun e => if p.Horizontal then ⟨.fin (p.U e.1 e.2.1), 0, .fin (p.W e.1 e.2.1)⟩ else ⟨0, .fin (p.V e.1 e.2.1), .fin (p.W e.1 e.2.1)⟩) := by
  obtain ⟨f, hf, hn⟩ := hS.nodes p.x p.z p.rows p.cols p.W h1 h2 h3 h4 h5 h6
  obtain ⟨fu, hfu, hnu⟩ := hS.nodes p.x p.z p.rows p.cols p.U h1 h2 h3 h4 h5 h6
  obtain ⟨fv, hfv, hnv⟩ := hS.nodes p.x p.z p.rows p.cols p.V h1 h2 h3 h4 h5 h6
  have z0 : ∀ x : ℝ, Num.fin x * 0 = 0 := fun x => congrArg Num.fin (mul_zero x)
  unfold PlaneObj.fU PlaneObj.setup
  cases hH : p.Horizontal with
  | true =>
    simp only [Pairs.eval, PlaneObj.args, hf, hfu, hH, if_true, List.map_map, List.zipWith_map, List.zipWith_self]
    congr 1
    apply List.map_congr_left
    intro e he
    obtain ⟨a, b⟩ := hL e he
    rw [hH, if_pos rfl] at a
    simp only [Function.comp]
    rw [hn _ _ _ _ a b, hnu _ _ _ _ a b, z0]
  | false =>
    simp only [Pairs.eval, PlaneObj.args, hf, hfv, hH, Bool.false_eq_true, if_false, List.map_map, List.zipWith_map, List.zipWith_self]
    congr 1
    apply List.map_congr_left
    intro e he
    obtain ⟨a, b⟩ := hL e he
    rw [hH, if_neg Bool.false_ne_true] at a
    simp only [Function.comp]
    rw [hn _ _ _ _ a b, hnv _ _ _ _ a b, z0]

/-- C156, nodes: for a projection plane whose column and row coordinates increase, are whole multiples of 0.001 and number four or more, `fW` after
`setupInterpolants` gives at nodes of the plane (at any distance from it) exactly the axial velocity of the data, and zero transverse velocities:
in a horizontal plane at the height of the data nearest to the hub, in a vertical one at the lateral position nearest to the axis. -/
theorem C156_nodes_partial (S : Spline) (hS : IsSpline S) (d : ProjFile) (HH : ℝ) (H : Bool) (p : OutputProj) (hp : outputProj d HH H = .ok p)
    (cols : List ℝ) (hcols : cols = if H then d.y1 else d.z1.map fun z => z - HH)
    (hx : 4 ≤ d.x1.length) (hc : 4 ≤ cols.length) (ic : cols.Pairwise (· < ·)) (ix : d.x1.Pairwise (· < ·))
    (mc : ∀ y ∈ cols, ∃ n : ℤ, y = n / 1000) (mx : ∀ x ∈ d.x1, ∃ n : ℤ, x = n / 1000) :
    ∃ u : ℕ → ℕ → ℝ,
      (if H then ∃ (k : ℕ) (zk : ℝ), d.z1[k]? = some zk ∧ (∀ z ∈ d.z1, |zk - HH| ≤ |z - HH|) ∧ ∀ i j, u i j = d.u i j k
       else ∃ (j : ℕ) (yj : ℝ), d.y1[j]? = some yj ∧ (∀ y ∈ d.y1, |yj| ≤ |y|) ∧ ∀ i k, u i k = d.u i j k) ∧
      ∀ L : List (ℕ × ℕ × V3 ℝ), (∀ e ∈ L, cols[e.2.1]? = some (if H then e.2.2.x else e.2.2.y) ∧ d.x1[e.1]? = some e.2.2.z) →
        (PlaneObj.mk p none).setup.fW S (L.map fun e => e.2.2) = .ok (L.map fun e => ⟨0, 0, .fin (u e.1 e.2.1)⟩) := by
  have nx : d.x1 ≠ [] := by rintro e; rw [e] at hx; simp at hx
  have nc : cols ≠ [] := by rintro e; rw [e] at hc; simp at hc
  obtain ⟨a1, a2⟩ := C133_axes d HH H p hp nx cols hcols nc
  have ex := a1.2 ⟨ic, mc⟩
  have ez := a2.2 ⟨ix, mx⟩
  have shape : p.Horizontal = H ∧ p.rows = d.x1.length ∧ p.cols = cols.length := by
    unfold outputProj at hp
    cases H with
    | true =>
      rw [if_pos rfl] at hp hcols
      simp only at hp
      split at hp
      · exact nomatch hp
      · cases hp; subst hcols; exact ⟨rfl, rfl, rfl⟩
    | false =>
      rw [if_neg Bool.false_ne_true] at hp hcols
      simp only at hp
      split at hp
      · exact nomatch hp
      · cases hp; subst hcols; exact ⟨rfl, rfl, by simp⟩
  obtain ⟨s1, s2, s3⟩ := shape
  refine ⟨p.W, ?_, fun L hL => ?_⟩
  · cases H with
    | true =>
      obtain ⟨h1, h2⟩ := argmin_abs d.z1 HH (fun z => |0 - (z - HH)|) (fun z => by rw [zero_sub, abs_neg])
      unfold outputProj at hp
      rw [if_pos rfl, List.map_map] at hp
      rw [if_pos rfl]
      simp only at hp
      split at hp
      · exact nomatch hp
      · rename_i k hk
        obtain ⟨zk, b1, b2, b3⟩ := h2 k hk
        cases hp
        exact ⟨k, zk, b1, b2, fun _ _ => rfl⟩
    | false =>
      obtain ⟨h1, h2⟩ := argmin_abs d.y1 0 (fun z => |0 - z|) (fun z => by rw [zero_sub, abs_neg, sub_zero])
      unfold outputProj at hp
      rw [if_neg Bool.false_ne_true] at hp
      rw [if_neg Bool.false_ne_true]
      simp only at hp
      split at hp
      · exact nomatch hp
      · rename_i k hk
        obtain ⟨zk, b1, b2, b3⟩ := h2 k hk
        simp only [sub_zero] at b2
        cases hp
        exact ⟨k, zk, b1, b2, fun _ _ => rfl⟩
  · refine fW_nodes S hS p (by rw [ex]; exact ic) (by rw [ez]; exact ix) (by rw [ex]; exact hc) (by rw [ez]; exact hx)
      (by rw [s2, ez]) (by rw [s3, ex]) L ?_
    intro e he
    rw [ex, ez, s1]
    exact hL e he

/-- C156, false part: it is not enough that the coordinates increase.  If two columns of the plane are equal when rounded to three decimals, the
constructor and `setupInterpolants` succeed, and every evaluation of `fW` afterwards fails. -/
theorem C156_merged_refuted (S : Spline) (hS : IsSpline S) (d : ProjFile) (HH : ℝ) (H : Bool) (p : OutputProj) (hp : outputProj d HH H = .ok p)
    (cols : List ℝ) (hcols : cols = if H then d.y1 else d.z1.map fun z => z - HH) (hx : d.x1 ≠ [])
    (hm : ¬ (cols.map npRound3).Nodup) (pts : List (V3 ℝ)) : ∃ e, (PlaneObj.mk p none).setup.fW S pts = .error e := by
  have len : ∀ l m : List ℝ, (∀ x, x ∈ l ↔ x ∈ m) → (planeAxis l).length = ((m.map npRound3).toFinset).card := by
    intro l m h
    unfold planeAxis npUnique
    rw [Finset.length_sort]
    congr 1
    ext x
    simp [h]
  have nc : cols ≠ [] := by rintro e; rw [e] at hm; simp at hm
  have lt : ((cols.map npRound3).toFinset).card < cols.length := by
    have h1 := List.toFinset_card_le (cols.map npRound3)
    rw [List.length_map] at h1
    refine lt_of_le_of_ne h1 fun h2 => hm ?_
    exact Multiset.toFinset_card_eq_card_iff_nodup.1 (by rw [Multiset.coe_card, List.length_map]; exact h2)
  have key : p.cols = cols.length ∧ p.x.length < cols.length ∧ 0 < p.rows := by
    unfold outputProj at hp
    have hr := List.length_pos_iff.2 hx
    cases H with
    | true =>
      rw [if_pos rfl] at hp hcols
      subst hcols
      simp only at hp
      split at hp
      · exact nomatch hp
      · cases hp; exact ⟨rfl, by rw [len _ _ (mesh_snd _ _ hx)]; exact lt, hr⟩
    | false =>
      rw [if_neg Bool.false_ne_true] at hp hcols
      subst hcols
      simp only at hp
      split at hp
      · exact nomatch hp
      · cases hp; exact ⟨by simp, by rw [len _ _ (mesh_snd _ _ hx)]; exact lt, hr⟩
  obtain ⟨k1, k2, k3⟩ := key
  obtain ⟨e, he⟩ := hS.shape p.x p.z p.rows p.cols p.W (by rintro ⟨-, h⟩; omega) (by
    rintro ⟨-, h⟩
    have : p.cols ≤ p.rows * p.cols := Nat.le_mul_of_pos_left _ k3
    omega)
  refine ⟨e, ?_⟩
  unfold PlaneObj.fW PlaneObj.setup
  simp only [Pairs.eval, he]

/-- data with columns 0.5 apart satisfy the hypotheses of `C156_nodes_partial`; data with columns 0.0001 apart those of `C156_merged_refuted` -/
example (u v w : ℕ → ℕ → ℕ → ℝ) :
    (∃ p, outputProj ⟨[0, 1, 2, 3], [0, 1/2, 1, 3/2], [1], u, v, w⟩ 1 true = .ok p) ∧
    ([0, 1/2, 1, 3/2] : List ℝ).Pairwise (· < ·) ∧ (∀ y ∈ ([0, 1/2, 1, 3/2] : List ℝ), ∃ n : ℤ, y = n / 1000) ∧
    ¬ (([0, 1/10000, 1, 2] : List ℝ).map npRound3).Nodup := by
  refine ⟨?_, by norm_num, ?_, ?_⟩
  · have h := (C133_horizontal ⟨[0, 1, 2, 3], [0, 1/2, 1, 3/2], [1], u, v, w⟩ 1).1
    cases hp : outputProj ⟨[0, 1, 2, 3], [0, 1/2, 1, 3/2], [1], u, v, w⟩ 1 true with
    | ok p => exact ⟨p, rfl⟩
    | error e => exact absurd (h.1 ⟨e, hp⟩) (by simp)
  · intro y hy
    simp only [List.mem_cons, List.not_mem_nil, or_false] at hy
    rcases hy with rfl | rfl | rfl | rfl
    · exact ⟨0, by norm_num⟩
    · exact ⟨500, by norm_num⟩
    · exact ⟨1000, by norm_num⟩
    · exact ⟨1500, by norm_num⟩
  · have h0 : npRound3 0 = 0 := (npRound3_fix 0).2 ⟨0, by norm_num⟩
    have h1 : npRound3 (1/10000) = 0 := by
      unfold npRound3 npRint roundEven
      have hf : ⌊(1/10000 * 1000 : ℝ)⌋₊ = 0 := by rw [Nat.floor_eq_zero]; norm_num
      rw [if_pos (by norm_num)]
      simp only [hf]
      rw [if_pos (by norm_num)]
      simp
    simp only [List.map_cons, h0, h1, List.nodup_cons, List.mem_cons]
    tauto

end
end Wiz
