import Verif.Props.SimLines

/-! # C123: the farms built from a simulation record -/
namespace Wiz
open Spec Real Classical

/-- a list indexed by the cells of a grid -/
theorem list_cells {α : Type} (l : List α) (nx ny : ℕ) (T : ℕ → ℕ → α) (hl : l.length = ny * nx)
    (h : ∀ i j, i < ny → j < nx → l[i * nx + j]? = some (T i j)) : l = (cells nx ny).map fun q => T q.1 q.2 := by
  apply List.ext_getElem?
  intro n
  rw [List.getElem?_map]
  by_cases hn : n < ny * nx
  · have hx : 0 < nx := Nat.pos_of_ne_zero fun h0 => by subst h0; simp at hn
    have e : n = n / nx * nx + n % nx := (Nat.div_add_mod' n nx).symm
    have h1 : n / nx < ny := Nat.div_lt_of_lt_mul (by rwa [Nat.mul_comm] at hn)
    have h2 : n % nx < nx := Nat.mod_lt _ hx
    rw [e, h _ _ h1 h2, cells_get nx ny _ _ h1 h2]
    rfl
  · rw [List.getElem?_eq_none (by omega), List.getElem?_eq_none (by rw [cells_length]; omega)]; rfl

theorem simCells_sum (nx ny : ℕ) (g : ℕ → ℕ → Num) :
    ((cells nx ny).map fun q => g q.1 q.2).sum = ∑ i ∈ Finset.range ny, ∑ j ∈ Finset.range nx, g i j := by
  have hr : ∀ (n : ℕ) (f : ℕ → Num), ((List.range n).map f).sum = ∑ i ∈ Finset.range n, f i := by
    intro n f
    induction n with
    | zero => rfl
    | succ n ih => rw [List.range_succ, List.map_append, List.sum_append, ih, Finset.sum_range_succ, List.map_singleton, List.sum_singleton]
  unfold cells
  rw [← hr]
  generalize List.range ny = l
  induction l with
  | nil => rfl
  | cons a l ih =>
    rw [List.flatMap_cons, List.map_append, List.sum_append, ih, List.map_cons, List.sum_cons]
    congr 1
    rw [List.map_map, ← hr]
    rfl

/-- an update of the loading does not look at the ground flag -/
theorem loading_setGround (mini : (ℝ → Num) → ℝ) (w : WT) (a : LoadArgs) (g : Bool) :
    (({ w with Ground := g } : WT).updateLoading mini a).2 = { (w.updateLoading mini a).2 with Ground := g } := by
  obtain ⟨R, rh, e0, ev, es, eh, TF, Tc, Tw, yp, U0, wr, gt, gl, Gr, La, Ct, Gd, chi, Mo⟩ := w
  obtain ⟨ar, aC, aG, aL, an, af⟩ := a
  unfold WT.updateLoading
  simp only
  cases reinterp R ⟨ar, aC, aG, aL, an, af⟩ with
  | error e => rfl
  | ok q =>
    obtain ⟨r, c, G⟩ := q
    have key : ∀ L : Num, (match loadingSolve mini R (Num.fin (V3.norm U0)) (L * Num.fin (V3.norm U0) / Num.fin R) r c G af with
        | .error e => ((.error e, ⟨R, rh, e0, ev, es, eh, TF, Tc, Tw, yp, U0, wr, gt, gl, Gr, La, Ct, g, chi, Mo⟩) : Except String Unit × WT)
        | .ok (gt, gl, Gr) => (.ok (), ⟨R, rh, e0, ev, es, eh, TF, Tc, Tw, yp, U0, r, some gt, gl, Gr, some L, c, g, chi, Mo⟩)).2 =
      { (match loadingSolve mini R (Num.fin (V3.norm U0)) (L * Num.fin (V3.norm U0) / Num.fin R) r c G af with
        | .error e => ((.error e, ⟨R, rh, e0, ev, es, eh, TF, Tc, Tw, yp, U0, wr, gt, gl, Gr, La, Ct, Gd, chi, Mo⟩) : Except String Unit × WT)
        | .ok (gt, gl, Gr) => (.ok (), ⟨R, rh, e0, ev, es, eh, TF, Tc, Tw, yp, U0, r, some gt, gl, Gr, some L, c, Gd, chi, Mo⟩)).2 with Ground := g } := by
      intro L
      cases loadingSolve mini R (Num.fin (V3.norm U0)) (L * Num.fin (V3.norm U0) / Num.fin R) r c G af <;> rfl
    cases aL with
    | some L => exact key L
    | none =>
      cases La with
      | none => rfl
      | some L => exact key L

/-- the turbines of the two constructions give the same values -/
theorem ground_value (mini : (ℝ → Num) → ℝ) (p : V3 ℝ) (g : Bool) (c : Num) (pts : List (V3 ℝ)) :
    (((blockageWT p g "VC").run mini (farmCalls none c)).computeU pts { only_ind := true }).1 =
    (((blockageWT p false "VC").run mini (farmCalls none c)).computeU pts { only_ind := true, ground := some g, Model := some "VC" }).1 := by
  have e : (blockageWT p g "VC").run mini (farmCalls none c) = { (blockageWT p false "VC").run mini (farmCalls none c) with Ground := g } :=
    loading_setGround mini (((blockageWT p false "VC").updateYawPos 0).updateWind ⟨1, 0, 0⟩) { Ct := some [c] } g
  have hM : ((blockageWT p false "VC").run mini (farmCalls none c)).Model = "VC" := by
    change (((((blockageWT p false "VC").updateYawPos 0).updateWind ⟨1, 0, 0⟩).updateLoading mini { Ct := some [c] }).2).Model = "VC"
    exact (loading_frame mini _ _).2.2.2.2.2.2.2.2.2.2.2.2.2
  rw [e]
  generalize (blockageWT p false "VC").run mini (farmCalls none c) = w at *
  obtain ⟨R, rh, e0, ev, es, eh, TF, Tc, Tw, yp, U0, r, gt, gl, Gr, La, Ct, Gd, chi, Mo⟩ := w
  change Mo = "VC" at hM
  subst hM
  rw [computeU_val, computeU_val]
  cases gt with
  | none => rfl
  | some gt =>
    rcases gt with _ | ⟨a, _ | ⟨b, l⟩⟩ <;> rfl

/-- C123 (farm from the thrust coefficients): for a layout `AxB` (`A` rows along the wind, `B` turbines per row, both positive) and a
whole spacing given as `int`, if the record has `A·B` (real) thrust coefficients, the result of `getSimCTs` has `B` rows and `A` columns and
can be given to `VCFarmFromFloris`: the turbine in row `i` along the wind, place `j` across, is a new turbine at
`(i·S, (j-⌊B/2⌋)·S, HH)` set to yaw 0, wind `(1,0,0)` and thrust coefficient number `j·A+i` of the record.  The values returned along
with it are the distinct hub abscissas divided by the spacing, in increasing order (`0` for `1x1`). -/
theorem C123_farm (mini : (ℝ → Num) → ℝ) (db : List Char → Option SimRec) (S : ℤ) (L : List Char) (A B : ℕ) (hA : 0 < A) (hB : 0 < B)
    (hL : layoutShape L = .ok [A, B]) (CT HH : ℝ) (s : SimRec) (hs : db (simKey (if L = "1x1".toList then 0 else S) L CT HH) = some s)
    (ct : List ℝ) (hct : s.ct_wt = ct.map .fin) (hlen : ct.length = A * B) (M : String) :
    ∃ x Cts ws, getSimCTs db (.int S) L CT HH = .ok (x, B, A, Cts) ∧ vcFarmFromFloris mini B A Cts HH S none M = .ok ws ∧ ws.length = A * B ∧
      (∀ i j c, i < A → j < B → ct[j * A + i]? = some c →
        ws[i * B + j]? = some ((WT.new 0.5 ⟨i * S, ((j : ℝ) - ((B / 2 : ℕ) : ℝ)) * S, HH⟩ ⟨1, 0, 0⟩ ⟨0, 0, 1⟩ ⟨0, 0, 10⟩ (some .pinf) (decide (HH < 10)) M).run mini
          [.yaw 0, .wind ⟨1, 0, 0⟩, .loading { Ct := some [.fin c] }])) ∧
      (L = "1x1".toList → x = [0]) ∧
      (L ≠ "1x1".toList → S ≠ 0 → ∃ X : List ℝ, X.Pairwise (· < ·) ∧ (∀ a, a ∈ X ↔ ∃ p ∈ s.xyz_wt, p.x = a) ∧ x = X.map fun a => .fin (a / S)) := by
  have hk : codeD (simS L (.int S)) = .ok (if L = "1x1".toList then 0 else S) := by
    unfold simS codeD; split_ifs <;> rfl
  have hg : getSimCTs db (.int S) L CT HH = .ok (if L = "1x1".toList then [(0 : Num)] else
      (npUnique (s.xyz_wt.map V3.x)).map fun x => .fin x / .fin ((if L = "1x1".toList then 0 else S : ℤ) : ℝ), B, A, fun j i => idx s.ct_wt (j * A + i)) := by
    unfold getSimCTs
    rw [hk, hL]
    simp only [bind, Except.bind, simGet, hs]
    rw [if_neg (by rw [hct, List.length_map, hlen, Nat.mul_comm]; simp)]
    rfl
  obtain ⟨ws, h1, h2, h3⟩ := C92_floris mini B A hB hA (fun j i => ct.getD (j * A + i) 0) HH S none M
  have hidx : ∀ i j, i < A → j < B → j * A + i < ct.length := by
    intro i j hi hj
    rw [hlen]
    calc j * A + i < j * A + A := by omega
      _ = (j + 1) * A := by ring
      _ ≤ B * A := Nat.mul_le_mul_right _ hj
      _ = A * B := Nat.mul_comm _ _
  have hcong : vcFarmFromFloris mini B A (fun j i => idx s.ct_wt (j * A + i)) HH S none M =
      vcFarmFromFloris mini B A (fun j i => .fin (ct.getD (j * A + i) 0)) HH S none M := by
    have : ((List.range A).flatMap fun i => (List.range B).map fun j => idx s.ct_wt (j * A + i)) =
        (List.range A).flatMap fun i => (List.range B).map fun j => Num.fin (ct.getD (j * A + i) 0) := by
      apply List.flatMap_congr
      intro i hi
      apply List.map_congr_left
      intro j hj
      have := hidx i j (List.mem_range.mp hi) (List.mem_range.mp hj)
      rw [hct]
      unfold idx
      simp only [List.getD_eq_getElem?_getD, List.getElem?_map, List.getElem?_eq_getElem this, Option.map_some, Option.getD_some]
    unfold vcFarmFromFloris
    rw [this]
  refine ⟨_, _, ws, hg, hcong.trans h1, h2, ?_, ?_, ?_⟩
  · intro i j c hi hj hc
    obtain ⟨w, hw, hw2, -⟩ := h3 i j hi hj
    rw [hw, hw2]
    have : ct.getD (j * A + i) 0 = c := by rw [List.getD_eq_getElem?_getD, hc]; rfl
    rw [this]
  · intro h; rw [if_pos h]
  · intro h hS
    rw [if_neg h]
    refine ⟨npUnique (s.xyz_wt.map V3.x), ?_, ?_, ?_⟩
    · exact Finset.sortedLT_sort _ |>.pairwise
    · intro a
      unfold npUnique
      rw [Finset.mem_sort, List.mem_toFinset, List.mem_map]
    · apply List.map_congr_left
      intro a _
      rw [Num.fin_div (by rw [if_neg h]; exact_mod_cast hS), if_neg h]

/-- C123 (same flow): if moreover the record places turbine number `j·A+i` at `(i·S, (j-⌊B/2⌋)·S, HH)`, the farm made from the record's own
positions (`ADFarm2VCFarm`) and the farm made from its thrust coefficients (`getSimCTs`, then `VCFarmFromFloris`) have the same axial
velocity at every point of the first probe line, although they list the turbines in different orders. -/
theorem C123_same_flow (mini : (ℝ → Num) → ℝ) (db : List Char → Option SimRec) (S : ℤ) (L : List Char) (A B : ℕ) (hA : 0 < A) (hB : 0 < B)
    (hL : layoutShape L = .ok [A, B]) (CT HH : ℝ) (s : SimRec) (hs : db (simKey (if L = "1x1".toList then 0 else S) L CT HH) = some s)
    (ct : List ℝ) (hct : s.ct_wt = ct.map .fin) (hlen : ct.length = A * B) (hpl : s.xyz_wt.length = A * B)
    (hpos : ∀ i j, i < A → j < B → s.xyz_wt[j * A + i]? = some ⟨i * S, ((j : ℝ) - ((B / 2 : ℕ) : ℝ)) * S, HH⟩) (d : WT) (mid top : List (V3 ℝ)) :
    ∃ x Cts ws um ut u, getSimCTs db (.int S) L CT HH = .ok (x, B, A, Cts) ∧ vcFarmFromFloris mini B A Cts HH S none "VC" = .ok ws ∧
      adFarm2VCFarm mini s.xyz_wt s.ct_wt mid top none = .ok (um, ut) ∧
      (farmVelocity (freshFarm ws d).1 (freshFarm ws d).2 mid {} (some ⟨1, 0, 0⟩)).1 = .ok u ∧ um = u.map V3.x := by
  obtain ⟨x, Cts, ws, h1, h2, h3, h4, -⟩ := C123_farm mini db S L A B hA hB hL CT HH s hs ct hct hlen "VC"
  have hAB : 0 < A * B := Nat.mul_pos hA hB
  have hidx : ∀ i j, i < A → j < B → j * A + i < A * B := by
    intro i j hi hj
    calc j * A + i < j * A + A := by omega
      _ = (j + 1) * A := by ring
      _ ≤ B * A := Nat.mul_le_mul_right _ hj
      _ = A * B := Nat.mul_comm _ _
  -- the last turbine of the record
  have hlast : s.xyz_wt.getLast? = some ⟨((A - 1 : ℕ) : ℝ) * S, (((B - 1 : ℕ) : ℝ) - ((B / 2 : ℕ) : ℝ)) * S, HH⟩ := by
    rw [List.getLast?_eq_getElem?, hpl, ← hpos (A - 1) (B - 1) (by omega) (by omega)]
    congr 1
    obtain ⟨a, rfl⟩ : ∃ a, A = a + 1 := ⟨A - 1, by omega⟩
    obtain ⟨b, rfl⟩ : ∃ b, B = b + 1 := ⟨B - 1, by omega⟩
    have : (a + 1) * (b + 1) = b * (a + 1) + a + 1 := by ring
    simp only [Nat.add_sub_cancel]
    omega
  obtain ⟨um, ut, a1, a2, a3, -⟩ := C93_ad_farm mini s.xyz_wt _ hlast ct (by rw [hlen, hpl]) mid top
  rw [← hct] at a1
  -- the turbines of the two farms
  let place : ℕ → ℕ → V3 ℝ := fun i j => ⟨i * S, ((j : ℝ) - ((B / 2 : ℕ) : ℝ)) * S, HH⟩
  let load : ℕ → ℕ → ℝ := fun i j => ct.getD (j * A + i) 0
  have hload : ∀ i j, i < A → j < B → ct[j * A + i]? = some (load i j) := by
    intro i j hi hj
    have := hidx i j hi hj
    rw [← hlen] at this
    simp only [load, List.getD_eq_getElem?_getD, List.getElem?_eq_getElem this, Option.getD_some]
  have hws : ws = (cells B A).map fun q => (blockageWT (place q.1 q.2) (decide (HH < 10)) "VC").run mini (farmCalls none (.fin (load q.1 q.2))) :=
    list_cells ws B A (fun i j => (blockageWT (place i j) (decide (HH < 10)) "VC").run mini (farmCalls none (.fin (load i j)))) (by rw [h3])
      (fun i j hi hj => h4 i j _ hi hj (hload i j hi hj))
  have hts : List.zipWith (fun p c => (WT.new 0.5 p ⟨1, 0, 0⟩ ⟨0, 0, 1⟩ ⟨0, 0, 10⟩ (some .pinf) false "VC").run mini
      [.yaw 0, .wind ⟨1, 0, 0⟩, .loading { Ct := some [.fin c] }]) s.xyz_wt ct =
      (cells A B).map fun q => (blockageWT (place q.2 q.1) false "VC").run mini (farmCalls none (.fin (load q.2 q.1))) := by
    refine list_cells _ A B (fun j i => (blockageWT (place i j) false "VC").run mini (farmCalls none (.fin (load i j)))) ?_ ?_
    · rw [List.length_zipWith, hpl, hlen, Nat.min_self, Nat.mul_comm]
    · intro j i hj hi
      rw [List.getElem?_zipWith, hpos i j hi hj, hload i j hi hj]
      rfl
  rw [hts] at a3
  -- the Floris farm can be evaluated
  have hgt : ∀ w ∈ ws, ∃ g, w.gamma_t = some [g] ∧ w.Model = "VC" := by
    intro w hw
    rw [hws] at hw
    obtain ⟨q, -, rfl⟩ := List.mem_map.mp hw
    obtain ⟨g, hg⟩ := (farm_load mini (place q.1 q.2) (decide (HH < 10)) "VC" none (load q.1 q.2)).2.2.1 rfl
    refine ⟨g, hg, ?_⟩
    exact (loading_frame mini (((blockageWT (place q.1 q.2) (decide (HH < 10)) "VC").updateYawPos 0).updateWind ⟨1, 0, 0⟩)
      { Ct := some [.fin (load q.1 q.2)] }).2.2.2.2.2.2.2.2.2.2.2.2.2
  have hev : ∀ w ∈ ws, ∃ v, (w.computeU mid { only_ind := true }).1 = .ok v := by
    intro w hw
    obtain ⟨g, hg, hM⟩ := hgt w hw
    exact vc_ok w g hg mid { only_ind := true } rfl rfl hM
  obtain ⟨u, hu⟩ := (C18_succeeds_iff (freshFarm ws d).1 (freshFarm ws d).2 mid {} (some ⟨1, 0, 0⟩)).mpr (by
    intro x hx
    obtain ⟨t, ht, rfl⟩ := List.mem_map.mp hx
    have ht : t < ws.length := List.mem_range.mp ht
    obtain ⟨v, hv⟩ := hev ws[t] (List.getElem_mem ht)
    refine ⟨t, v, rfl, ?_⟩
    unfold inducedBy
    rw [fresh_get ws d t ws[t] (List.getElem?_eq_getElem ht)]
    exact hv)
  obtain ⟨b1, b2⟩ := C92_field ws d mid {} ⟨1, 0, 0⟩ u hu
  refine ⟨x, Cts, ws, um, ut, u, h1, h2, a1, hu, ?_⟩
  apply List.ext_getElem?
  intro i
  by_cases hi : i < mid.length
  · have e1 : um[i]? = some (um.getD i 0) := by
      rw [List.getD_eq_getElem?_getD, List.getElem?_eq_getElem (by rw [a2]; exact hi)]; rfl
    have e2 : u[i]? = some (u.getD i 0) := by
      rw [List.getD_eq_getElem?_getD, List.getElem?_eq_getElem (by rw [b1]; exact hi)]; rfl
    rw [e1, List.getElem?_map, e2, Option.map_some, a3 i hi, b2 i hi]
    congr 1
    beta_reduce
    rw [V3.add_x]
    congr 1
    have hx : ∀ l : List (V3 Num), l.sum.x = (l.map V3.x).sum := by
      intro l
      induction l with
      | nil => rfl
      | cons a l ih => rw [List.sum_cons, List.map_cons, List.sum_cons, ← ih]; rfl
    rw [hx, hws, List.map_map, List.map_map, List.map_map]
    let val : ℕ → ℕ → Num := fun i' j => match (((blockageWT (place i' j) (decide (HH < 10)) "VC").run mini (farmCalls none (.fin (load i' j)))).computeU mid { only_ind := true }).1 with
      | .ok v => (v.getD i 0).x
      | .error _ => .nan
    have s1 := simCells_sum A B (fun j i' => val i' j)
    have s2 := simCells_sum B A val
    rw [Finset.sum_comm, ← s2] at s1
    refine (Eq.trans ?_ s1).trans ?_
    · congr 1
      apply List.map_congr_left
      intro q _
      simp only [Function.comp, val]
      rw [ground_value]
      rfl
    · congr 1
      apply List.map_congr_left
      intro q hq
      simp only [Function.comp, val]
      obtain ⟨v, hv⟩ := hev _ (by rw [hws]; exact List.mem_map_of_mem hq)
      rw [hv]
  · rw [List.getElem?_eq_none (by rw [a2]; omega), List.getElem?_eq_none (by rw [List.length_map, b1]; omega)]

/-- the layout `2x3` is read as 2 and 3, so the hypotheses of `C123_farm` and `C123_same_flow` are met by a database with one record -/
example (mini : (ℝ → Num) → ℝ) (d : WT) (mid top : List (V3 ℝ)) : ∃ (s : SimRec) (ws : List WT) (um ut : List Num) (u : List (V3 Num)),
    adFarm2VCFarm mini s.xyz_wt s.ct_wt mid top none = .ok (um, ut) ∧ s.xyz_wt.length = 6 ∧
    (farmVelocity (freshFarm ws d).1 (freshFarm ws d).2 mid {} (some ⟨1, 0, 0⟩)).1 = .ok u ∧ um = u.map V3.x := by
  have hL : layoutShape "2x3".toList = .ok [2, 3] := by rfl
  let pos : List (V3 ℝ) := (cells 2 3).map fun q => ⟨(q.2 : ℝ) * (5 : ℤ), ((q.1 : ℝ) - ((3 / 2 : ℕ) : ℝ)) * (5 : ℤ), 1⟩
  let s : SimRec := ⟨pos, (List.replicate 6 (0.8 : ℝ)).map .fin, []⟩
  obtain ⟨x, Cts, ws, um, ut, u, -, -, h1, h2, h3⟩ := C123_same_flow mini (fun _ => some s) 5 "2x3".toList 2 3 (by norm_num) (by norm_num) hL 0.8 1 s rfl
    (List.replicate 6 0.8) rfl rfl (by simp [s, pos, cells_length]) (by
      intro i j hi hj
      simp only [s, pos]
      rw [List.getElem?_map, cells_get 2 3 j i hj hi]
      rfl) d mid top
  exact ⟨s, ws, um, ut, u, h1, by simp [s, pos, cells_length], h2, h3⟩

/-- `0.8` and `0.801` name the same simulation, `0.8` and `0.81` do not (hypotheses of `C123_key`) -/
example : (∀ db, getSim db (.int 5) "2x3".toList 0.8 1 = getSim db (.flt (.fin 5)) "2x3".toList 0.801 1) ∧
    ¬ ∀ db, getSim db (.int 5) "2x3".toList 0.8 1 = getSim db (.int 5) "2x3".toList 0.81 1 := by
  have hL : layoutShape "2x3".toList = .ok [2, 3] := by rfl
  have r0 : roundEven (100 * 0.8) = 80 := by
    have : ⌊(100 * 0.8 : ℝ)⌋₊ = 80 := by rw [Nat.floor_eq_iff (by norm_num)]; norm_num
    unfold roundEven; rw [this]; norm_num
  have r1 : roundEven (100 * 0.801) = 80 := by
    have : ⌊(100 * 0.801 : ℝ)⌋₊ = 80 := by rw [Nat.floor_eq_iff (by norm_num)]; norm_num
    unfold roundEven; rw [this]; norm_num
  have r2 : roundEven (100 * 0.81) = 81 := by
    have : ⌊(100 * 0.81 : ℝ)⌋₊ = 81 := by rw [Nat.floor_eq_iff (by norm_num)]; norm_num
    unfold roundEven; rw [this]; norm_num
  constructor
  · exact (C123_key (.int 5) (.flt (.fin 5)) 5 5 rfl (by simp [PyReal.val]) _ _ _ _ hL hL 0.8 1 0.801 1 (by norm_num) (by norm_num) (by norm_num) (by norm_num)).mpr
      ⟨Or.inl rfl, rfl, by rw [r0, r1], rfl⟩
  · intro h
    have := ((C123_key (.int 5) (.int 5) 5 5 rfl rfl _ _ _ _ hL hL 0.8 1 0.81 1 (by norm_num) (by norm_num) (by norm_num) (by norm_num)).mp h).2.2.1
    rw [r0, r2] at this
    omega

end Wiz
