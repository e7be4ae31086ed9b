import Verif.Model.ColorMap
import Mathlib.Tactic.IntervalCases

/-! # C98: colour maps -/
namespace Wiz
open Classical

theorem colorRows_ok (seq : List (List ℝ)) (nComp : ℕ) (hc : ∀ c ∈ seq, c.length = nComp) :
    ∀ (vs : List ℝ) (i : ℕ), i + vs.length ≤ seq.length → ∃ rows, colorRows seq nComp i vs = .ok rows ∧ rows.length = vs.length ∧
      ∀ (k : ℕ) (v : ℝ), vs[k]? = some v → rows[k]? = some ⟨v, if i + k = 0 then none else seq[i + k]?, if i + k + 1 = seq.length then none else seq[i + k]?⟩ := by
  intro vs
  induction vs with
  | nil => intro i _; exact ⟨[], rfl, rfl, by simp⟩
  | cons v vs ih =>
    intro i hi
    rw [List.length_cons] at hi
    obtain ⟨rows, h1, h2, h3⟩ := ih (i + 1) (by omega)
    have hlt : i < seq.length := by omega
    have hr : colorRow seq nComp i v = .ok ⟨v, if i = 0 then none else seq[i]?, if i + 1 = seq.length then none else seq[i]?⟩ := by
      have hlen := hc _ (List.getElem_mem hlt)
      have e1 : unpackColor nComp (some seq[i]) = .ok (some seq[i]) := by unfold unpackColor; simp only; rw [if_pos hlen]
      have d1 : doubledAt seq (2 * i) = .ok (if i = 0 then none else some seq[i]) := by
        unfold doubledAt
        by_cases h : i = 0
        · rw [if_pos (by omega), if_pos h]
        · rw [if_neg (by omega), if_neg h, show 2 * i / 2 = i by omega, List.getElem?_eq_getElem hlt]
      have d2 : doubledAt seq (2 * i + 1) = .ok (if i + 1 = seq.length then none else some seq[i]) := by
        unfold doubledAt
        by_cases h : i + 1 = seq.length
        · rw [if_pos (by omega), if_pos h]
        · rw [if_neg (by omega), if_neg h, show (2 * i + 1) / 2 = i by omega, List.getElem?_eq_getElem hlt]
      have u : ∀ p : Prop, [Decidable p] → unpackColor nComp (if p then none else some seq[i]) = .ok (if p then none else some seq[i]) := by
        intro p _
        by_cases h : p
        · rw [if_pos h]; rfl
        · rw [if_neg h, e1]
      unfold colorRow
      rw [d1]
      simp only [u]
      rw [d2]
      simp only [u]
      rw [List.getElem?_eq_getElem hlt]
    refine ⟨⟨v, if i = 0 then none else seq[i]?, if i + 1 = seq.length then none else seq[i]?⟩ :: rows, ?_, by simp [h2], ?_⟩
    · unfold colorRows
      rw [hr]
      simp only
      rw [h1]
    · intro k w hk
      cases k with
      | zero =>
        simp only [List.getElem?_cons_zero, Option.some.injEq] at hk
        subst hk
        rfl
      | succ k =>
        rw [List.getElem?_cons_succ] at hk ⊢
        rw [h3 k w hk]
        congr 2
        · rw [show i + 1 + k = i + (k + 1) by omega]; 
        · rw [show i + 1 + k = i + (k + 1) by omega]

/-- C98: `make_colormap` for colours with the same number of components (3 or 4) and at most as many values: one row per
value, with the colour of that index on both sides, except that nothing is defined to the left of the first and to the
right of the last colour.  Without values the positions are equally spaced from 0 to 1. -/
theorem C98_rows (seq : List (List ℝ)) (hs : seq ≠ []) (m : ℕ) (hm : m = 3 ∨ m = 4) (hc : ∀ c ∈ seq, c.length = m)
    (values : Option (List ℝ)) (hv : ∀ vs, values = some vs → vs.length ≤ seq.length) :
    ∃ rows, makeColormap seq values = .ok rows ∧ rows.length = (values.elim seq.length List.length) ∧
      ∀ (k : ℕ) (r : CRow), rows[k]? = some r →
        (match values with | some vs => vs[k]? = some r.v | none => r.v = 0 + (k : ℝ) * ((1 - 0) / ((seq.length : ℝ) - 1))) ∧
        r.left = (if k = 0 then none else seq[k]?) ∧ r.right = (if k + 1 = seq.length then none else seq[k]?) := by
  obtain ⟨c0, cs, rfl⟩ := List.exists_cons_of_ne_nil hs
  have hn : (if c0.length = 4 then 4 else 3) = m := by
    have := hc c0 (by simp)
    rcases hm with rfl | rfl
    · rw [if_neg (by omega)]
    · rw [if_pos this]
  have hlin : (linspace 0 1 (c0 :: cs).length).length = (c0 :: cs).length := by unfold linspace; simp
  obtain ⟨rows, h1, h2, h3⟩ := colorRows_ok (c0 :: cs) m hc (values.getD (linspace 0 1 (c0 :: cs).length)) 0 (by
    rw [Nat.zero_add]
    cases values with
    | none => rw [Option.getD_none, hlin]
    | some vs => exact hv vs rfl)
  refine ⟨rows, ?_, ?_, ?_⟩
  · unfold makeColormap
    simp only [hn]
    exact h1
  · rw [h2]
    cases values with
    | none => rw [Option.getD_none, hlin]; rfl
    | some vs => rfl
  · intro k r hk
    obtain ⟨v, hvk⟩ : ∃ v, (values.getD (linspace 0 1 (c0 :: cs).length))[k]? = some v := by
      have : k < (values.getD (linspace 0 1 (c0 :: cs).length)).length := by
        rw [← h2]
        by_contra hcon
        rw [List.getElem?_eq_none (by omega)] at hk
        exact nomatch hk
      exact ⟨_, List.getElem?_eq_getElem this⟩
    have := h3 k v hvk
    rw [hk] at this
    simp only [Option.some.injEq, Nat.zero_add] at this
    rw [this]
    refine ⟨?_, rfl, rfl⟩
    cases values with
    | none =>
      simp only [Option.getD_none, linspace, List.getElem?_map] at hvk
      have hlt : k < (c0 :: cs).length := by
        by_contra hcon
        rw [List.getElem?_eq_none (by simpa using hcon)] at hvk
        exact nomatch hvk
      rw [List.getElem?_range hlt] at hvk
      exact (Option.some.inj hvk).symm
    | some vs => exact hvk

/-- C98: more values than colours raise. -/
theorem C98_too_many (seq : List (List ℝ)) (values : List ℝ) (h : seq.length < values.length) :
    ∃ e, makeColormap seq (some values) = .error e := by
  cases seq with
  | nil => exact ⟨_, rfl⟩
  | cons c0 cs =>
    have key : ∀ (vs : List ℝ) (i n : ℕ), (c0 :: cs).length < i + vs.length → i ≤ (c0 :: cs).length → ∃ e, colorRows (c0 :: cs) n i vs = .error e := by
      intro vs
      induction vs with
      | nil => intro i n h1 h2; simp at h1 h2; omega
      | cons v vs ih =>
        intro i n h1 h2
        unfold colorRows
        cases hr : colorRow (c0 :: cs) n i v with
        | error e => exact ⟨e, rfl⟩
        | ok r =>
          simp only
          by_cases hi : i < (c0 :: cs).length
          · obtain ⟨e, he⟩ := ih (i + 1) n (by have := @List.length_cons ℝ v vs; omega) (by omega)
            rw [he]
            exact ⟨e, rfl⟩
          · exfalso
            have hi' : i = (c0 :: cs).length := by omega
            unfold colorRow at hr
            have : doubledAt (c0 :: cs) (2 * i) = .error "IndexError" := by
              unfold doubledAt
              rw [if_neg (by rw [hi', List.length_cons]; omega), List.getElem?_eq_none (by omega)]
            rw [this] at hr
            exact nomatch hr
    exact key values 0 _ (by omega) (by omega)

theorem speeds_min (a b : ℝ) : listMin (cmapSpeeds a b) = min (min a 0.9) b := by
  unfold listMin cmapSpeeds
  simp only [List.foldl_cons, List.foldl_nil]
  rw [show (0.90:ℝ) = 0.9 by norm_num]
  have h : min a 0.9 ≤ (0.9:ℝ) := min_le_right _ _
  rw [min_eq_left (show min a 0.9 ≤ (0.95:ℝ) by linarith), min_eq_left (show min a 0.9 ≤ (0.98:ℝ) by linarith),
    min_eq_left (show min a 0.9 ≤ (1.00 - 0.001:ℝ) by linarith), min_eq_left (show min a 0.9 ≤ (1.00:ℝ) by linarith),
    min_eq_left (show min a 0.9 ≤ (1.00 + 0.001:ℝ) by linarith)]

theorem speeds_max (a b : ℝ) : listMax (cmapSpeeds a b) = max (max a 1.001) b := by
  unfold listMax cmapSpeeds
  simp only [List.foldl_cons, List.foldl_nil]
  rw [show (1.00 + 0.001 : ℝ) = 1.001 by norm_num]
  congr 1
  simp only [max_assoc]
  congr 1
  norm_num

/-- the rows of the shipped colour map -/
theorem getCmap_rows (a b α : ℝ) : ∃ m M : ℝ, m = min (min a 0.9) b ∧ M = max (max a 1.001) b ∧
    getCmap a b α = .ok [
      ⟨(a - m) / (M - m), none, some [63/255, 63/255, 153/255, α]⟩,
      ⟨(0.9 - m) / (M - m), some [159/255, 159/255, 204/255, α], some [159/255, 159/255, 204/255, α]⟩,
      ⟨(0.95 - m) / (M - m), some [158/255, 204/255, 170/255, α], some [158/255, 204/255, 170/255, α]⟩,
      ⟨(0.98 - m) / (M - m), some [1, 212/255, 96/255, α], some [1, 212/255, 96/255, α]⟩,
      ⟨(0.999 - m) / (M - m), some [1, 1, 1, α], some [1, 1, 1, α]⟩,
      ⟨(1 - m) / (M - m), some [1, 1, 1, α], some [1, 1, 1, α]⟩,
      ⟨(1.001 - m) / (M - m), some [1, 1, 1, α], some [1, 1, 1, α]⟩,
      ⟨(b - m) / (M - m), some [138/255, 42/255, 93/255, α], none⟩] := by
  refine ⟨_, _, (speeds_min a b), (speeds_max a b), ?_⟩
  unfold getCmap
  simp only
  generalize listMin (cmapSpeeds a b) = m
  generalize listMax (cmapSpeeds a b) = M
  simp only [cmapSpeeds, cmapColors, makeColormap, List.map_cons, List.map_nil, Option.getD_some, colorRows, colorRow, doubledAt, unpackColor, List.length_cons, List.length_nil]
  norm_num

/-- C98: the map of `get_cmap` is accepted by Matplotlib exactly if the smallest speed is at most 0.9 and the largest at
least 1.001. -/
theorem C98_valid (a b α : ℝ) : ∃ rows, getCmap a b α = .ok rows ∧ (cmapValid rows ↔ a ≤ 0.9 ∧ 1.001 ≤ b) := by
  obtain ⟨m, M, hm, hM, h⟩ := getCmap_rows a b α
  refine ⟨_, h, ?_⟩
  have h1 : m ≤ 0.9 := by rw [hm]; exact le_trans (min_le_left _ _) (min_le_right _ _)
  have h2 : 1.001 ≤ M := by rw [hM]; exact le_trans (le_max_right _ _) (le_max_left _ _)
  have hp : 0 < M - m := by norm_num at h1 h2 ⊢; linarith
  unfold cmapValid
  constructor
  · rintro ⟨-, -, h3⟩
    simp only [List.map_cons, List.map_nil, List.pairwise_cons] at h3
    obtain ⟨h4, -, -, -, -, -, h5, -⟩ := h3
    have h4 := h4 ((0.9 - m) / (M - m)) (by simp)
    have h5 := h5 ((b - m) / (M - m)) (by simp)
    rw [div_le_div_iff_of_pos_right hp] at h4 h5
    constructor <;> linarith
  · rintro ⟨ha, hb⟩
    have em : m = a := by
      rw [hm, min_eq_left ha, min_eq_left]
      norm_num at ha hb; linarith
    have eM : M = b := by
      rw [hM, max_eq_right (show a ≤ 1.001 by norm_num at ha ⊢; linarith), max_eq_right hb]
    refine ⟨⟨_, rfl, ?_⟩, ⟨_, rfl, ?_⟩, ?_⟩
    · change (a - m) / (M - m) = 0
      rw [em]; simp
    · change (b - m) / (M - m) = 1
      rw [← eM]; exact div_self hp.ne'
    · have k : ∀ x y : ℝ, x ≤ y → (x - m) / (M - m) ≤ (y - m) / (M - m) := by
        intro x y hxy
        rw [div_le_div_iff_of_pos_right hp]; linarith
      norm_num at ha hb
      simp only [List.map_cons, List.map_nil, List.pairwise_cons, List.mem_cons, List.not_mem_nil, or_false, forall_eq_or_imp, forall_eq, IsEmpty.forall_iff, implies_true, List.Pairwise.nil, and_true]
      refine ⟨⟨?_, ?_, ?_, ?_, ?_, ?_, ?_⟩, ⟨?_, ?_, ?_, ?_, ?_, ?_⟩, ⟨?_, ?_, ?_, ?_, ?_⟩, ⟨?_, ?_, ?_, ?_⟩, ⟨?_, ?_, ?_⟩, ⟨?_, ?_⟩, ?_⟩ <;>
        exact k _ _ (by norm_num <;> linarith)

theorem cmap_step (a b s x y : ℝ) (hab : a < b) (c d : List ℝ) (l r : Option (List ℝ)) (rows : List CRow) :
    cmapAt (⟨(x - a) / (b - a), l, some c⟩ :: ⟨(y - a) / (b - a), some d, r⟩ :: rows) ((s - a) / (b - a)) =
      if s ≤ y then some (List.zipWith (fun c d => c + (s - x) / (y - x) * (d - c)) c d)
      else cmapAt (⟨(y - a) / (b - a), some d, r⟩ :: rows) ((s - a) / (b - a)) := by
  have hp : 0 < b - a := by linarith
  have hw : ((s - a) / (b - a) - (x - a) / (b - a)) / ((y - a) / (b - a) - (x - a) / (b - a)) = (s - x) / (y - x) := by
    rw [← sub_div, ← sub_div, div_div_div_cancel_right₀ hp.ne']
    congr 1 <;> ring
  rw [cmapAt]
  simp only [div_le_div_iff_of_pos_right hp, sub_le_sub_iff_right, hw]

/-- C98: for a valid range of speeds every speed in it gets a colour with the given opacity; the colour is white from 0.999
to 1.001 (no induction) and its blue component is below 1 at every other speed, so nothing else is shown white; the
smallest speed is dark blue and a largest speed above 1.001 dark red. -/
theorem C98_white (a b α s : ℝ) (ha : a ≤ 0.9) (hb : 1.001 ≤ b) (h1 : a ≤ s) (h2 : s ≤ b) :
    ∃ rows r g bl, getCmap a b α = .ok rows ∧ cmapAt rows ((s - a) / (b - a)) = some [r, g, bl, α] ∧
      (0.999 ≤ s ∧ s ≤ 1.001 → r = 1 ∧ g = 1 ∧ bl = 1) ∧ (¬ (0.999 ≤ s ∧ s ≤ 1.001) → bl < 1) ∧
      (s = a → r = 63/255 ∧ g = 63/255 ∧ bl = 153/255) ∧ (s = b → 1.001 < b → r = 138/255 ∧ g = 42/255 ∧ bl = 93/255) := by
  obtain ⟨m, M, hm, hM, h⟩ := getCmap_rows a b α
  have em : m = a := by
    rw [hm, min_eq_left ha, min_eq_left]
    norm_num at ha hb; linarith
  have eM : M = b := by
    rw [hM, max_eq_right (show a ≤ 1.001 by norm_num at ha ⊢; linarith), max_eq_right hb]
  rw [em, eM] at h
  norm_num at ha hb
  have hab : a < b := by linarith
  have lerp : ∀ (x y : ℝ), x ≤ s → s ≤ y → 0 ≤ (s - x) / (y - x) ∧ (s - x) / (y - x) ≤ 1 := by
    intro x y hx hy
    rcases eq_or_lt_of_le (le_trans hx hy) with e | e
    · rw [e]; simp
    · have : 0 < y - x := by linarith
      exact ⟨div_nonneg (by linarith) this.le, by rw [div_le_one this]; linarith⟩
  have lerp1 : ∀ (x y : ℝ), x ≤ s → s < y → (s - x) / (y - x) < 1 := by
    intro x y hx hy
    rw [div_lt_one (by linarith)]; linarith
  have lerp0 : ∀ (x y : ℝ), x < s → s ≤ y → 0 < (s - x) / (y - x) := fun x y hx hy => div_pos (by linarith) (by linarith)
  by_cases c1 : s ≤ 0.9
  · obtain ⟨w0, w1⟩ := lerp a 0.9 h1 c1
    refine ⟨_, _, _, _, h, by rw [cmap_step a b s a 0.9 hab, if_pos c1]; simp; exact ⟨rfl, rfl, rfl⟩, ?_, ?_, ?_, ?_⟩
    · intro hw; norm_num at hw c1; linarith [hw.1]
    · intro _; nlinarith
    · intro e; rw [e]; simp
    · intro e hlt; norm_num at c1 hlt; linarith
  by_cases c2 : s ≤ 0.95
  · obtain ⟨w0, w1⟩ := lerp 0.9 0.95 (not_le.mp c1).le c2
    refine ⟨_, _, _, _, h, by rw [cmap_step a b s a 0.9 hab, if_neg c1, cmap_step a b s 0.9 0.95 hab, if_pos c2]; simp; exact ⟨rfl, rfl, rfl⟩, ?_, ?_, ?_, ?_⟩
    · intro hw; norm_num at hw c2; linarith [hw.1]
    · intro _; nlinarith
    · intro e; norm_num at c1; linarith
    · intro e hlt; norm_num at c2 hlt; linarith
  by_cases c3 : s ≤ 0.98
  · obtain ⟨w0, w1⟩ := lerp 0.95 0.98 (not_le.mp c2).le c3
    refine ⟨_, _, _, _, h, by rw [cmap_step a b s a 0.9 hab, if_neg c1, cmap_step a b s 0.9 0.95 hab, if_neg c2, cmap_step a b s 0.95 0.98 hab, if_pos c3]; simp; exact ⟨rfl, rfl, rfl⟩, ?_, ?_, ?_, ?_⟩
    · intro hw; norm_num at hw c3; linarith [hw.1]
    · intro _; nlinarith
    · intro e; norm_num at c1; linarith
    · intro e hlt; norm_num at c3 hlt; linarith
  by_cases c4 : s ≤ 0.999
  · obtain ⟨w0, w1⟩ := lerp 0.98 0.999 (not_le.mp c3).le c4
    refine ⟨_, _, _, _, h, by rw [cmap_step a b s a 0.9 hab, if_neg c1, cmap_step a b s 0.9 0.95 hab, if_neg c2, cmap_step a b s 0.95 0.98 hab, if_neg c3, cmap_step a b s 0.98 0.999 hab, if_pos c4]; simp; exact ⟨rfl, rfl, rfl⟩, ?_, ?_, ?_, ?_⟩
    · intro hw
      have : s = 0.999 := le_antisymm c4 hw.1
      rw [this]; norm_num
    · intro hw
      have hlt : s < 0.999 := by
        by_contra hc
        push Not at hc
        exact hw ⟨hc, by norm_num at c4 ⊢; linarith⟩
      have := lerp1 0.98 0.999 (not_le.mp c3).le hlt
      nlinarith
    · intro e; norm_num at c1; linarith
    · intro e hlt; norm_num at c4 hlt; linarith
  by_cases c5 : s ≤ 1
  · refine ⟨_, 1, 1, 1, h, by rw [cmap_step a b s a 0.9 hab, if_neg c1, cmap_step a b s 0.9 0.95 hab, if_neg c2, cmap_step a b s 0.95 0.98 hab, if_neg c3, cmap_step a b s 0.98 0.999 hab, if_neg c4, cmap_step a b s 0.999 1 hab, if_pos c5]; simp, ?_, ?_, ?_, ?_⟩
    · intro _; exact ⟨rfl, rfl, rfl⟩
    · intro hw; exact absurd ⟨(not_le.mp c4).le, by norm_num; linarith⟩ hw
    · intro e; norm_num at c1; linarith
    · intro e hlt; norm_num at c5 hlt; linarith
  by_cases c6 : s ≤ 1.001
  · refine ⟨_, 1, 1, 1, h, by rw [cmap_step a b s a 0.9 hab, if_neg c1, cmap_step a b s 0.9 0.95 hab, if_neg c2, cmap_step a b s 0.95 0.98 hab, if_neg c3, cmap_step a b s 0.98 0.999 hab, if_neg c4, cmap_step a b s 0.999 1 hab, if_neg c5, cmap_step a b s 1 1.001 hab, if_pos c6]; simp, ?_, ?_, ?_, ?_⟩
    · intro _; exact ⟨rfl, rfl, rfl⟩
    · intro hw; exact absurd ⟨(not_le.mp c4).le, c6⟩ hw
    · intro e; norm_num at c1; linarith
    · intro e hlt; norm_num at c6 hlt; linarith
  · obtain ⟨w0, w1⟩ := lerp 1.001 b (not_le.mp c6).le h2
    have wp := lerp0 1.001 b (not_le.mp c6) h2
    refine ⟨_, _, _, _, h, by rw [cmap_step a b s a 0.9 hab, if_neg c1, cmap_step a b s 0.9 0.95 hab, if_neg c2, cmap_step a b s 0.95 0.98 hab, if_neg c3, cmap_step a b s 0.98 0.999 hab, if_neg c4, cmap_step a b s 0.999 1 hab, if_neg c5, cmap_step a b s 1 1.001 hab, if_neg c6, cmap_step a b s 1.001 b hab, if_pos h2]; simp; exact ⟨rfl, rfl, rfl⟩, ?_, ?_, ?_, ?_⟩
    · intro hw; exact absurd hw.2 c6
    · intro _; nlinarith
    · intro e; norm_num at c1; linarith
    · intro e hlt
      rw [e, div_self (by linarith)]; norm_num

/-- the range of the article plots -/
example : ∃ rows r g bl, getCmap 0.5 1.03 1 = .ok rows ∧ cmapAt rows ((1 - 0.5) / (1.03 - 0.5)) = some [r, g, bl, 1] ∧ r = 1 ∧ g = 1 ∧ bl = 1 := by
  obtain ⟨rows, r, g, bl, h1, h2, h3, -⟩ := C98_white 0.5 1.03 1 1 (by norm_num) (by norm_num) (by norm_num) (by norm_num)
  exact ⟨rows, r, g, bl, h1, h2, h3 (by norm_num)⟩
end Wiz
