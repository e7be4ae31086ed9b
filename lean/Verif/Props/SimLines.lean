import Verif.Model.SimLines
import Verif.Props.BlockageData
import Verif.Props.BlockageError
import Verif.Props.BlockageFarm

/-! # C123: the database of actuator-disk farm simulations -/
namespace Wiz
open Spec Real Classical

theorem fmt02d_mem (k : ℕ) (c : Char) (h : c ∈ fmt02d k) : c.isDigit = true := pad_mem k 2 c h

theorem fmt2f_mem (x : ℝ) (c : Char) (h : c ∈ fmt2f x) : c = '-' ∨ c = '.' ∨ c.isDigit = true := by
  unfold fmt2f at h
  simp only [List.mem_append, List.mem_cons] at h
  rcases h with h | h | h | h
  · split_ifs at h
    · exact Or.inl (List.mem_singleton.mp h)
    · exact nomatch h
  · exact Or.inr (Or.inr (Nat.isDigit_of_mem_toDigits (by norm_num) (by norm_num) h))
  · exact Or.inr (Or.inl h)
  · exact Or.inr (Or.inr (fmt02d_mem _ _ h))

theorem fmt2f_us (x : ℝ) : '_' ∉ fmt2f x := by
  intro h
  rcases fmt2f_mem x _ h with h | h | h <;> exact absurd h (by decide)

/-- the printed non-negative number determines its value rounded to hundredths -/
theorem fmt2f_inj (x y : ℝ) (hx : 0 ≤ x) (hy : 0 ≤ y) : fmt2f x = fmt2f y ↔ roundEven (100 * x) = roundEven (100 * y) := by
  unfold fmt2f
  simp only [if_neg (not_lt.mpr hx), if_neg (not_lt.mpr hy), abs_of_nonneg hx, abs_of_nonneg hy, List.nil_append]
  constructor
  · intro h
    generalize roundEven (100 * x) = k at *
    generalize roundEven (100 * y) = l at *
    have key : ∀ a a' r r' : List Char, (∀ c ∈ a, c.isDigit = true) → (∀ c ∈ a', c.isDigit = true) → a ++ '.' :: r = a' ++ '.' :: r' → a = a' ∧ r = r' := by
      intro a
      induction a with
      | nil =>
        intro a' r r' _ h' e
        cases a' with
        | nil => exact ⟨rfl, (List.cons.inj e).2⟩
        | cons c a' =>
          have := h' c List.mem_cons_self
          rw [← (List.cons.inj e).1] at this
          exact absurd this (by decide)
      | cons c a ih =>
        intro a' r r' h h' e
        cases a' with
        | nil =>
          have := h c List.mem_cons_self
          rw [(List.cons.inj e).1] at this
          exact absurd this (by decide)
        | cons c' a' =>
          obtain ⟨e1, e2⟩ := List.cons.inj e
          obtain ⟨h1, h2⟩ := ih a' r r' (fun c m => h c (List.mem_cons_of_mem _ m)) (fun c m => h' c (List.mem_cons_of_mem _ m)) e2
          exact ⟨by rw [e1, h1], h2⟩
    obtain ⟨e1, e2⟩ := key _ _ _ _ (fun c hc => Nat.isDigit_of_mem_toDigits (by norm_num) (by norm_num) hc)
      (fun c hc => Nat.isDigit_of_mem_toDigits (by norm_num) (by norm_num) hc) h
    have e1 := congrArg (fun l => Nat.ofDigitChars 10 l 0) e1
    have e2 := congrArg (fun l => Nat.ofDigitChars 10 l 0) e2
    simp only [Nat.ofDigitChars_ten_toDigits] at e1
    simp only [fmt02d, ofDigits_pad] at e2
    omega
  · intro h; rw [h]

/-- a layout that is parsed has no underscore -/
theorem layout_us (L : List Char) (sh : List ℕ) (h : layoutShape L = .ok sh) : '_' ∉ L := by
  have hall : ∀ s ∈ L.splitOn 'x', '_' ∉ s := by
    intro s hs
    unfold layoutShape at h
    obtain ⟨n, hn⟩ : ∃ n, parseNat s = .ok n := by
      cases e : parseNat s with
      | ok n => exact ⟨n, rfl⟩
      | error e' =>
        exfalso
        revert h hs
        generalize L.splitOn 'x' = l
        intro h hs
        induction l generalizing sh with
        | nil => exact nomatch hs
        | cons a l ih =>
          rw [List.mapM_cons] at h
          rcases List.mem_cons.mp hs with rfl | hs
          · rw [e] at h; exact nomatch h
          · cases ea : parseNat a with
            | error e2 => rw [ea] at h; exact nomatch h
            | ok n =>
              cases el : l.mapM parseNat with
              | error e2 => rw [ea, el] at h; exact nomatch h
              | ok ns => exact ih ns el hs
    unfold parseNat at hn
    split_ifs at hn with hd
    intro hu
    have := List.all_eq_true.mp hd.2 _ hu
    exact absurd this (by decide)
  intro hu
  have hj := List.intercalate_splitOn (xs := L) 'x'
  rw [← hj] at hu
  revert hu hall
  generalize L.splitOn 'x' = l
  intro hall hu
  unfold List.intercalate at hu
  rw [List.mem_flatten] at hu
  obtain ⟨t, ht, hc⟩ := hu
  have : t ∈ l ∨ t = ['x'] := by
    clear hall hc hj h
    induction l with
    | nil => exact nomatch ht
    | cons a l ih =>
      cases l with
      | nil => exact Or.inl (by simpa using ht)
      | cons b l =>
        rw [List.intersperse_cons_cons] at ht
        rcases List.mem_cons.mp ht with rfl | ht
        · exact Or.inl List.mem_cons_self
        · rcases List.mem_cons.mp ht with rfl | ht
          · exact Or.inr rfl
          · exact (ih ht).imp_left (List.mem_cons_of_mem _)
  rcases this with h | h
  · exact hall t h hc
  · rw [h] at hc; exact absurd (List.mem_singleton.mp hc) (by decide)

/-- the keys -/
theorem simKey_inj (S S' : ℤ) (L L' : List Char) (hL : '_' ∉ L) (hL' : '_' ∉ L') (CT HH CT' HH' : ℝ) :
    simKey S L CT HH = simKey S' L' CT' HH' ↔ S = S' ∧ L = L' ∧ fmt2f CT = fmt2f CT' ∧ fmt2f HH = fmt2f HH' := by
  constructor
  · intro h
    unfold simKey at h
    simp only [show "_ct".toList = ['_', 'c', 't'] from rfl, show "_hh".toList = ['_', 'h', 'h'] from rfl,
      List.append_assoc, List.cons_append, List.nil_append, List.cons.injEq, true_and] at h
    obtain ⟨e1, h⟩ := cut_at (fmtD_us _) (fmtD_us _) h
    obtain ⟨e2, h⟩ := cut_at hL hL' h
    simp only [List.cons.injEq, true_and] at h
    obtain ⟨e3, h⟩ := cut_at (fmt2f_us _) (fmt2f_us _) h
    simp only [List.cons.injEq, true_and] at h
    exact ⟨fmtD_inj _ _ e1, e2, e3, h⟩
  · rintro ⟨rfl, rfl, h3, h4⟩
    unfold simKey
    rw [h3, h4]

/-- a well-formed record -/
noncomputable def goodRec (n : ℕ) : SimRec := ⟨[], List.replicate n 0, [[], []]⟩

theorem getSim_key (db : List Char → Option SimRec) (S : PyReal) (L : List Char) (CT HH : ℝ) (k : ℤ) (hk : intS (simS L S) = .ok k)
    (sh : List ℕ) (hs : layoutShape L = .ok sh) :
    getSim db S L CT HH = match db (simKey k L CT HH) with
      | none => .error "KeyError"
      | some s => if s.ct_wt.length ≠ sh.prod then .error "ValueError: cannot reshape array" else
          match s.line 0 with
          | .error e => .error e
          | .ok mid => if L ≠ "1x1".toList then (match s.line 1 with | .error e => .error e | .ok _ => .ok (s, mid.1, mid.2)) else .ok (s, mid.1, mid.2) := by
  unfold getSim
  rw [hk, hs]
  simp only [bind, Except.bind, simGet]
  cases db (simKey k L CT HH) with
  | none => rfl
  | some s =>
    simp only
    generalize s.line 0 = a
    generalize s.line 1 = b
    split_ifs <;> first | rfl | (cases a <;> first | rfl | (cases b <;> rfl))

/-- C123 (which simulation): for layouts that are read (numbers separated by `x`), spacings that are whole numbers and non-negative
thrust coefficients and hub heights, two requests give the same answer for every database exactly when the layouts are the same text,
the spacings are equal (they do not matter for `1x1`) and the thrust coefficients and hub heights agree when rounded to hundredths
(ties to even).  No two other requests are confused. -/
theorem C123_key (S S' : PyReal) (k k' : ℤ) (hS : S.val = .fin k) (hS' : S'.val = .fin k') (L L' : List Char) (sh sh' : List ℕ)
    (hL : layoutShape L = .ok sh) (hL' : layoutShape L' = .ok sh') (CT HH CT' HH' : ℝ) (h1 : 0 ≤ CT) (h2 : 0 ≤ HH) (h3 : 0 ≤ CT') (h4 : 0 ≤ HH') :
    (∀ db, getSim db S L CT HH = getSim db S' L' CT' HH') ↔
      (k = k' ∨ L = "1x1".toList) ∧ L = L' ∧ roundEven (100 * CT) = roundEven (100 * CT') ∧ roundEven (100 * HH) = roundEven (100 * HH') := by
  have hint : ∀ (T : PyReal) (t : ℤ), T.val = .fin t → intS T = .ok t := by
    intro T t h
    cases T with
    | int j =>
      have : (j : ℝ) = t := Num.fin.inj h
      rw [show j = t by exact_mod_cast this]; rfl
    | flt x =>
      have : x = .fin t := h
      subst this
      have ht : pyInt (t : ℝ) = t := by unfold pyInt; split_ifs <;> simp
      unfold intS
      simp only [ht, ne_eq, not_true_eq_false, if_false]
  have hs : ∀ (T : PyReal) (t : ℤ) (M : List Char), T.val = .fin t → intS (simS M T) = .ok (if M = "1x1".toList then 0 else t) := by
    intro T t M h
    unfold simS
    split_ifs
    · rfl
    · exact hint T t h
  have e := simKey_inj (if L = "1x1".toList then 0 else k) (if L' = "1x1".toList then 0 else k') L L' (layout_us _ _ hL) (layout_us _ _ hL') CT HH CT' HH'
  rw [fmt2f_inj CT CT' h1 h3, fmt2f_inj HH HH' h2 h4] at e
  constructor
  · intro h
    have h := h fun key => if key = simKey (if L = "1x1".toList then 0 else k) L CT HH then some (goodRec sh.prod) else none
    rw [getSim_key _ S L CT HH _ (hs S k L hS) sh hL, getSim_key _ S' L' CT' HH' _ (hs S' k' L' hS') sh' hL', if_pos rfl] at h
    have hk : simKey (if L' = "1x1".toList then 0 else k') L' CT' HH' = simKey (if L = "1x1".toList then 0 else k) L CT HH := by
      by_contra hne
      rw [if_neg hne] at h
      simp only [goodRec, List.length_replicate, ne_eq, not_true_eq_false, if_false, SimRec.line, List.getElem?_cons_zero,
        List.getElem?_cons_succ] at h
      split_ifs at h
    obtain ⟨a, b, c, d⟩ := e.mp hk.symm
    subst b
    refine ⟨?_, rfl, c, d⟩
    split_ifs at a with hh
    · exact Or.inr hh
    · exact Or.inl a
  · rintro ⟨a, rfl, c, d⟩ db
    have hk := e.mpr ⟨by rcases a with a | a <;> simp [a], rfl, c, d⟩
    rw [getSim_key _ S L CT HH _ (hs S k L hS) sh hL, getSim_key _ S' L CT' HH' _ (hs S' k' L hS') sh' hL', hk]
    rw [hL] at hL'
    rw [Except.ok.inj hL']

/-- C123 (non-integer spacing): a spacing that is not a whole number is refused, except for the layout `1x1`; `getSimCTs` refuses every
spacing of type `float`, even a whole one. -/
theorem C123_spacing (db : List Char → Option SimRec) (x : ℝ) (L : List Char) (hL : L ≠ "1x1".toList) (CT HH : ℝ) :
    ((∀ k : ℤ, (k : ℝ) ≠ x) → (∃ e, getSim db (.flt (.fin x)) L CT HH = .error e) ∧ (∃ e, getSimTop db (.flt (.fin x)) L CT HH = .error e) ∧
      ∃ e, get25 db (.flt (.fin x)) L CT HH = .error e) ∧
    (∃ e, getSimCTs db (.flt (.fin x)) L CT HH = .error e) := by
  constructor
  · intro h
    have hi : intS (simS L (.flt (.fin x))) = .error "Exception" := by
      unfold simS intS
      rw [if_neg hL]
      simp only
      rw [if_pos (h _)]
    refine ⟨⟨"Exception", ?_⟩, ⟨"Exception", ?_⟩, ⟨"Exception", ?_⟩⟩
    · unfold getSim; rw [hi]; rfl
    · unfold getSimTop; rw [hi]; rfl
    · unfold get25 getSim; rw [hi]; rfl
  · refine ⟨"ValueError: Unknown format code 'd' for object of type 'float'", ?_⟩
    unfold getSimCTs simS
    rw [if_neg hL]
    rfl

/-- C123 (single turbine): for the layout `1x1` the spacing is ignored by every request, and the upper probe line is never returned. -/
theorem C123_single (db : List Char → Option SimRec) (S S' : PyReal) (CT HH : ℝ) :
    getSim db S "1x1".toList CT HH = getSim db S' "1x1".toList CT HH ∧
    get25 db S "1x1".toList CT HH = get25 db S' "1x1".toList CT HH ∧
    getSimCTs db S "1x1".toList CT HH = getSimCTs db S' "1x1".toList CT HH ∧
    ∃ e, getSimTop db S "1x1".toList CT HH = .error e := by
  have h : ∀ T, simS "1x1".toList T = .int 0 := fun T => if_pos rfl
  refine ⟨?_, ?_, ?_, ?_⟩
  · unfold getSim; rw [h, h]
  · unfold get25 getSim; rw [h, h]
  · unfold getSimCTs; rw [h, h]
  · unfold getSimTop
    rw [h]
    have : intS (.int 0) = .ok 0 := rfl
    rw [this]
    simp only [bind, Except.bind, simGet]
    cases layoutShape "1x1".toList with
    | error e => exact ⟨e, rfl⟩
    | ok sh =>
      cases db (simKey 0 "1x1".toList CT HH) with
      | none => exact ⟨_, rfl⟩
      | some s => exact ⟨"UnboundLocalError", rfl⟩

/-- C123 (induction 2.5 diameters upstream): if the record has a middle line with increasing abscissas and real velocities, `get25` returns
the piecewise-linear interpolation of the velocities at `x = -2.5`. -/
theorem C123_probe (db : List Char → Option SimRec) (S : PyReal) (L : List Char) (CT HH : ℝ) (s : SimRec) (X : List ℝ) (U : List ℝ)
    (h : getSim db S L CT HH = .ok (s, X, U.map .fin)) (hne : X ≠ []) (hX : X.Pairwise (· < ·)) (hl : U.length = X.length)
    (ℓ : ℝ → ℝ) (hℓ : Interpolates X U ℓ) : get25 db S L CT HH = .ok (.fin (ℓ (-2.5))) := by
  unfold get25
  rw [h]
  simp only [bind, Except.bind, if_neg hne, pure, Except.pure]
  rw [interp1_linear _ X U ℓ hne hX hl hℓ]

/-- C123 (what is returned): for an `int` spacing and a layout that is read, the record is looked up under the printed name; `getSim` returns
it with the abscissas and axial velocities of its first probe line, `getSimTop` (not for `1x1`) with those of the second; a record whose
number of thrust coefficients is not the product of the layout, or that is missing, is an error. -/
theorem C123_lines (db : List Char → Option SimRec) (S : ℤ) (L : List Char) (sh : List ℕ) (hL : layoutShape L = .ok sh) (CT HH : ℝ) :
    (∀ s mid top rest, db (simKey (if L = "1x1".toList then 0 else S) L CT HH) = some s → s.lines = mid :: top :: rest →
      (s.ct_wt.length = sh.prod → getSim db (.int S) L CT HH = .ok (s, mid.map fun q => q.1.x, mid.map fun q => q.2.x)) ∧
      (L ≠ "1x1".toList → getSimTop db (.int S) L CT HH = .ok (s, top.map fun q => q.1.x, top.map fun q => q.2.x))) ∧
    (∀ q, getSim db (.int S) L CT HH = .ok q → db (simKey (if L = "1x1".toList then 0 else S) L CT HH) = some q.1 ∧ q.1.ct_wt.length = sh.prod) := by
  have hk : intS (simS L (.int S)) = .ok (if L = "1x1".toList then 0 else S) := by
    unfold simS; split_ifs <;> rfl
  have e := getSim_key db (.int S) L CT HH _ hk sh hL
  constructor
  · intro s mid top rest hs hl
    have l0 : s.line 0 = .ok (mid.map fun q => q.1.x, mid.map fun q => q.2.x) := by unfold SimRec.line; rw [hl]; rfl
    have l1 : s.line 1 = .ok (top.map fun q => q.1.x, top.map fun q => q.2.x) := by unfold SimRec.line; rw [hl]; rfl
    constructor
    · intro hc
      rw [e, hs]
      simp only
      rw [if_neg (by simpa using hc), l0, l1]
      simp only [ite_self]
    · intro h1
      unfold getSimTop
      rw [hk, hL]
      simp only [bind, Except.bind, simGet]
      rw [hs]
      simp only [if_neg h1, l1, pure, Except.pure]
  · intro q hq
    rw [e] at hq
    cases hs : db (simKey (if L = "1x1".toList then 0 else S) L CT HH) with
    | none => rw [hs] at hq; exact nomatch hq
    | some s =>
      rw [hs] at hq
      simp only at hq
      by_cases hc : s.ct_wt.length = sh.prod
      · rw [if_neg (by simpa using hc)] at hq
        have : q.1 = s := by
          cases h0 : s.line 0 with
          | error e => rw [h0] at hq; exact nomatch hq
          | ok m =>
            rw [h0] at hq
            simp only at hq
            split_ifs at hq
            · cases h1 : s.line 1 with
              | error e => rw [h1] at hq; exact nomatch hq
              | ok t => rw [h1] at hq; rw [← Except.ok.inj hq]
            · rw [← Except.ok.inj hq]
        rw [this]
        exact ⟨rfl, hc⟩
      · rw [if_pos hc] at hq; exact nomatch hq

end Wiz
