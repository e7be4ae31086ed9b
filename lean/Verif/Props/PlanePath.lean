import Verif.Props.PlaneIO
import Verif.Spec.Path
/-! # Which names share plane files (C74) -/
namespace Wiz
open Spec

theorem splitSlash_ne (l : List Char) : splitSlash l ≠ [] := by
  cases l with
  | nil => simp [splitSlash]
  | cons c cs =>
    unfold splitSlash
    split_ifs
    · simp
    · split <;> simp

theorem splitSlash_eq (l : List Char) : splitSlash l = l.splitOn '/' := by
  induction l with
  | nil => simp [splitSlash]
  | cons c cs ih =>
    rw [splitSlash, ih, List.splitOn, List.splitOn, List.splitOnP_cons_eq_if_modifyHead]
    by_cases hc : c = '/'
    · simp [hc]
    · simp only [if_neg hc, beq_iff_eq]
      have := splitSlash_ne cs
      rw [ih, List.splitOn] at this
      cases e : List.splitOnP (fun x => x == '/') cs with
      | nil => exact absurd e this
      | cons a t => rfl

theorem splitSlash_join (l : List (List Char)) (hne : l ≠ []) (h : ∀ c ∈ l, '/' ∉ c) : splitSlash (joinSlash l) = l := by
  have app : ∀ (a rest : List Char), '/' ∉ a → splitSlash (a ++ '/' :: rest) = a :: splitSlash rest := by
    intro a rest ha
    induction a with
    | nil => simp [splitSlash]
    | cons c a ih =>
      have h1 : c ≠ '/' := fun e => ha (by simp [e])
      have h2 := ih (fun e => ha (by simp [e]))
      rw [List.cons_append, splitSlash, if_neg h1, h2]
  have sing : ∀ a : List Char, '/' ∉ a → splitSlash a = [a] := by
    intro a ha
    induction a with
    | nil => rfl
    | cons c a ih =>
      have h1 : c ≠ '/' := fun e => ha (by simp [e])
      rw [splitSlash, if_neg h1, ih (fun e => ha (by simp [e]))]
  induction l with
  | nil => exact absurd rfl hne
  | cons a l ih =>
    cases l with
    | nil => exact sing a (h a (by simp))
    | cons b l =>
      rw [joinSlash, app a _ (h a (by simp)), ih (by simp) (fun c hc => h c (by simp [hc]))]

theorem splitSlash_no_slash (l : List Char) : ∀ c ∈ splitSlash l, '/' ∉ c := by
  induction l with
  | nil => simp [splitSlash]
  | cons c cs ih =>
    rw [splitSlash]
    by_cases hc : c = '/'
    · rw [if_pos hc]; intro d hd; rcases List.mem_cons.mp hd with rfl | hd
      · simp
      · exact ih d hd
    · rw [if_neg hc]
      cases e : splitSlash cs with
      | nil => exact absurd e (splitSlash_ne cs)
      | cons a t =>
        rw [e] at ih
        intro d hd
        rcases List.mem_cons.mp hd with rfl | hd
        · intro hm
          rcases List.mem_cons.mp hm with rfl | hm
          · exact hc rfl
          · exact ih a (by simp) hm
        · exact ih d (by simp [hd])

/-- a name that the loop keeps -/
def GoodName (c : List Char) : Prop := c ≠ [] ∧ c ≠ ['.'] ∧ c ≠ ['.', '.'] ∧ '/' ∉ c

/-- the stack of `normpath` encodes the place reached so far -/
theorem norm_walk (abs : Bool) (comps : List (List Char)) (hc : ∀ c ∈ comps, '/' ∉ c) (pl : Place)
    (hd : ∀ c ∈ pl.down, GoodName c) (hu : abs = true → pl.up = 0) :
    let pl' := comps.foldl (Place.step abs) pl
    comps.foldl (normStep abs) (pl.down ++ List.replicate pl.up ['.', '.']) = pl'.down ++ List.replicate pl'.up ['.', '.'] ∧
      (∀ c ∈ pl'.down, GoodName c) ∧ (abs = true → pl'.up = 0) := by
  induction comps generalizing pl with
  | nil => exact ⟨rfl, hd, hu⟩
  | cons c comps ih =>
    simp only [List.foldl_cons]
    have hcs : ∀ c ∈ comps, '/' ∉ c := fun d h => hc d (by simp [h])
    have hc0 := hc c (by simp)
    have key : normStep abs (pl.down ++ List.replicate pl.up ['.', '.']) c =
        (pl.step abs c).down ++ List.replicate (pl.step abs c).up ['.', '.'] ∧
        (∀ d ∈ (pl.step abs c).down, GoodName d) ∧ (abs = true → (pl.step abs c).up = 0) := by
      unfold normStep Place.step
      by_cases h1 : c = [] ∨ c = ['.']
      · simp only [if_pos h1]; exact ⟨trivial, hd, hu⟩
      · simp only [if_neg h1]
        by_cases h2 : c = ['.', '.']
        · simp only [if_pos h2]
          obtain ⟨up, down⟩ := pl
          cases down with
          | cons d rest =>
            have hdd : d ≠ ['.', '.'] := (hd d (by simp)).2.2.1
            simp only [h2, ne_eq, not_true, List.cons_append, List.head?_cons, Option.some.injEq, hdd, or_false,
              reduceCtorEq, and_false, if_false, List.tail_cons]
            exact ⟨trivial, fun x hx => hd x (by simp [hx]), hu⟩
          | nil =>
            cases abs with
            | true =>
              have : up = 0 := hu rfl
              subst this
              simp [h2]
            | false =>
              cases up with
              | zero => simp [h2, List.replicate_succ]
              | succ up => simp [h2, List.replicate_succ]
        · simp only [if_neg h2, ne_eq, h2, not_false_eq_true, true_or, if_true]
          refine ⟨rfl, ?_, hu⟩
          intro d hdm
          rcases List.mem_cons.mp hdm with rfl | h
          · push Not at h1
            exact ⟨h1.1, h1.2, h2, hc0⟩
          · exact hd d h
    rw [key.1]
    exact ih hcs _ key.2.1 key.2.2

theorem slashes_cases (p : List Char) :
    (initialSlashes p = 0 ∧ p.head? ≠ some '/' ∧ ¬ doubleSlash p) ∨ (initialSlashes p = 1 ∧ p.head? = some '/' ∧ ¬ doubleSlash p) ∨
      (initialSlashes p = 2 ∧ p.head? = some '/' ∧ doubleSlash p) := by
  unfold doubleSlash
  unfold initialSlashes
  split
  · right; left; simp
  · rename_i rest h
    right; right
    refine ⟨rfl, rfl, _, rfl, fun e => ?_⟩
    cases rest with
    | nil => simp at e
    | cons c cs =>
      simp only [List.head?_cons, Option.some.injEq] at e
      subst e
      exact h _ rfl
  · rename_i h1 h2
    right; left
    refine ⟨rfl, rfl, ?_⟩
    rintro ⟨rest, e, -⟩
    have := (List.cons.inj e).2
    subst this
    exact h2 _ rfl
  · rename_i h1 h2 h3
    left
    refine ⟨rfl, ?_, ?_⟩
    · intro e
      cases p with
      | nil => simp at e
      | cons c cs =>
        simp only [List.head?_cons, Option.some.injEq] at e
        subst e
        exact h3 _ rfl
    · rintro ⟨rest, e, -⟩
      exact h3 _ e

/-- the components `normpath` keeps -/
theorem norm_form (p : List Char) : ∃ comps : List (List Char),
    comps = ((Place.walk p).down ++ List.replicate (Place.walk p).up ['.', '.']).reverse ∧
    (∀ c ∈ (Place.walk p).down, GoodName c) ∧ (∀ c ∈ comps, c ≠ [] ∧ c ≠ ['.'] ∧ '/' ∉ c) ∧
    normpath p = (if List.replicate (initialSlashes p) '/' ++ joinSlash comps = [] then ['.'] else List.replicate (initialSlashes p) '/' ++ joinSlash comps) := by
  have hk : decide (0 < initialSlashes p) = decide (p.head? = some '/') := by
    rcases slashes_cases p with ⟨h1, h2, -⟩ | ⟨h1, h2, -⟩ | ⟨h1, h2, -⟩ <;> simp [h1, h2]
  obtain ⟨h1, h2, h3⟩ := norm_walk (decide (p.head? = some '/')) (splitSlash p) (splitSlash_no_slash p) ⟨0, []⟩ (by simp) (by simp)
  have hw : (splitSlash p).foldl (Place.step (decide (p.head? = some '/'))) ⟨0, []⟩ = Place.walk p := by
    rw [splitSlash_eq]; rfl
  simp only [hw] at h1 h2 h3
  refine ⟨_, rfl, h2, ?_, ?_⟩
  · intro c hc
    rw [List.mem_reverse, List.mem_append] at hc
    rcases hc with hc | hc
    · exact ⟨(h2 c hc).1, (h2 c hc).2.1, (h2 c hc).2.2.2⟩
    · rw [List.eq_of_mem_replicate hc]; decide
  · unfold normpath
    simp only [hk]
    simp only [List.replicate_zero, List.append_nil] at h1
    rw [h1]

theorem join_head (comps : List (List Char)) (h : ∀ c ∈ comps, c ≠ [] ∧ c ≠ ['.'] ∧ '/' ∉ c) :
    (joinSlash comps).head? ≠ some '/' ∧ (comps ≠ [] → joinSlash comps ≠ []) := by
  cases comps with
  | nil => simp [joinSlash]
  | cons a l =>
    obtain ⟨h1, -, h3⟩ := h a (by simp)
    cases a with
    | nil => exact absurd rfl h1
    | cons c a =>
      have : c ≠ '/' := fun e => h3 (by simp [e])
      cases l <;> simp [joinSlash, this]

theorem join_inj (l l' : List (List Char)) (h : ∀ c ∈ l, c ≠ [] ∧ c ≠ ['.'] ∧ '/' ∉ c) (h' : ∀ c ∈ l', c ≠ [] ∧ c ≠ ['.'] ∧ '/' ∉ c)
    (e : joinSlash l = joinSlash l') : l = l' := by
  by_cases hl : l = []
  · subst hl
    by_contra hn
    exact (join_head l' h').2 (fun e => hn e.symm) e.symm
  · by_cases hl' : l' = []
    · subst hl'
      exact absurd e ((join_head l h).2 hl)
    · rw [← splitSlash_join l hl fun c hc => (h c hc).2.2, e, splitSlash_join l' hl' fun c hc => (h' c hc).2.2]

theorem lead_inj (k k' : ℕ) (a b : List Char) (ha : a.head? ≠ some '/') (hb : b.head? ≠ some '/')
    (e : List.replicate k '/' ++ a = List.replicate k' '/' ++ b) : k = k' ∧ a = b := by
  induction k generalizing k' with
  | zero =>
    cases k' with
    | zero => exact ⟨rfl, by simpa using e⟩
    | succ k' =>
      simp only [List.replicate_zero, List.nil_append, List.replicate_succ, List.cons_append] at e
      rw [e] at ha; simp at ha
  | succ k ih =>
    cases k' with
    | zero =>
      simp only [List.replicate_zero, List.nil_append, List.replicate_succ, List.cons_append] at e
      rw [← e] at hb; simp at hb
    | succ k' =>
      simp only [List.replicate_succ, List.cons_append, List.cons.injEq, true_and] at e
      obtain ⟨h1, h2⟩ := ih k' e
      exact ⟨by omega, h2⟩

theorem good_ups (d d' : List (List Char)) (u u' : ℕ) (h : ∀ c ∈ d, GoodName c) (h' : ∀ c ∈ d', GoodName c)
    (e : d ++ List.replicate u ['.', '.'] = d' ++ List.replicate u' ['.', '.']) : d = d' ∧ u = u' := by
  induction d generalizing d' with
  | nil =>
    cases d' with
    | nil =>
      refine ⟨rfl, ?_⟩
      have := congrArg List.length e
      simpa using this
    | cons a d' =>
      cases u with
      | zero => simp at e
      | succ u =>
        simp only [List.nil_append, List.replicate_succ, List.cons_append, List.cons.injEq] at e
        exact absurd e.1.symm (h' a (by simp)).2.2.1
  | cons a d ih =>
    cases d' with
    | nil =>
      cases u' with
      | zero => simp at e
      | succ u' =>
        simp only [List.nil_append, List.replicate_succ, List.cons_append, List.cons.injEq] at e
        exact absurd e.1 (h a (by simp)).2.2.1
    | cons b d' =>
      simp only [List.cons_append, List.cons.injEq] at e
      obtain ⟨h1, h2⟩ := ih d' (fun c hc => h c (by simp [hc])) (fun c hc => h' c (by simp [hc])) e.2
      exact ⟨by rw [e.1, h1], h2⟩

/-- C74 (names): two bases have the same normalised path — hence share their plane files — exactly when they are both absolute or
both relative and lead to the same place (and agree on whether they start with exactly two slashes). -/
theorem C74_same_place (p q : List Char) : normpath p = normpath q ↔
    ((p.head? = some '/' ↔ q.head? = some '/') ∧ (doubleSlash p ↔ doubleSlash q) ∧ Place.walk p = Place.walk q) := by
  obtain ⟨cp, ep, gp, np, hp⟩ := norm_form p
  obtain ⟨cq, eq, gq, nq, hq⟩ := norm_form q
  have hk : initialSlashes p = initialSlashes q ↔ ((p.head? = some '/' ↔ q.head? = some '/') ∧ (doubleSlash p ↔ doubleSlash q)) := by
    rcases slashes_cases p with ⟨h1, h2, h3⟩ | ⟨h1, h2, h3⟩ | ⟨h1, h2, h3⟩ <;>
    rcases slashes_cases q with ⟨h4, h5, h6⟩ | ⟨h4, h5, h6⟩ | ⟨h4, h5, h6⟩ <;> simp [h1, h2, h3, h4, h5, h6]
  rw [← and_assoc, ← hk]
  constructor
  · intro e
    rw [hp, hq] at e
    have key : List.replicate (initialSlashes p) '/' ++ joinSlash cp = List.replicate (initialSlashes q) '/' ++ joinSlash cq := by
      have dot : ∀ (k : ℕ) (c : List (List Char)), (∀ x ∈ c, x ≠ [] ∧ x ≠ ['.'] ∧ '/' ∉ x) → List.replicate k '/' ++ joinSlash c ≠ ['.'] := by
        intro k c hc e
        cases k with
        | succ k => simp [List.replicate_succ] at e
        | zero =>
          simp only [List.replicate_zero, List.nil_append] at e
          have hne : c ≠ [] := by rintro rfl; simp [joinSlash] at e
          have := splitSlash_join c hne fun x hx => (hc x hx).2.2
          rw [e] at this
          have h2 : splitSlash ['.'] = [['.']] := by decide
          rw [h2] at this
          exact (hc ['.'] (by rw [← this]; simp)).2.1 rfl
      split_ifs at e with h1 h2 h2
      · rw [h1, h2]
      · exact absurd e.symm (dot _ _ nq)
      · exact absurd e (dot _ _ np)
      · exact e
    obtain ⟨h1, h2⟩ := lead_inj _ _ _ _ (join_head cp np).1 (join_head cq nq).1 key
    have h3 := join_inj cp cq np nq h2
    rw [ep, eq, List.reverse_inj] at h3
    obtain ⟨h4, h5⟩ := good_ups _ _ _ _ gp gq h3
    refine ⟨h1, ?_⟩
    cases hpw : Place.walk p; cases hqw : Place.walk q
    rw [hpw, hqw] at h4 h5
    simp only at h4 h5
    rw [h4, h5]
  · rintro ⟨h1, h2⟩
    rw [hp, hq, ep, eq, h1, h2]

/-- `../a` and `b/../../c/../a/.` lead to the same place; `a` and `../a` do not -/
example : normpath "../a".toList = normpath "b/../../c/../a/.".toList ∧ normpath "a".toList ≠ normpath "../a".toList := by
  rw [Ne, C74_same_place, C74_same_place]
  refine ⟨⟨by decide, ?_, ?_⟩, fun h => ?_⟩
  · constructor <;> rintro ⟨r, h, -⟩ <;> simp at h
  · decide
  · have := h.2.2
    revert this
    decide
end Wiz
