import Verif.Model.SolverShapes
import Verif.Lemmas.Solver

/-!
# C159: lengths of the arrays given to the discrete solver
-/
set_option autoImplicit false
namespace Wiz
noncomputable section
open Classical

/-! ### Lemmas -/

theorem defaultRcyl_length (r_cp : List Num) (R : Num) : (defaultRcyl r_cp R).length = r_cp.length := by
  unfold defaultRcyl
  by_cases h : r_cp.length = 1
  · simp [h]
  · simp [h, arr]

/-- a broadcast succeeds exactly for equal lengths or when one array has length one -/
theorem bop_ok (op : Num → Num → Num) (x y : NArr) : (∃ z, bop op x y = .ok z) ↔ x.n = y.n ∨ x.n = 1 ∨ y.n = 1 := by
  unfold bop
  by_cases h1 : x.n = y.n
  · simp [h1]
  · by_cases h2 : x.n = 1
    · rw [if_neg h1, if_pos h2]; simp [h2]
    · by_cases h3 : y.n = 1
      · rw [if_neg h1, if_neg h2, if_pos h3]; simp [h3]
      · rw [if_neg h1, if_neg h2, if_neg h3]; simp [h1, h2, h3]

theorem bop_eq (op : Num → Num → Num) (x y : NArr) (h : x.n = y.n) : bop op x y = .ok ⟨x.n, fun i => op (x.f i) (y.f i)⟩ := by
  unfold bop; rw [if_pos h]

theorem bop_len (op : Num → Num → Num) (x y z : NArr) (h : bop op x y = .ok z) : (x.n ≠ 1 → z.n = x.n) ∧ (x.n = 1 → z.n = y.n) := by
  unfold bop at h
  by_cases h1 : x.n = y.n
  · rw [if_pos h1] at h; cases h; exact ⟨fun _ => rfl, fun _ => h1⟩
  · rw [if_neg h1] at h
    by_cases h2 : x.n = 1
    · rw [if_pos h2] at h; cases h; exact ⟨fun h => absurd h2 h, fun _ => rfl⟩
    · rw [if_neg h2] at h
      by_cases h3 : y.n = 1
      · rw [if_pos h3] at h; cases h; exact ⟨fun _ => rfl, fun h => absurd h h2⟩
      · rw [if_neg h3] at h; cases h

/-- the convection velocities have one entry per circulation; they are computed when the numbers of circulations and cylinders agree, or with two cylinders -/
theorem apAny_ok (Gamma r_cyl : NArr) (Omega : Num) (b : Bool) (hc : r_cyl.n ≠ 0) :
    (∃ z, apAny Gamma r_cyl Omega b = .ok z) ↔ b = false ∨ Gamma.n ≠ 0 ∧ (Gamma.n = r_cyl.n ∨ r_cyl.n = 2) := by
  unfold apAny
  cases b
  · simp
  · simp only [if_true, Bool.true_eq_false, false_or]
    unfold bop
    dsimp only
    by_cases h1 : Gamma.n - 1 = r_cyl.n - 1
    · rw [if_pos h1]
      dsimp only
      rw [if_neg (by simp)]
      by_cases h0 : Gamma.n = 0
      · rw [if_pos h0]; simp [h0]
      · rw [if_neg h0]
        have : Gamma.n = r_cyl.n := by omega
        simp [hc, this]
    · rw [if_neg h1]
      by_cases h2 : Gamma.n - 1 = 1
      · rw [if_pos h2]
        dsimp only
        rw [if_pos (by omega)]
        simp
        omega
      · rw [if_neg h2]
        by_cases h3 : r_cyl.n - 1 = 1
        · rw [if_pos h3]
          dsimp only
          rw [if_neg (by simp)]
          by_cases h0 : Gamma.n = 0
          · rw [if_pos h0]; simp [h0]
          · rw [if_neg h0]
            have : r_cyl.n = 2 := by omega
            simp [h0, this]
        · rw [if_neg h3]
          simp
          omega

theorem apAny_len (Gamma r_cyl z : NArr) (Omega : Num) (b : Bool) (h : apAny Gamma r_cyl Omega b = .ok z) : z.n = Gamma.n := by
  unfold apAny at h
  cases b
  · simp only [Bool.false_eq_true, if_false] at h
    cases h; rfl
  · simp only [if_true] at h
    generalize hq : bop _ _ _ = q at h
    cases q with
    | error e => simp at h
    | ok q =>
      dsimp only at h
      by_cases h1 : q.n ≠ Gamma.n - 1 ∧ q.n ≠ 1
      · rw [if_pos h1] at h; cases h
      · rw [if_neg h1] at h
        by_cases h2 : Gamma.n = 0
        · rw [if_pos h2] at h; cases h
        · rw [if_neg h2] at h; cases h; rfl

theorem apAny_eq (Gamma r_cyl : NArr) (Omega : Num) (b : Bool) (h : Gamma.n = r_cyl.n) (h0 : r_cyl.n ≠ 0) :
    apAny Gamma r_cyl Omega b = .ok ⟨Gamma.n, fun i => if b then apCylConv r_cyl.n Gamma.f r_cyl.f Omega i else 0 * Gamma.f i⟩ := by
  unfold apAny
  cases b
  · simp
  · simp only [if_true]
    rw [bop_eq _ _ _ (by simp [h])]
    dsimp only
    rw [if_neg (by simp), if_neg (by omega)]
    simp only [if_true, Except.ok.injEq, NArr.mk.injEq, true_and]
    funext i
    unfold apCylConv
    rw [h]
    by_cases hi : i = r_cyl.n - 1
    · rw [if_pos hi, if_pos hi, hi]
    · rw [if_neg hi, if_neg hi]

theorem amax_replicate (x : Num) (k : ℕ) : amax x (List.replicate k x) = x := by
  induction k with
  | zero => rfl
  | succ k ih =>
    rw [List.replicate_succ]
    unfold amax
    have : numMax x x = x := by
      unfold numMax
      cases x with
      | fin x => rw [if_neg (by simp [Num.lt_fin]), if_pos (by simp [Num.le_fin])]
      | pinf => by_cases h : Num.pinf < Num.pinf
                · rw [if_pos h]
                · rw [if_neg h]; exact if_pos trivial
      | ninf => by_cases h : Num.ninf < Num.ninf
                · rw [if_pos h]
                · rw [if_neg h]; exact if_pos trivial
      | nan => simp
    rw [this, ih]

/-! ### Theorems -/

/-- On arrays of equal lengths, for `method='analytical'` in any case of letters, the function is the one of `Model/Solver.lean`, of which the other
properties of the solver are proved. -/
theorem C159_equal (method : List Char) (hm : method.map Char.toLower = "analytical".toList) (r_cp Gamma_cp : List Num) (R U0 Omega nB : Num) (bSwirl bTan bHigh : Bool)
    (r_cyl : Option (List Num)) (h0 : r_cp ≠ []) (hG : Gamma_cp.length = r_cp.length) (hc : ∀ l, r_cyl = some l → l.length = r_cp.length) :
    wakeVorticityAny method r_cp Gamma_cp R U0 Omega nB bSwirl bTan bHigh r_cyl =
      (wakeVorticityDiscr r_cp Gamma_cp R U0 Omega nB bSwirl bTan bHigh r_cyl).map some := by
  have hn : r_cp.length ≠ 0 := fun h => h0 (List.length_eq_zero_iff.mp h)
  obtain ⟨rc, hrc⟩ : ∃ rc, rc = r_cyl.getD (defaultRcyl r_cp R) := ⟨_, rfl⟩
  have hl : rc.length = r_cp.length := by
    rw [hrc]
    cases r_cyl with
    | none => exact defaultRcyl_length _ _
    | some l => exact hc l rfl
  have e2 : wakeVorticityDiscr r_cp Gamma_cp R U0 Omega nB bSwirl bTan bHigh r_cyl = wakeVorticityDiscr r_cp Gamma_cp R U0 Omega nB bSwirl bTan bHigh (some rc) := by
    rw [hrc]; cases r_cyl <;> rfl
  rw [e2]
  unfold wakeVorticityAny wakeVorticityDiscr
  rw [if_neg (by
    rintro (h | h)
    · exact h0 h
    · exact hn (hc [] h).symm)]
  dsimp only
  rw [← hrc]
  rw [if_neg (c := r_cp.length = 0 ∨ _) (by rw [hl]; tauto)]
  by_cases c1 : amax (idx rc 0) rc.tail < amax (idx r_cp 0) r_cp.tail
  · rw [if_pos c1, if_pos c1]; rfl
  rw [if_neg c1, if_neg c1]
  by_cases c2 : Num.Eqv (idx rc 0) 0
  · rw [if_pos c2, if_pos c2]; rfl
  rw [if_neg c2, if_neg c2]
  rw [bop_eq _ _ _ (by simpa [NArr.of] using hG)]
  dsimp only
  rw [if_neg (by simp [hm])]
  rw [apAny_eq _ _ _ _ (by simp [NArr.of, hG, hl]) (by simp [NArr.of, hl, hn])]
  dsimp only
  rw [if_neg (by simp [NArr.of, hG, hl])]
  rw [bop_eq _ _ _ (by simp [NArr.of, hG, hl])]
  dsimp only
  cases bSwirl
  · simp [NArr.of, NArr.list, hG, hl, Except.map]
  · simp only [if_true]
    rw [bop_eq _ _ _ (by simp [NArr.of, hG]), bop_eq _ _ _ (by simp [NArr.of, hG])]
    simp [NArr.of, NArr.list, hG, hl, Except.map]

/-- Exactly which calls return a wake: no array is empty, the cylinders enclose the control points, the first has a non-zero radius; there is one radius per
circulation, or one of these two arrays has a single entry; and there is one cylinder per circulation, or (only with `bTanInd_k=False`) a single cylinder. -/
theorem C159_lengths (method : List Char) (hm : method.map Char.toLower = "analytical".toList) (r_cp Gamma_cp : List Num) (R U0 Omega nB : Num) (bSwirl bTan bHigh : Bool)
    (r_cyl : Option (List Num)) (rc : List Num) (hrc : rc = r_cyl.getD (defaultRcyl r_cp R)) :
    (∃ v, wakeVorticityAny method r_cp Gamma_cp R U0 Omega nB bSwirl bTan bHigh r_cyl = .ok (some v)) ↔
      r_cp ≠ [] ∧ rc ≠ [] ∧ Gamma_cp ≠ [] ∧ ¬ (amax (idx rc 0) rc.tail < amax (idx r_cp 0) r_cp.tail) ∧ ¬ Num.Eqv (idx rc 0) 0 ∧
      (Gamma_cp.length = r_cp.length ∨ Gamma_cp.length = 1 ∨ r_cp.length = 1) ∧
      (rc.length = Gamma_cp.length ∨ bTan = false ∧ rc.length = 1) := by
  unfold wakeVorticityAny
  by_cases c0 : r_cp = [] ∨ r_cyl = some []
  · rw [if_pos c0]
    constructor
    · rintro ⟨v, h⟩; cases h
    · rintro ⟨h1, h2, -⟩
      rcases c0 with h | h
      · exact absurd h h1
      · exact absurd (by rw [hrc, h]; rfl) h2
  rw [if_neg c0]
  push Not at c0
  have hrcne : rc ≠ [] := by
    intro h
    cases r_cyl with
    | none =>
      have := defaultRcyl_length r_cp R
      rw [← Option.getD_none (a := defaultRcyl r_cp R), ← hrc, h] at this
      exact c0.1 (List.length_eq_zero_iff.mp this.symm)
    | some l => exact c0.2 (by rw [← h, hrc]; rfl)
  have hcn : rc.length ≠ 0 := fun h => hrcne (List.length_eq_zero_iff.mp h)
  have hGe : Gamma_cp ≠ [] ↔ Gamma_cp.length ≠ 0 := by rw [ne_eq, ne_eq, List.length_eq_zero_iff]
  dsimp only
  rw [← hrc]
  by_cases c1 : amax (idx rc 0) rc.tail < amax (idx r_cp 0) r_cp.tail
  · rw [if_pos c1]; simp [c1]
  rw [if_neg c1]
  by_cases c2 : Num.Eqv (idx rc 0) 0
  · rw [if_pos c2]
    constructor
    · rintro ⟨v, h⟩; cases h
    · rintro ⟨-, -, -, -, h, -⟩; exact absurd c2 h
  rw [if_neg c2]
  simp only [c0.1, hrcne, c1, c2, not_false_eq_true, true_and, ne_eq, hGe]
  generalize hb1 : bop _ _ _ = b1
  cases b1 with
  | error e =>
    have := (bop_ok _ _ _).not.mp (by rw [hb1]; simp)
    simp only [NArr.of] at this
    simp
    tauto
  | ok z1 =>
    have k1 := (bop_ok _ _ _).mp ⟨z1, hb1⟩
    simp only [NArr.of] at k1
    dsimp only
    rw [if_neg (by simp [hm])]
    generalize hb2 : apAny _ _ _ _ = b2
    cases b2 with
    | error e =>
      have := (apAny_ok _ (.of rc) _ _ hcn).not.mp (by rw [hb2]; simp)
      simp only [NArr.of] at this
      push Not at this
      obtain ⟨t1, t2⟩ := this
      constructor
      · rintro ⟨v, h⟩; cases h
      · rintro ⟨hg, -, h | h⟩
        · exact absurd h.symm (t2 hg).1
        · exact absurd h.1 t1
    | ok ap =>
      have k2 := (apAny_ok _ (.of rc) _ _ hcn).mp ⟨ap, hb2⟩
      have k3 := apAny_len _ _ _ _ _ hb2
      simp only [NArr.of] at k2 k3
      dsimp only
      by_cases c3 : Gamma_cp.length < (NArr.of rc).n
      · rw [if_pos c3]
        simp only [NArr.of] at c3
        constructor
        · rintro ⟨v, h⟩; cases h
        · rintro ⟨hg, -, h | h⟩ <;> omega
      rw [if_neg c3]
      simp only [NArr.of] at c3
      generalize hb3 : bop _ _ ap = b3
      cases b3 with
      | error e =>
        have := (bop_ok _ _ _).not.mp (by rw [hb3]; simp)
        simp only [NArr.of, k3] at this
        constructor
        · rintro ⟨v, h⟩; cases h
        · rintro ⟨hg, -, h | h⟩
          · exact absurd (Or.inl h) this
          · exact absurd (Or.inr (Or.inl h.2)) this
      | ok h3 =>
        have k4 := (bop_ok _ _ _).mp ⟨h3, hb3⟩
        simp only [NArr.of, k3] at k4
        dsimp only
        have hres : Gamma_cp.length ≠ 0 ∧ (Gamma_cp.length = r_cp.length ∨ Gamma_cp.length = 1 ∨ r_cp.length = 1) ∧
            (rc.length = Gamma_cp.length ∨ bTan = false ∧ rc.length = 1) := by
          refine ⟨by omega, k1, ?_⟩
          rcases k2 with h | h
          · rcases k4 with h' | h' | h'
            · exact Or.inl h'
            · exact Or.inr ⟨h, h'⟩
            · left; omega
          · left; omega
        simp only [ne_eq] at hres
        refine iff_of_true ?_ hres
        cases bSwirl
        · simp
        · simp only [if_true]
          obtain ⟨z4, e4⟩ := (bop_ok (fun g x => g / (4 * .fin Real.pi * Omega * x^2)) ⟨Gamma_cp.length, fun i => idx Gamma_cp i * nB⟩ (.of r_cp)).mpr k1
          obtain ⟨z5, e5⟩ := (bop_ok (fun g x => g / (2 * .fin Real.pi * x)) ⟨Gamma_cp.length, fun i => idx Gamma_cp i * nB -
            (if i = Gamma_cp.length - 1 then 0 else idx Gamma_cp (i+1) * nB)⟩ (.of r_cp)).mpr k1
          rw [e4, e5]
          exact ⟨_, rfl⟩

/-- With the default options (`bTanInd_k=True`, cylinders placed by the function) arrays of inconsistent lengths are always rejected: if a wake is returned there
is one circulation per radius, and one cylinder per circulation.
The property fails for `bTanInd_k=False`, see `C159_rejects_refuted`. -/
theorem C159_rejects_partial (method : List Char) (r_cp Gamma_cp : List Num) (R U0 Omega nB : Num) (bSwirl bHigh : Bool) (v : WakeVort)
    (h : wakeVorticityAny method r_cp Gamma_cp R U0 Omega nB bSwirl true bHigh none = .ok (some v)) :
    Gamma_cp.length = r_cp.length ∧ v.gamma_t.length = r_cp.length ∧ (∀ l, v.gamma_l = some l → l.length = r_cp.length) ∧
      wakeVorticityDiscr r_cp Gamma_cp R U0 Omega nB bSwirl true bHigh none = .ok v := by
  by_cases hm : method.map Char.toLower = "analytical".toList
  · obtain ⟨h0, -, -, -, -, -, hc⟩ := (C159_lengths method hm r_cp Gamma_cp R U0 Omega nB bSwirl true bHigh none _ rfl).mp ⟨v, h⟩
    rw [Option.getD_none, defaultRcyl_length] at hc
    have hG : Gamma_cp.length = r_cp.length := by rcases hc with h | h <;> simp_all
    rw [C159_equal method hm r_cp Gamma_cp R U0 Omega nB bSwirl true bHigh none h0 hG (by simp)] at h
    have h' : wakeVorticityDiscr r_cp Gamma_cp R U0 Omega nB bSwirl true bHigh none = .ok v := by
      cases hd : wakeVorticityDiscr r_cp Gamma_cp R U0 Omega nB bSwirl true bHigh none with
      | error e => rw [hd] at h; cases h
      | ok v' => rw [hd] at h; cases h; rfl
    refine ⟨hG, ?_, ?_, h'⟩
    · unfold wakeVorticityDiscr at h'
      dsimp only at h'
      split_ifs at h' <;> cases h' <;> simp [arr]
    · intro l hl
      unfold wakeVorticityDiscr at h'
      dsimp only at h'
      split_ifs at h' with q1 q2 q3 q4 q5
      all_goals cases h'
      all_goals simp only [Option.some.injEq, reduceCtorEq] at hl
      all_goals rw [← hl]; simp [arr]
  · exfalso
    unfold wakeVorticityAny at h
    dsimp only at h
    by_cases c0 : r_cp = [] ∨ (none : Option (List Num)) = some []
    · rw [if_pos c0] at h; cases h
    rw [if_neg c0] at h
    split_ifs at h
    generalize bop _ _ _ = b1 at h
    cases b1 with
    | error e => cases h
    | ok z => cases h

/-- A `method` other than 'analytical' never returns a wake: the function raises, or returns `None` without computing anything, exactly when the checks of the
radii pass and circulations and radii can be broadcast. -/
theorem C159_method (method : List Char) (hm : method.map Char.toLower ≠ "analytical".toList) (r_cp Gamma_cp : List Num) (R U0 Omega nB : Num) (bSwirl bTan bHigh : Bool)
    (r_cyl : Option (List Num)) (rc : List Num) (hrc : rc = r_cyl.getD (defaultRcyl r_cp R)) :
    (∀ v, wakeVorticityAny method r_cp Gamma_cp R U0 Omega nB bSwirl bTan bHigh r_cyl ≠ .ok (some v)) ∧
    (wakeVorticityAny method r_cp Gamma_cp R U0 Omega nB bSwirl bTan bHigh r_cyl = .ok none ↔
      r_cp ≠ [] ∧ r_cyl ≠ some [] ∧ ¬ (amax (idx rc 0) rc.tail < amax (idx r_cp 0) r_cp.tail) ∧ ¬ Num.Eqv (idx rc 0) 0 ∧
      (Gamma_cp.length = r_cp.length ∨ Gamma_cp.length = 1 ∨ r_cp.length = 1)) := by
  unfold wakeVorticityAny
  dsimp only
  rw [← hrc]
  by_cases c0 : r_cp = [] ∨ r_cyl = some []
  · rw [if_pos c0]
    refine ⟨by simp, ?_⟩
    constructor
    · intro h; cases h
    · rintro ⟨h1, h2, -⟩; exact absurd c0 (by tauto)
  rw [if_neg c0]
  push Not at c0
  by_cases c1 : amax (idx rc 0) rc.tail < amax (idx r_cp 0) r_cp.tail
  · rw [if_pos c1]
    refine ⟨by simp, ?_⟩
    constructor
    · intro h; cases h
    · rintro ⟨-, -, h, -⟩; exact absurd c1 h
  rw [if_neg c1]
  by_cases c2 : Num.Eqv (idx rc 0) 0
  · rw [if_pos c2]
    refine ⟨by simp, ?_⟩
    constructor
    · intro h; cases h
    · rintro ⟨-, -, -, h, -⟩; exact absurd c2 h
  rw [if_neg c2]
  generalize hb1 : bop _ _ _ = b1
  cases b1 with
  | error e =>
    have := (bop_ok _ _ _).not.mp (by rw [hb1]; simp)
    simp only [NArr.of] at this
    refine ⟨by simp, ?_⟩
    constructor
    · intro h; cases h
    · rintro ⟨-, -, -, -, h⟩; exact absurd h this
  | ok z1 =>
    have k1 := (bop_ok _ _ _).mp ⟨z1, hb1⟩
    simp only [NArr.of] at k1
    dsimp only
    rw [if_pos hm]
    exact ⟨by simp, iff_of_true rfl ⟨c0.1, c0.2, c1, c2, k1⟩⟩

/-- A single radius stands for all control points: the wake is the one for the array that repeats it (only the radius recorded in `misc` keeps its single entry). -/
theorem C159_scalar_radius (method : List Char) (hm : method.map Char.toLower = "analytical".toList) (x : Num) (Gamma_cp : List Num) (R U0 Omega nB : Num) (bSwirl bTan bHigh : Bool)
    (rc : List Num) (h2 : 2 ≤ rc.length) (hG : Gamma_cp.length = rc.length) :
    wakeVorticityAny method [x] Gamma_cp R U0 Omega nB bSwirl bTan bHigh (some rc) =
      (wakeVorticityDiscr (List.replicate rc.length x) Gamma_cp R U0 Omega nB bSwirl bTan bHigh (some rc)).map
        (fun v => some { v with misc := { v.misc with r_cp := [x] } }) := by
  unfold wakeVorticityAny wakeVorticityDiscr
  have hne : rc ≠ [] := by rintro rfl; simp at h2
  rw [if_neg (by simp [hne])]
  dsimp only
  rw [if_neg (c := (List.replicate rc.length x).length = 0 ∨ _) (by simp [hne, hG])]
  rw [Option.getD_some]
  have ea : amax (idx (List.replicate rc.length x) 0) (List.replicate rc.length x).tail = amax (idx [x] 0) [x].tail := by
    rw [List.tail_replicate]
    have : idx (List.replicate rc.length x) 0 = x := by
      unfold idx
      rw [List.getD_eq_getElem?_getD, List.getElem?_replicate, if_pos (by omega)]; rfl
    rw [this, amax_replicate]
    rfl
  rw [ea]
  by_cases c1 : amax (idx rc 0) rc.tail < amax (idx [x] 0) [x].tail
  · rw [if_pos c1, if_pos c1]; rfl
  rw [if_neg c1, if_neg c1]
  by_cases c2 : Num.Eqv (idx rc 0) 0
  · rw [if_pos c2, if_pos c2]; rfl
  rw [if_neg c2, if_neg c2]
  have hx : ∀ (op : Num → Num → Num) (g : NArr), g.n = rc.length → bop op g (.of [x]) = .ok ⟨rc.length, fun i => op (g.f i) x⟩ := by
    intro op g hg
    unfold bop
    rw [if_neg (by rw [hg]; simp [NArr.of]; omega), if_neg (by rw [hg]; omega), if_pos (by simp [NArr.of]), hg]
    rfl
  obtain ⟨z1, hb1⟩ := (bop_ok (fun k l => k * (1 + k / (4 * l^2))) ⟨Gamma_cp.length, fun i => idx Gamma_cp i * nB * Omega / (.fin Real.pi * U0^2)⟩
    ⟨(NArr.of [x]).n, fun i => Omega * (NArr.of [x]).f i / U0⟩).mpr (Or.inr (Or.inr rfl))
  rw [hb1]
  dsimp only
  rw [if_neg (by simp [hm])]
  rw [apAny_eq _ _ _ _ (by simp [NArr.of, hG]) (by simp [NArr.of, hne])]
  dsimp only
  rw [if_neg (by simp [NArr.of, hG])]
  rw [bop_eq _ _ _ (by simp [NArr.of, hG])]
  dsimp only
  cases bSwirl
  · simp [NArr.of, NArr.list, hG, Except.map]
  · simp only [if_true]
    rw [hx _ _ hG, hx _ _ hG]
    have hid : ∀ i < rc.length, idx (List.replicate rc.length x) i = x := by
      intro i hi
      unfold idx
      rw [List.getD_eq_getElem?_getD, List.getElem?_replicate, if_pos hi]; rfl
    simp only [NArr.of, NArr.list, hG, Except.map, List.length_replicate, Except.ok.injEq, Option.some.injEq, WakeVort.mk.injEq, DMisc.mk.injEq, true_and, and_true]
    refine ⟨arr_congr _ _ _ fun i hi => by rw [hid i hi], arr_congr _ _ _ fun i hi => by rw [hid i hi]⟩

/-- Several circulations and a single cylinder (only with `bTanInd_k=False`): the function does not raise; it returns a single cylinder strength, that of the first
circulation alone, and as many longitudinal strengths as circulations. -/
theorem C159_one_cylinder (method : List Char) (hm : method.map Char.toLower = "analytical".toList) (r_cp : List Num) (g : Num) (rest : List Num) (R U0 Omega nB : Num) (bSwirl bHigh : Bool)
    (ρ : Num) (hr : r_cp.length = 1 ∨ r_cp.length = rest.length + 1) (hrc : r_cp ≠ []) (h1 : ¬ ρ < amax (idx r_cp 0) r_cp.tail) (h0 : ¬ Num.Eqv ρ 0) :
    ∃ v v1, wakeVorticityAny method r_cp (g :: rest) R U0 Omega nB bSwirl false bHigh (some [ρ]) = .ok (some v) ∧
      wakeVorticityAny method r_cp [g] R U0 Omega nB bSwirl false bHigh (some [ρ]) = .ok (some v1) ∧
      v.gamma_t = v1.gamma_t ∧ v.misc.a = v1.misc.a ∧ v.gamma_t.length = 1 ∧ (bSwirl = true → ∃ l, v.gamma_l = some l ∧ l.length = rest.length + 1) := by
  have hc : ¬ (amax (idx [ρ] 0) ([ρ] : List Num).tail < amax (idx r_cp 0) r_cp.tail) := h1
  have hz : ¬ Num.Eqv (idx [ρ] 0) 0 := h0
  obtain ⟨v, hv⟩ := (C159_lengths method hm r_cp (g :: rest) R U0 Omega nB bSwirl false bHigh (some [ρ]) [ρ] rfl).mpr
    ⟨hrc, by simp, by simp, hc, hz, by simp only [List.length_cons]; omega, Or.inr ⟨rfl, rfl⟩⟩
  obtain ⟨v1, hv1⟩ := (C159_lengths method hm r_cp [g] R U0 Omega nB bSwirl false bHigh (some [ρ]) [ρ] rfl).mpr
    ⟨hrc, by simp, by simp, hc, hz, by simp, Or.inr ⟨rfl, rfl⟩⟩
  refine ⟨v, v1, hv, hv1, ?_⟩
  have key : ∀ (l : List Num) (v : WakeVort), wakeVorticityAny method r_cp (g :: l) R U0 Omega nB bSwirl false bHigh (some [ρ]) = .ok (some v) →
      (∃ s : DState, s = discrLoop 1 (fun i => if i = 0 then g * nB * Omega / (.fin Real.pi * U0^2) else 0) (fun i => 0 * (g * nB))
          (fun i => g * nB * Omega / (.fin Real.pi * U0^2) * (1 + 0 * (g * nB))) (fun _ => Omega * ρ / U0) bSwirl bHigh ∧
        v.gamma_t = arr 1 (fun i => s.gamma_t_bar i * U0) ∧
        v.misc.a = ((cumsum ((arr 1 fun i => s.gamma_t_bar i / 2).reverse)).map fun x => -x).reverse) ∧
      (bSwirl = true → ∃ gl, v.gamma_l = some gl ∧ ((l.length + 1 = r_cp.length ∨ r_cp.length = 1) → gl.length = l.length + 1)) := by
    intro l v h
    unfold wakeVorticityAny at h
    rw [if_neg (by simp [hrc])] at h
    dsimp only at h
    rw [Option.getD_some, if_neg hc, if_neg hz] at h
    generalize bop _ _ _ = b1 at h
    cases b1 with
    | error e => cases h
    | ok z =>
      dsimp only at h
      rw [if_neg (by simp [hm])] at h
      have hap : apAny ⟨(g :: l).length, fun i => idx (g :: l) i * nB⟩ (NArr.of [ρ]) Omega false = .ok ⟨(g :: l).length, fun i => 0 * (idx (g :: l) i * nB)⟩ := by
        unfold apAny; simp
      rw [hap] at h
      dsimp only at h
      rw [if_neg (by simp [NArr.of])] at h
      generalize bop _ _ _ = b3 at h
      cases b3 with
      | error e => cases h
      | ok h3 =>
        dsimp only at h
        have hloop : ∀ (k C ap lam k' C' ap' lam' : ℕ → Num), k 0 = k' 0 → C 0 = C' 0 → ap 0 = ap' 0 → lam 0 = lam' 0 →
            discrLoop 1 k ap C lam bSwirl bHigh = discrLoop 1 k' ap' C' lam' bSwirl bHigh := by
          intro k C ap lam k' C' ap' lam' e1 e2 e3 e4
          simp [discrLoop, discrStep, List.range_one, e1, e2, e4]
        have hl := hloop (fun i => idx (g :: l) i * nB * Omega / (.fin Real.pi * U0^2))
          (fun i => idx (g :: l) i * nB * Omega / (.fin Real.pi * U0^2) * (1 + 0 * (idx (g :: l) i * nB))) (fun i => 0 * (idx (g :: l) i * nB))
          (fun i => Omega * (NArr.of [ρ]).f i / U0)
          (fun i => if i = 0 then g * nB * Omega / (.fin Real.pi * U0^2) else 0) (fun i => g * nB * Omega / (.fin Real.pi * U0^2) * (1 + 0 * (g * nB)))
          (fun i => 0 * (g * nB)) (fun _ => Omega * ρ / U0) rfl rfl rfl rfl
        have hn1 : (NArr.of [ρ]).n = 1 := rfl
        rw [hn1, hl] at h
        refine ⟨⟨_, rfl, ?_⟩, ?_⟩
        · cases bSwirl
          · simp only [Bool.false_eq_true, if_false] at h
            cases h
            exact ⟨rfl, rfl⟩
          · simp only [if_true] at h
            generalize bop _ _ _ = b4 at h
            cases b4 with
            | error e => cases h
            | ok z4 =>
              dsimp only at h
              generalize bop _ _ _ = b5 at h
              cases b5 with
              | error e => cases h
              | ok z5 => cases h; exact ⟨rfl, rfl⟩
        · intro hb
          subst hb
          simp only [if_true] at h
          generalize bop _ _ _ = b4 at h
          cases b4 with
          | error e => cases h
          | ok z4 =>
            dsimp only at h
            generalize hb5 : bop _ _ _ = b5 at h
            cases b5 with
            | error e => cases h
            | ok z5 =>
              have := bop_len _ _ _ _ hb5
              simp only [NArr.of, List.length_cons] at this
              cases h
              refine ⟨_, rfl, fun hh => ?_⟩
              simp only [NArr.list, arr, List.length_map, List.length_range]
              by_cases q2 : l.length + 1 = 1
              · rw [this.2 q2]; omega
              · exact this.1 q2
  obtain ⟨⟨s, s1, s2, s3⟩, s4⟩ := key rest v hv
  obtain ⟨⟨t, t1, t2, t3⟩, -⟩ := key [] v1 hv1
  refine ⟨by rw [s2, t2, s1, t1], by rw [s3, t3, s1, t1], by rw [s2]; simp [arr], fun hb => ?_⟩
  obtain ⟨l, l1, l2⟩ := s4 hb
  exact ⟨l, l1, l2 (by omega)⟩

/-- Arrays of inconsistent lengths are not always rejected: two circulations at one radius give, with `bTanInd_k=False`, a wake of one cylinder that ignores the second
circulation, together with two longitudinal strengths. -/
theorem C159_rejects_refuted : ¬ ∀ (r_cp Gamma_cp : List Num) (R U0 Omega nB : Num) (bSwirl bTan : Bool) (v : WakeVort),
    wakeVorticityAny "analytical".toList r_cp Gamma_cp R U0 Omega nB bSwirl bTan true none = .ok (some v) →
      v.gamma_t.length = Gamma_cp.length ∧ ∀ l, v.gamma_l = some l → l.length = v.gamma_t.length := by
  intro h
  have e : wakeVorticityAny "analytical".toList [1] [1, 2] 2 1 1 1 true false true none = wakeVorticityAny "analytical".toList [1] [1, 2] 2 1 1 1 true false true (some [2]) := by
    unfold wakeVorticityAny
    simp [defaultRcyl]
  obtain ⟨v, -, hv, -, -, -, hl, hs⟩ := C159_one_cylinder "analytical".toList (by decide) [1] 1 [2] 2 1 1 1 true true 2 (Or.inl rfl) (by simp)
    (by
      have : amax (idx [1] 0) ([1] : List Num).tail = .fin 1 := rfl
      rw [this, show (2 : Num) = .fin 2 from rfl, Num.lt_fin]
      norm_num)
    (by
      rw [show (2 : Num) = .fin 2 from rfl]
      simp)
  have := (h [1] [1, 2] 2 1 1 1 true false v (by rw [e]; exact hv)).1
  rw [hl] at this
  simp at this

/-- non-trivial cases: three stations with the default options give a wake, two circulations for three radii do not, and a misspelt method gives `None` -/
example : (∃ v, wakeVorticityAny "Analytical".toList [.fin 1, .fin 2, .fin 3] [.fin (1/4), .fin (1/4), .fin (1/4)] (.fin 4) (.fin 1) (.fin 1) 1 true true true none = .ok (some v)) ∧
    (¬ ∃ v, wakeVorticityAny "Analytical".toList [.fin 1, .fin 2, .fin 3] [.fin (1/4), .fin (1/4)] (.fin 4) (.fin 1) (.fin 1) 1 true true true none = .ok (some v)) ∧
    wakeVorticityAny "analytic".toList [.fin 1, .fin 2, .fin 3] [.fin (1/4)] (.fin 4) (.fin 1) (.fin 1) 1 true true true none = .ok none := by
  have hd : defaultRcyl [.fin 1, .fin 2, .fin 3] (.fin 4) = [.fin (3/2), .fin (5/2), .fin (7/2)] := by
    simp [defaultRcyl, arr, List.range_succ, idx]
    rw [Num.fin_div two_ne_zero, Num.fin_div two_ne_zero, Num.fin_div two_ne_zero]
    norm_num
  have c1 : ¬ (amax (idx [.fin (3/2), .fin (5/2), .fin (7/2)] 0) ([.fin (3/2), .fin (5/2), .fin (7/2)] : List Num).tail <
      amax (idx [.fin 1, .fin 2, .fin 3] 0) ([.fin 1, .fin 2, .fin 3] : List Num).tail) := by
    simp [amax, idx, numMax, Num.lt_fin]
    norm_num [amax, numMax, Num.lt_fin]
  have c2 : ¬ Num.Eqv (idx [.fin (3/2), .fin (5/2), .fin (7/2)] 0) 0 := by
    simp [idx]
  refine ⟨?_, ?_, ?_⟩
  · exact (C159_lengths _ (by decide) _ _ _ _ _ _ _ _ _ none _ (by rw [Option.getD_none, hd])).mpr ⟨by simp, by simp, by simp, c1, c2, by simp, by simp⟩
  · rw [C159_lengths _ (by decide) _ _ _ _ _ _ _ _ _ none _ (by rw [Option.getD_none, hd])]
    simp
  · exact (C159_method _ (by decide) _ _ _ _ _ _ _ _ _ none _ (by rw [Option.getD_none, hd])).2.mpr ⟨by simp, by simp, c1, c2, by simp⟩

end
end Wiz
