import Verif.Model.BlockageData
import Verif.Props.BlockageSampling

/-! # C116, C117: the actuator-disk cases on disk, and the relative errors of the models -/
namespace Wiz
open Spec Real Classical

/-! ### the file names -/

theorem cut_at {a a' r r' : List Char} (h : '_' ∉ a) (h' : '_' ∉ a') (e : a ++ '_' :: r = a' ++ '_' :: r') : a = a' ∧ r = r' := by
  induction a generalizing a' with
  | nil =>
    cases a' with
    | nil => exact ⟨rfl, (List.cons.inj e).2⟩
    | cons c a' => exact absurd (by rw [(List.cons.inj e).1]; exact List.mem_cons_self) h'
  | cons c a ih =>
    cases a' with
    | nil => exact absurd (by rw [(List.cons.inj e).1]; exact List.mem_cons_self) h
    | cons c' a' =>
      obtain ⟨e1, e2⟩ := List.cons.inj e
      obtain ⟨h1, h2⟩ := ih (fun m => h (List.mem_cons_of_mem _ m)) (fun m => h' (List.mem_cons_of_mem _ m)) e2
      exact ⟨by rw [e1, h1], h2⟩

theorem ofDigits_pad (k w : ℕ) : Nat.ofDigitChars 10 (padLeft '0' w (Nat.toDigits 10 k)) 0 = k := by
  unfold padLeft
  have : ∀ m, Nat.ofDigitChars 10 (List.replicate m '0' ++ Nat.toDigits 10 k) 0 = k := by
    intro m
    induction m with
    | zero => exact Nat.ofDigitChars_ten_toDigits
    | succ m ih => rw [List.replicate_succ, List.cons_append, Nat.ofDigitChars_cons]; exact ih
  exact this _

theorem pad_mem (k w : ℕ) (c : Char) (h : c ∈ padLeft '0' w (Nat.toDigits 10 k)) : c.isDigit = true := by
  unfold padLeft at h
  rcases List.mem_append.mp h with h | h
  · rw [(List.mem_replicate.mp h).2]; rfl
  · exact Nat.isDigit_of_mem_toDigits (by norm_num) (by norm_num) h

/-- a printed number: the sign and the digits -/
theorem signed_inj (w w' : ℕ) (k k' : ℤ)
    (h : (if k < 0 then '-' :: padLeft '0' w' (Nat.toDigits 10 k.natAbs) else padLeft '0' w (Nat.toDigits 10 k.natAbs)) =
      (if k' < 0 then '-' :: padLeft '0' w' (Nat.toDigits 10 k'.natAbs) else padLeft '0' w (Nat.toDigits 10 k'.natAbs))) : k = k' := by
  have hd : ∀ v j l, padLeft '0' v (Nat.toDigits 10 j) ≠ '-' :: l := by
    intro v j l e
    have := pad_mem j v '-' (by rw [e]; exact List.mem_cons_self)
    exact absurd this (by decide)
  split_ifs at h with h1 h2 h2
  · have h := congrArg (fun l => Nat.ofDigitChars 10 l 0) (List.cons.inj h).2
    simp only [ofDigits_pad] at h
    omega
  · exact absurd h.symm (hd _ _ _)
  · exact absurd h (hd _ _ _)
  · have h := congrArg (fun l => Nat.ofDigitChars 10 l 0) h
    simp only [ofDigits_pad] at h
    omega

theorem fmtD_inj (k k' : ℤ) (h : fmtD k = fmtD k') : k = k' := by
  apply signed_inj 0 0
  simpa [fmtD, padLeft] using h

theorem fmt02D_inj (k k' : ℤ) (h : fmt02D k = fmt02D k') : k = k' := signed_inj 2 1 k k' h

theorem fmt02D_us (k : ℤ) : '_' ∉ fmt02D k := by
  unfold fmt02D
  intro h
  split_ifs at h
  · rcases List.mem_cons.mp h with h | h
    · exact absurd h (by decide)
    · exact absurd (pad_mem _ _ _ h) (by decide)
  · exact absurd (pad_mem _ _ _ h) (by decide)

theorem fmtD_us (k : ℤ) : '_' ∉ fmtD k := by
  unfold fmtD
  intro h
  split_ifs at h
  · rcases List.mem_cons.mp h with h | h
    · exact absurd h (by decide)
    · exact Nat.underscore_not_in_toDigits h
  · exact Nat.underscore_not_in_toDigits h

theorem base_inj (CT HH CT' HH' : ℝ) (l y l' y' : ℤ) (s s' b b' : List Char) (hs : s = '_' :: b ∨ s = '.' :: b) (hs' : s' = '_' :: b' ∨ s' = '.' :: b')
    (f f' : List Char) (h : caseBase CT HH (.int l) (.int y) = .ok f) (h' : caseBase CT' HH' (.int l') (.int y') = .ok f') (e : f ++ s = f' ++ s') :
    pyInt (CT * 100) = pyInt (CT' * 100) ∧ pyInt (HH * 10) = pyInt (HH' * 10) ∧ l = l' ∧ y = y' ∧ s = s' := by
  have h := Except.ok.inj h
  have h' := Except.ok.inj h'
  subst h h'
  simp only [show "CT0".toList = ['C', 'T', '0'] from rfl, show "_HH".toList = ['_', 'H', 'H'] from rfl,
    show "_Lambda".toList = ['_', 'L', 'a', 'm', 'b', 'd', 'a'] from rfl, show "_Yaw".toList = ['_', 'Y', 'a', 'w'] from rfl,
    List.append_assoc, List.cons_append, List.nil_append, List.cons.injEq, true_and] at e
  obtain ⟨e1, e⟩ := cut_at (fmtD_us _) (fmtD_us _) e
  simp only [List.cons.injEq, true_and] at e
  obtain ⟨e2, e⟩ := cut_at (fmt02D_us _) (fmt02D_us _) e
  simp only [List.cons.injEq, true_and] at e
  obtain ⟨e3, e⟩ := cut_at (fmt02D_us _) (fmt02D_us _) e
  simp only [List.cons.injEq, true_and] at e
  have hend : fmt02D (-y) = fmt02D (-y') ∧ s = s' := by
    have hdig : ∀ k : ℤ, ∀ c ∈ fmt02D k, c = '-' ∨ c.isDigit = true := by
      intro k c hc
      unfold fmt02D at hc
      split_ifs at hc
      · rcases List.mem_cons.mp hc with h | h
        · exact Or.inl h
        · exact Or.inr (pad_mem _ _ _ h)
      · exact Or.inr (pad_mem _ _ _ hc)
    have key : ∀ a a' : List Char, (∀ c ∈ a, c = '-' ∨ c.isDigit = true) → (∀ c ∈ a', c = '-' ∨ c.isDigit = true) → a ++ s = a' ++ s' → a = a' ∧ s = s' := by
      have hbad : ∀ t b : List Char, (t = '_' :: b ∨ t = '.' :: b) → ∀ c r, t = c :: r → ¬ (c = '-' ∨ c.isDigit = true) := by
        intro t b ht c r hc
        rcases ht with ht | ht <;> rw [ht] at hc <;> rw [← (List.cons.inj hc).1] <;> decide
      intro a
      induction a with
      | nil =>
        intro a' _ h2 e
        cases a' with
        | nil => exact ⟨rfl, e⟩
        | cons c a' => exact absurd (h2 c List.mem_cons_self) (hbad s b hs c _ e)
      | cons c a ih =>
        intro a' h1 h2 e
        cases a' with
        | nil => exact absurd (h1 c List.mem_cons_self) (hbad s' b' hs' c _ e.symm)
        | cons c' a' =>
          obtain ⟨e1, e2⟩ := List.cons.inj e
          obtain ⟨h3, h4⟩ := ih a' (fun c hc => h1 c (List.mem_cons_of_mem _ hc)) (fun c hc => h2 c (List.mem_cons_of_mem _ hc)) e2
          exact ⟨by rw [e1, h3], h4⟩
    exact key _ _ (hdig _) (hdig _) e
  exact ⟨fmtD_inj _ _ e1, fmt02D_inj _ _ e2, fmt02D_inj _ _ e3, by have := fmt02D_inj _ _ hend.1; omega, hend.2⟩

theorem load_ok (CT HH : ℝ) (Λ yaw : PyReal) (hz : Bool) (L : PyReal) (H : ℝ) (base : List Char)
    (hL : (if Num.fin 20 < Λ.val then PyReal.int 99 else Λ) = L) (hH : (if 9 < HH then 9.9 else HH) = H) (hb : caseBase CT H L yaw = .ok base) :
    loadCase CT HH Λ hz yaw = .ok (if 9 < HH then
        (if hz = false ∨ (0 < Num.abs yaw.val ∧ ¬ Num.Eqv L.val (.fin 99)) then none
         else some (.mat ("../data/AD_".toList ++ base ++ ".mat".toList), ⟨CT, H, L, yaw, hz⟩))
      else (if ¬ Num.Eqv yaw.val 0 ∨ ¬ (Num.Eqv L.val (.fin 6) ∨ Num.Eqv L.val (.fin 99)) then none
         else some (groundFiles base H hz, ⟨CT, H, L, yaw, hz⟩))) := by
  have h9 : 9 < H ↔ 9 < HH := by
    rw [← hH]
    split_ifs with h
    · exact ⟨fun _ => h, fun _ => by norm_num⟩
    · exact Iff.rfl
  unfold loadCase
  simp only [hL, hH, hb, h9]
  split_ifs <;> first | rfl | (exfalso; tauto)

theorem load_err (CT HH : ℝ) (Λ yaw : PyReal) (hz : Bool) (L : PyReal) (H : ℝ) (e : String)
    (hL : (if Num.fin 20 < Λ.val then PyReal.int 99 else Λ) = L) (hH : (if 9 < HH then 9.9 else HH) = H) (hb : caseBase CT H L yaw = .error e) :
    loadCase CT HH Λ hz yaw = .error e := by
  unfold loadCase
  simp only [hL, hH, hb]

/-! ### C116 -/

/-- C116: which cases exist: without ground effect (hub above 9 radii) the horizontal plane, unyawed or without wake rotation;
with ground effect both planes, unyawed, for tip-speed ratio 6 or without wake rotation.  Tip-speed ratios above 20 stand for "no
wake rotation". -/
theorem C116_available (CT HH : ℝ) (Λ yaw : ℤ) (hz : Bool) :
    ((∃ f a, loadCase CT HH (.int Λ) hz (.int yaw) = .ok (some (f, a))) ↔
      (9 < HH ∧ hz = true ∧ (yaw = 0 ∨ 20 < Λ)) ∨ (HH ≤ 9 ∧ yaw = 0 ∧ (Λ = 6 ∨ 20 < Λ))) ∧
    ((∃ f a, loadCase CT HH (.int Λ) hz (.int yaw) = .ok (some (f, a))) ∨ loadCase CT HH (.int Λ) hz (.int yaw) = .ok none) := by
  have hL : (Num.fin 20 < (PyReal.int Λ).val) ↔ 20 < Λ := by
    show Num.fin 20 < Num.fin (Λ : ℝ) ↔ _
    rw [Num.lt_fin]; exact_mod_cast Iff.rfl
  have hy : (0 < Num.abs (PyReal.int yaw).val) ↔ yaw ≠ 0 := by
    show (0 : Num) < Num.abs (.fin (yaw : ℝ)) ↔ _
    rw [Num.zero_def, Num.abs_fin, Num.lt_fin, abs_pos]; exact_mod_cast Iff.rfl
  have hy0 : Num.Eqv (PyReal.int yaw).val 0 ↔ yaw = 0 := by
    show Num.Eqv (.fin (yaw : ℝ)) 0 ↔ _
    rw [Num.zero_def, Num.eqv_fin]; exact_mod_cast Iff.rfl
  have e : ∀ l k : ℤ, Num.Eqv (PyReal.int l).val (.fin k) ↔ l = k := by
    intro l k
    show Num.Eqv (.fin (l : ℝ)) (.fin (k : ℝ)) ↔ _
    rw [Num.eqv_fin]; exact_mod_cast Iff.rfl
  have e6 : ∀ l : ℤ, Num.Eqv (PyReal.int l).val (.fin 6) ↔ l = 6 := fun l => by have := e l 6; exact_mod_cast this
  have e99 : ∀ l : ℤ, Num.Eqv (PyReal.int l).val (.fin 99) ↔ l = 99 := fun l => by have := e l 99; exact_mod_cast this
  have key : ∀ o : Option (PlaneFiles × CaseAttr), ((∃ f a, (Except.ok o : Except String _) = .ok (some (f, a))) ↔ o.isSome = true) ∧
      ((∃ f a, (Except.ok o : Except String _) = .ok (some (f, a))) ∨ (Except.ok o : Except String _) = .ok none) := by
    intro o
    cases o with
    | none => simp
    | some p => obtain ⟨f, a⟩ := p; simp
  have hLL : ∃ l : ℤ, (if Num.fin 20 < (PyReal.int Λ).val then PyReal.int 99 else .int Λ) = .int l ∧ (l = 99 ↔ 20 < Λ) ∧ (l = 6 ↔ Λ = 6) := by
    by_cases h20 : 20 < Λ
    · exact ⟨99, if_pos (hL.mpr h20), by simp [h20], by omega⟩
    · exact ⟨Λ, if_neg (fun h => h20 (hL.mp h)), by omega, Iff.rfl⟩
  obtain ⟨l, hl, hl1, hl2⟩ := hLL
  rw [load_ok CT HH (.int Λ) (.int yaw) hz (.int l) _ _ hl rfl rfl]
  obtain ⟨k1, k2⟩ := key (if 9 < HH then
        (if hz = false ∨ (0 < Num.abs (PyReal.int yaw).val ∧ ¬ Num.Eqv (PyReal.int l).val (.fin 99)) then none
         else some (.mat ("../data/AD_".toList ++ _ ++ ".mat".toList), ⟨CT, _, .int l, .int yaw, hz⟩))
      else (if ¬ Num.Eqv (PyReal.int yaw).val 0 ∨ ¬ (Num.Eqv (PyReal.int l).val (.fin 6) ∨ Num.Eqv (PyReal.int l).val (.fin 99)) then none
         else some (groundFiles _ _ hz, ⟨CT, _, .int l, .int yaw, hz⟩)))
  refine ⟨k1.trans ?_, k2⟩
  rw [hy, hy0, e6, e99, hl1, hl2]
  have hle : HH ≤ 9 ↔ ¬ 9 < HH := not_lt.symm
  rw [hle]
  by_cases h9 : 9 < HH
  · rw [if_pos h9]
    split_ifs with h <;> cases hz <;> simp_all <;> tauto
  · rw [if_neg h9]
    split_ifs with h <;> simp_all <;> tauto

/-- C116: tip-speed ratio and yaw angle must be of type `int`, except for a tip-speed ratio above 20 (for instance `np.inf`). -/
theorem C116_types (CT HH : ℝ) (Λ yaw : PyReal) (hz : Bool) :
    (∃ e, loadCase CT HH Λ hz yaw = .error e) ↔ (∃ x, yaw = .flt x) ∨ ∃ x, Λ = .flt x ∧ ¬ Num.fin 20 < x := by
  have hok : ∀ (L : PyReal) (H : ℝ), (∃ b, caseBase CT H L yaw = .ok b) ∨ ∃ e, caseBase CT H L yaw = .error e := by
    intro L H; cases caseBase CT H L yaw with
    | ok b => exact Or.inl ⟨b, rfl⟩
    | error e => exact Or.inr ⟨e, rfl⟩
  have hiff : ∀ L H, (∃ e, caseBase CT H L yaw = .error e) ↔ (∃ x, yaw = .flt x) ∨ ∃ x, L = .flt x := by
    intro L H
    unfold caseBase
    cases L <;> cases yaw <;> simp
  have hload : (∃ e, loadCase CT HH Λ hz yaw = .error e) ↔
      ∃ e, caseBase CT (if 9 < HH then 9.9 else HH) (if Num.fin 20 < Λ.val then PyReal.int 99 else Λ) yaw = .error e := by
    rcases hok (if Num.fin 20 < Λ.val then PyReal.int 99 else Λ) (if 9 < HH then 9.9 else HH) with ⟨b, hb⟩ | ⟨e, hb⟩
    · rw [load_ok _ _ _ _ _ _ _ _ rfl rfl hb, hb]
      constructor <;> (rintro ⟨e, he⟩; exact nomatch he)
    · rw [load_err _ _ _ _ _ _ _ _ rfl rfl hb, hb]
      exact ⟨fun _ => ⟨e, rfl⟩, fun _ => ⟨e, rfl⟩⟩
  rw [hload, hiff]
  constructor
  · rintro (h | ⟨x, h⟩)
    · exact Or.inl h
    · right
      split_ifs at h with h1
      exact ⟨x, h, by rw [h] at h1; exact h1⟩
  · rintro (h | ⟨x, h, h1⟩)
    · exact Or.inl h
    · right
      subst h
      exact ⟨x, if_neg h1⟩

/-- what a loaded case records, and where it is read from -/
theorem load_spec (CT HH : ℝ) (Λ yaw : PyReal) (hz : Bool) (f : PlaneFiles) (a : CaseAttr) (h : loadCase CT HH Λ hz yaw = .ok (some (f, a))) :
    a = ⟨CT, if 9 < HH then 9.9 else HH, if Num.fin 20 < Λ.val then PyReal.int 99 else Λ, yaw, hz⟩ ∧
    ∃ base, caseBase CT (if 9 < HH then 9.9 else HH) (if Num.fin 20 < Λ.val then PyReal.int 99 else Λ) yaw = .ok base ∧
      (9 < HH → f = .mat ("../data/AD_".toList ++ base ++ ".mat".toList) ∧ hz = true) ∧
      (HH ≤ 9 → f = groundFiles base HH hz) := by
  cases hb : caseBase CT (if 9 < HH then 9.9 else HH) (if Num.fin 20 < Λ.val then PyReal.int 99 else Λ) yaw with
  | error e => rw [load_err _ _ _ _ _ _ _ _ rfl rfl hb] at h; exact nomatch h
  | ok base =>
    rw [load_ok _ _ _ _ _ _ _ _ rfl rfl hb] at h
    have h := Except.ok.inj h
    clear hb
    generalize (if Num.fin 20 < Λ.val then PyReal.int 99 else Λ) = L at *
    by_cases h9 : 9 < HH
    · simp only [if_pos h9] at h ⊢
      split_ifs at h with h2
      obtain ⟨h3, h4⟩ := Prod.mk.inj (Option.some.inj h)
      refine ⟨h4.symm, base, rfl, fun _ => ⟨h3.symm, ?_⟩, fun h => absurd h9 (not_lt.mpr h)⟩
      cases hz
      · exact absurd (Or.inl rfl) h2
      · rfl
    · simp only [if_neg h9] at h ⊢
      split_ifs at h with h2
      obtain ⟨h3, h4⟩ := Prod.mk.inj (Option.some.inj h)
      exact ⟨h4.symm, base, rfl, fun h => absurd h h9, fun _ => h3.symm⟩

theorem trunc_close (x y : ℝ) (hx : 0 ≤ x) (hy : 0 ≤ y) (h : pyInt x = pyInt y) : |x - y| < 1 := by
  unfold pyInt at h
  rw [if_pos hx, if_pos hy] at h
  have := Int.floor_le x; have := Int.lt_floor_add_one x; have := Int.floor_le y; have := Int.lt_floor_add_one y
  rw [h] at *
  rw [abs_lt]; constructor <;> linarith

/-- C116: two calls that read the same files agree on everything the file names carry: the plane, the yaw angle, the tip-speed
ratio (above 20: none), the hub height (above 9 radii: no ground) up to a tenth of a radius and the thrust coefficient up to a
hundredth. -/
theorem C116_same_files_partial (CT HH CT' HH' : ℝ) (Λ yaw Λ' yaw' : PyReal) (hz hz' : Bool) (f : PlaneFiles) (a a' : CaseAttr)
    (hc : 0 ≤ CT) (hc' : 0 ≤ CT') (hh : 0 ≤ HH) (hh' : 0 ≤ HH')
    (h : loadCase CT HH Λ hz yaw = .ok (some (f, a))) (h' : loadCase CT' HH' Λ' hz' yaw' = .ok (some (f, a'))) :
    hz = hz' ∧ yaw = yaw' ∧ a.Lambda = a'.Lambda ∧ (9 < HH ↔ 9 < HH') ∧ (HH ≤ 9 → |HH - HH'| < 0.1) ∧ |CT - CT'| < 0.01 ∧ a.CT = CT ∧ a'.CT = CT' := by
  obtain ⟨ha, base, hb, hm, hg⟩ := load_spec _ _ _ _ _ _ _ h
  obtain ⟨ha', base', hb', hm', hg'⟩ := load_spec _ _ _ _ _ _ _ h'
  generalize hL : (if Num.fin 20 < Λ.val then PyReal.int 99 else Λ) = L at *
  generalize hL' : (if Num.fin 20 < Λ'.val then PyReal.int 99 else Λ') = L' at *
  have hint : ∀ {C H b} {L y : PyReal}, caseBase C H L y = .ok b → ∃ l k, L = .int l ∧ y = .int k := by
    intro C H b L y h
    unfold caseBase at h
    cases L <;> cases y <;> first | exact ⟨_, _, rfl, rfl⟩ | exact nomatch h
  obtain ⟨l, k, hl, hk⟩ := hint hb
  obtain ⟨l', k', hl', hk'⟩ := hint hb'
  subst hk hk' hl hl'
  have hCT : ∀ x y : ℝ, 0 ≤ x → 0 ≤ y → pyInt (x * 100) = pyInt (y * 100) → |x - y| < 0.01 := by
    intro x y hx hy e
    have := trunc_close _ _ (by positivity) (by positivity) e
    rw [← sub_mul, abs_mul, abs_of_pos (by norm_num : (0:ℝ) < 100)] at this
    norm_num
    linarith
  have hHH : ∀ x y : ℝ, 0 ≤ x → 0 ≤ y → pyInt (x * 10) = pyInt (y * 10) → |x - y| < 0.1 := by
    intro x y hx hy e
    have := trunc_close _ _ (by positivity) (by positivity) e
    rw [← sub_mul, abs_mul, abs_of_pos (by norm_num : (0:ℝ) < 10)] at this
    norm_num
    linarith
  by_cases h9 : 9 < HH
  · have f1 := (hm h9).1
    by_cases h9' : 9 < HH'
    · have f2 := (hm' h9').1
      rw [f1] at f2
      have e := PlaneFiles.mat.inj f2
      rw [List.append_assoc, List.append_assoc] at e
      have e := List.append_cancel_left e
      obtain ⟨e1, e2, e3, e4, -⟩ := base_inj _ _ _ _ l k l' k' _ _ _ _ (Or.inr rfl) (Or.inr rfl) base base' hb hb' e
      have := And.intro (hm h9).2 (hm' h9').2
      refine ⟨by rw [this.1, this.2], by rw [e4], by rw [ha, ha', e3], by tauto, fun h => absurd h9 (not_lt.mpr h), hCT _ _ hc hc' e1, by rw [ha], by rw [ha']⟩
    · have f2 := hg' (not_lt.mp h9')
      rw [f1] at f2; exact nomatch f2
  · have f1 := hg (not_lt.mp h9)
    by_cases h9' : 9 < HH'
    · have f2 := (hm' h9').1
      rw [f1] at f2; exact nomatch f2
    · have f2 := hg' (not_lt.mp h9')
      rw [f1] at f2
      have e := (PlaneFiles.csv.inj f2).2.2.2.2.2
      simp only [List.append_assoc] at e
      have e := List.append_cancel_left e
      obtain ⟨e1, e2, e3, e4, e5⟩ := base_inj _ _ _ _ l k l' k' _ _ _ _ (Or.inl rfl) (Or.inl rfl) base base' hb hb' e
      rw [if_neg h9, if_neg h9'] at e2
      refine ⟨?_, by rw [e4], by rw [ha, ha', e3], by tauto, fun _ => hHH _ _ hh hh' e2, hCT _ _ hc hc' e1, by rw [ha], by rw [ha']⟩
      cases hz <;> cases hz' <;> first | rfl | (revert e5; decide)

/-- C116: the thrust coefficient recorded with the data is the requested one, not the one of the data: the same files are loaded
for thrust coefficients 0.8 and 0.805, and the comparison models are then set up for different thrust. -/
theorem C116_exact_ct_refuted : ¬ ∀ (CT CT' HH : ℝ) (Λ yaw : PyReal) (hz : Bool) (f : PlaneFiles) (a a' : CaseAttr), 0 ≤ CT → 0 ≤ CT' → 0 ≤ HH →
    loadCase CT HH Λ hz yaw = .ok (some (f, a)) → loadCase CT' HH Λ hz yaw = .ok (some (f, a')) → a.CT = a'.CT := by
  intro hall
  have key : pyInt ((0.8 : ℝ) * 100) = pyInt ((0.805 : ℝ) * 100) := by
    unfold pyInt
    rw [if_pos (by norm_num), if_pos (by norm_num)]
    rw [show ((0.8 : ℝ) * 100) = (80 : ℤ) by norm_num, Int.floor_intCast]
    symm
    rw [Int.floor_eq_iff]; norm_num
  obtain ⟨f, a, h⟩ := ((C116_available 0.8 10 99 0 true).1).mpr (Or.inl ⟨by norm_num, rfl, Or.inl rfl⟩)
  obtain ⟨f', a', h'⟩ := ((C116_available 0.805 10 99 0 true).1).mpr (Or.inl ⟨by norm_num, rfl, Or.inl rfl⟩)
  obtain ⟨ha, base, hb, hm, -⟩ := load_spec _ _ _ _ _ _ _ h
  obtain ⟨ha', base', hb', hm', -⟩ := load_spec _ _ _ _ _ _ _ h'
  have hbb : base = base' := by
    have hL : (if Num.fin 20 < (PyReal.int 99).val then PyReal.int 99 else .int 99) = .int 99 := ite_self _
    rw [hL] at hb hb'
    have h1 := Except.ok.inj hb
    have h2 := Except.ok.inj hb'
    rw [← h1, ← h2, key]
  have hf : f = f' := by rw [(hm (by norm_num)).1, (hm' (by norm_num)).1, hbb]
  subst hf
  have := hall 0.8 0.805 10 (.int 99) (.int 0) true f a a' (by norm_num) (by norm_num) (by norm_num) h h'
  rw [ha, ha'] at this
  norm_num at this

/-- C116: the model set up for a loaded case has a mirror turbine exactly if the data come from the ground-effect simulations,
and its hub is at the recorded height — for every hub height but 9 radii exactly. -/
theorem C116_ground_partial (mini : (ℝ → Num) → ℝ) (CT HH : ℝ) (Λ : PyReal) (yaw : ℤ) (hz : Bool) (f : PlaneFiles) (a : CaseAttr) (hHH : HH ≠ 9)
    (h : loadCase CT HH Λ hz (.int yaw) = .ok (some (f, a))) (ad : OutputAD) (had : ad.case = a.case yaw) (c : BlockageCase) (mt : Bool)
    (U0 : ℝ) (M : String) (vc : OutputVC) (hs : setupModel mini (some ad) c mt U0 none M = .ok vc) :
    (vc.WT.Ground = true ↔ ∃ a b u v w o, f = .csv a b u v w o) ∧ vc.WT.r_hub = ⟨0, if 9 < HH then 9.9 else HH, 0⟩ ∧ vc.Horizontal = hz := by
  obtain ⟨ha, base, hb, hm, hg⟩ := load_spec _ _ _ _ _ _ _ h
  obtain ⟨ht, -, hh, -⟩ := setup_spec mini (some ad) c mt U0 none M vc hs
  have hcase : theCase (some ad) c = a.case yaw := had
  rw [hcase] at ht hh
  have hH : (a.case yaw).HH = if 9 < HH then 9.9 else HH := by rw [ha]; rfl
  refine ⟨?_, by rw [ht.hub, hH], by rw [hh, ha]; rfl⟩
  rw [ht.ground, hH, decide_eq_true_iff]
  by_cases h9 : 9 < HH
  · rw [if_pos h9]
    constructor
    · intro h; norm_num at h
    · rintro ⟨_, _, _, _, _, _, e⟩; rw [(hm h9).1] at e; exact nomatch e
  · rw [if_neg h9]
    constructor
    · intro _
      exact ⟨_, _, _, _, _, _, hg (not_lt.mp h9)⟩
    · intro _; exact lt_of_le_of_ne (not_lt.mp h9) hHH

/-- C116: for a hub at 9 radii the ground-effect data are compared with a model without ground. -/
theorem C116_ground_refuted (mini : (ℝ → Num) → ℝ) : ¬ ∀ (CT HH : ℝ) (Λ : PyReal) (yaw : ℤ) (hz : Bool) (f : PlaneFiles) (a : CaseAttr),
    loadCase CT HH Λ hz (.int yaw) = .ok (some (f, a)) → ∀ (ad : OutputAD), ad.case = a.case yaw → ∀ (c : BlockageCase) (mt : Bool)
    (U0 : ℝ) (M : String) (vc : OutputVC), setupModel mini (some ad) c mt U0 none M = .ok vc →
    (vc.WT.Ground = true ↔ ∃ a b u v w o, f = .csv a b u v w o) := by
  intro hall
  obtain ⟨f, a, h⟩ := ((C116_available 0.4 9 99 0 true).1).mpr (Or.inr ⟨le_rfl, rfl, Or.inr (by norm_num)⟩)
  obtain ⟨ha, base, hb, hm, hg⟩ := load_spec _ _ _ _ _ _ _ h
  have e := hg le_rfl
  let ad : OutputAD := { exampleAD with case := a.case ((0:ℤ):ℝ) }
  have hl : ad.case.Lambda = .fin 99 := by
    show a.Lambda.val = _
    rw [ha]
    simp only [ite_self]
    show Num.fin ((99:ℤ):ℝ) = _
    norm_num
  obtain ⟨⟨vc, hvc, -⟩, -⟩ := C90_setup mini (some ad) ad.case 1 "VC" one_ne_zero 99 hl (by norm_num)
  have := (hall _ _ _ _ _ f a h ad rfl ad.case false 1 "VC" vc hvc).mpr ⟨_, _, _, _, _, _, e⟩
  obtain ⟨ht, -⟩ := setup_spec mini (some ad) ad.case false 1 none "VC" vc hvc
  rw [ht.ground] at this
  have h2 := of_decide_eq_true this
  have h3 : (theCase (some ad) ad.case).HH = 9 := by
    show a.HH = 9
    rw [ha]
    simp
  rw [h3] at h2
  exact lt_irrefl _ h2

/-- the hypotheses of `C116_same_files_partial` (a yawed case) and of `C116_ground_partial` (hub at 1.5 radii, vertical plane) -/
example : ∃ f a f' a', loadCase 0.4 9999 (.flt .pinf) true (.int 30) = .ok (some (f, a)) ∧ loadCase 0.4 1.5 (.int 6) false (.int 0) = .ok (some (f', a')) := by
  obtain ⟨f', a', h'⟩ := ((C116_available 0.4 1.5 6 0 false).1).mpr (Or.inr ⟨by norm_num, rfl, Or.inl rfl⟩)
  obtain ⟨f, a, h⟩ := ((C116_available 0.4 9999 99 30 true).1).mpr (Or.inl ⟨by norm_num, rfl, Or.inr (by norm_num)⟩)
  refine ⟨f, a, f', a', ?_, h'⟩
  rw [← h]
  unfold loadCase
  have h1 : Num.fin 20 < (PyReal.flt .pinf).val := trivial
  have h2 : Num.fin 20 < (PyReal.int 99).val := by show Num.fin 20 < Num.fin ((99 : ℤ) : ℝ); rw [Num.lt_fin]; norm_num
  simp only [if_pos h1, if_pos h2]

/-! ### C117 -/

theorem mapM_get {α β : Type} (f : α → Except String β) (l : List α) (r : List β) (h : l.mapM f = .ok r) :
    r.length = l.length ∧ ∀ (i : ℕ) (x : α), l[i]? = some x → ∃ y, r[i]? = some y ∧ f x = .ok y := by
  induction l generalizing r with
  | nil =>
    have h : (Except.ok [] : Except String (List β)) = .ok r := h
    obtain rfl := Except.ok.inj h
    exact ⟨rfl, fun i x hx => by simp at hx⟩
  | cons a l ih =>
    rw [List.mapM_cons] at h
    cases ha : f a with
    | error e => rw [ha] at h; exact nomatch h
    | ok b =>
      rw [ha] at h
      cases hl : l.mapM f with
      | error e => rw [hl] at h; exact nomatch h
      | ok bs =>
        rw [hl] at h
        have h : (Except.ok (b :: bs) : Except String (List β)) = .ok r := h
        obtain rfl := Except.ok.inj h
        obtain ⟨h1, h2⟩ := ih bs hl
        refine ⟨by rw [List.length_cons, List.length_cons, h1], ?_⟩
        intro i x hx
        cases i with
        | zero => exact ⟨b, rfl, by rw [List.getElem?_cons_zero] at hx; rw [← Option.some.inj hx]; exact ha⟩
        | succ i => rw [List.getElem?_cons_succ] at hx ⊢; exact h2 i x hx

theorem mapM_bad {α β : Type} (f : α → Except String β) (l : List α) (x : α) (hx : x ∈ l) (h : ∀ r, f x ≠ .ok r) : ∀ r, l.mapM f ≠ .ok r := by
  intro r hr
  obtain ⟨i, hi⟩ := List.mem_iff_getElem?.mp hx
  obtain ⟨y, -, hy⟩ := (mapM_get f l r hr).2 i x hi
  exact h y hy

/-- C117: the error matrix of a model: the entry for a direction that has both an angle and an offset is the relative difference,
in percent of the actuator-disk velocity, of the axial velocity of the model and that of the data at the point of the direction;
the model is the one matched to the same data, and the points of one direction are passed to it together. -/
theorem C117_entry (mini : (ℝ → Num) → ℝ) (ad : OutputAD) (adW gpW : V3 ℝ → Num) (mt hz useRho : Bool) (angles roffsets rho : List ℝ)
    (models : List String) (RE : List (List (List Num))) (MRE : List (List Num))
    (h : getModelsRelErr mini (some ad) adW gpW mt hz useRho angles roffsets rho models = .ok (RE, MRE))
    (i k j : ℕ) (name : String) (θ off r : ℝ) (hi : models[i]? = some name) (hk : angles[k]? = some θ) (hk' : roffsets[k]? = some off)
    (hj : rho[j]? = some r) :
    let at_ : ℝ → V3 ℝ := fun r =>
      if hz then (if useRho then ⟨-(r * sin θ), 0, r * cos θ⟩ else ⟨off, 0, r⟩)
      else (if useRho then ⟨0, -(r * sin θ), r * cos θ⟩ else ⟨0, off, r⟩)
    ∃ M row, RE[i]? = some M ∧ M.length = angles.length ∧ M[k]? = some row ∧
      (name = "AD" → row[j]? = some ((adW (at_ r) - adW (at_ r)) / adW (at_ r) * 100)) ∧
      (name = "GP" → row[j]? = some ((gpW (at_ r) - adW (at_ r)) / adW (at_ r) * 100)) ∧
      (name ≠ "AD" → name ≠ "GP" → (name = "VC" ∨ name = "VD" ∨ name = "SS") ∧
        ∃ vc us, setupModel mini (some ad) ad.case mt 1 none name = .ok vc ∧ vc.fU (rho.map at_) = .ok us ∧
          ∀ u, us[j]? = some u → row[j]? = some ((u.z - adW (at_ r)) / adW (at_ r) * 100)) := by
  intro at_
  unfold getModelsRelErr at h
  simp only at h
  split at h
  · exact nomatch h
  cases hrows : relErrRows mini ad adW gpW mt hz useRho rho models (List.zip angles roffsets) with
  | error e => rw [hrows] at h; exact nomatch h
  | ok rows =>
    rw [hrows] at h
    simp only at h
    obtain ⟨h1, -⟩ := Prod.mk.inj (Except.ok.inj h)
    have hpts : probePts hz useRho rho θ off = rho.map at_ := by
      unfold probePts
      apply List.map_congr_left
      intro r _
      show _ = (if hz then _ else _)
      cases hz <;> cases useRho <;> simp
    obtain ⟨hl, hg⟩ := mapM_get _ _ _ hrows
    have hzip : (List.zip angles roffsets)[k]? = some (θ, off) := by
      rw [List.getElem?_zip_eq_some]; exact ⟨hk, hk'⟩
    obtain ⟨ms, hms, hmsf⟩ := hg k _ hzip
    obtain ⟨hl2, hg2⟩ := mapM_get _ _ _ hmsf
    obtain ⟨row, hrow, hrowf⟩ := hg2 i name hi
    have hil : i < models.length := (List.getElem?_eq_some_iff.mp hi).1
    have hkl : k < rows.length := (List.getElem?_eq_some_iff.mp hms).1
    rw [List.length_zip] at hl
    have hpj : (rho.map at_)[j]? = some (at_ r) := by rw [List.getElem?_map, hj]; rfl
    refine ⟨_, row, by rw [← h1, List.getElem?_map, List.getElem?_range hil]; rfl, ?_, ?_, ?_⟩
    · rw [List.length_append, List.length_map, List.length_replicate]; omega
    · rw [List.getElem?_append_left (by rw [List.length_map]; exact hkl), List.getElem?_map, hms]
      show some (ms.getD i []) = _
      rw [List.getD_eq_getElem?_getD, hrow]; rfl
    · simp only at hrowf
      rw [hpts] at hrowf
      unfold relErrRow at hrowf
      cases hv : modelVel mini ad adW gpW mt (rho.map at_) name with
      | error e => rw [hv] at hrowf; exact nomatch hrowf
      | ok w =>
        rw [hv] at hrowf
        have hrowf := Except.ok.inj hrowf
        have hent : ∀ v, w[j]? = some v → row[j]? = some ((v - adW (at_ r)) / adW (at_ r) * 100) := by
          intro v hw
          rw [← hrowf, List.getElem?_zipWith, hpj, hw]
        unfold modelVel at hv
        refine ⟨?_, ?_, ?_⟩
        · rintro rfl
          rw [if_neg (by decide), if_pos rfl] at hv
          apply hent
          rw [← Except.ok.inj hv, List.getElem?_map, hpj]; rfl
        · rintro rfl
          rw [if_neg (by decide), if_neg (by decide), if_pos rfl] at hv
          apply hent
          rw [← Except.ok.inj hv, List.getElem?_map, hpj]; rfl
        · intro n1 n2
          by_cases hn : name = "VC" ∨ name = "VD" ∨ name = "SS"
          · refine ⟨hn, ?_⟩
            rw [if_pos hn] at hv
            cases hs : setupModel mini (some ad) ad.case mt 1 none name with
            | error e => rw [hs] at hv; exact nomatch hv
            | ok vc =>
              rw [hs] at hv
              simp only at hv
              cases hu : vc.fU (rho.map at_) with
              | error e => rw [hu] at hv; exact nomatch hv
              | ok us =>
                rw [hu] at hv
                refine ⟨vc, us, rfl, hu, ?_⟩
                intro u hj'
                apply hent
                rw [← Except.ok.inj hv, List.getElem?_map, hj']; rfl
          · rw [if_neg hn, if_neg n1, if_neg n2] at hv; exact nomatch hv

/-- C117: the mean error of a model at a distance is the mean of the column of its error matrix, over all the angles. -/
theorem C117_mean (mini : (ℝ → Num) → ℝ) (ad : OutputAD) (adW gpW : V3 ℝ → Num) (mt hz useRho : Bool) (angles roffsets rho : List ℝ)
    (models : List String) (RE : List (List (List Num))) (MRE : List (List Num)) (e : ℕ → ℕ → ℕ → ℝ)
    (h : getModelsRelErr mini (some ad) adW gpW mt hz useRho angles roffsets rho models = .ok (RE, MRE))
    (h0 : angles ≠ [])
    (he : ∀ i k j : ℕ, i < models.length → k < angles.length → j < rho.length → ∃ M row, RE[i]? = some M ∧ M[k]? = some row ∧ row[j]? = some (.fin (e i k j)))
    (i j : ℕ) (hi : i < models.length) (hj : j < rho.length) :
    ∃ row, MRE[i]? = some row ∧ row[j]? = some (.fin ((∑ k ∈ Finset.range angles.length, e i k j) / angles.length)) := by
  unfold getModelsRelErr at h
  simp only at h
  split at h
  · exact nomatch h
  cases hrows : relErrRows mini ad adW gpW mt hz useRho rho models (List.zip angles roffsets) with
  | error e => rw [hrows] at h; exact nomatch h
  | ok rows =>
    rw [hrows] at h
    simp only at h
    obtain ⟨h1, h2⟩ := Prod.mk.inj (Except.ok.inj h)
    have hl := (mapM_get _ _ _ hrows).1
    rw [List.length_zip] at hl
    rw [h1] at h2
    obtain ⟨M, row, hM, -⟩ := he i 0 j hi (List.length_pos_iff.mpr h0) hj
    have hML : M.length = angles.length := by
      rw [← h1, List.getElem?_map, List.getElem?_range hi] at hM
      rw [← Option.some.inj hM, List.length_append, List.length_map, List.length_replicate]
      omega
    refine ⟨_, by rw [← h2, List.getElem?_map, hM]; rfl, ?_⟩
    rw [List.getElem?_map, List.getElem?_range hj]
    show some (npMean _) = _
    have hcol : (M.map fun row => row.getD j .nan) = ((List.range angles.length).map fun k => e i k j).map Num.fin := by
      apply List.ext_getElem?
      intro k
      by_cases hk : k < angles.length
      · obtain ⟨M', row, hM', hr, hv⟩ := he i k j hi hk hj
        rw [hM] at hM'
        obtain rfl := Option.some.inj hM'
        rw [List.getElem?_map, hr, List.getElem?_map, List.getElem?_map, List.getElem?_range hk]
        show some (row.getD j .nan) = _
        rw [List.getD_eq_getElem?_getD, hv]
        rfl
      · rw [List.getElem?_eq_none (by rw [List.length_map, hML]; omega), List.getElem?_eq_none (by simp; omega)]
    rw [hcol, npMean_fin _ (by simpa using h0), List.length_map, List.length_range]
    rfl

/-- C117: the directions that have an angle but no offset keep the error 0. -/
theorem C117_short_offsets_partial (mini : (ℝ → Num) → ℝ) (ad : OutputAD) (adW gpW : V3 ℝ → Num) (mt hz useRho : Bool) (angles roffsets rho : List ℝ)
    (models : List String) (RE : List (List (List Num))) (MRE : List (List Num))
    (h : getModelsRelErr mini (some ad) adW gpW mt hz useRho angles roffsets rho models = .ok (RE, MRE))
    (i k j : ℕ) (hi : i < models.length) (hk : k < angles.length) (hk' : roffsets.length ≤ k) (hj : j < rho.length) :
    ∃ M row, RE[i]? = some M ∧ M[k]? = some row ∧ row[j]? = some 0 := by
  unfold getModelsRelErr at h
  simp only at h
  split at h
  · exact nomatch h
  cases hrows : relErrRows mini ad adW gpW mt hz useRho rho models (List.zip angles roffsets) with
  | error e => rw [hrows] at h; exact nomatch h
  | ok rows =>
    rw [hrows] at h
    simp only at h
    obtain ⟨h1, h2⟩ := Prod.mk.inj (Except.ok.inj h)
    have hl := (mapM_get _ _ _ hrows).1
    rw [List.length_zip] at hl
    refine ⟨_, List.replicate rho.length 0, by rw [← h1, List.getElem?_map, List.getElem?_range hi]; rfl, ?_, ?_⟩
    · rw [List.getElem?_append_right (by rw [List.length_map]; omega), List.getElem?_replicate, if_pos]
      rw [List.length_map]; omega
    · rw [List.getElem?_replicate, if_pos hj]

/-- C117: with fewer offsets than angles the remaining directions keep the error 0 and lower the mean, also when the offsets are not
used: a prediction twice the data everywhere (100 % error) gets a mean error of 50 % for two angles and one offset. -/
theorem C117_short_offsets_refuted (mini : (ℝ → Num) → ℝ) : ¬ ∀ (ad : OutputAD) (adW gpW : V3 ℝ → Num) (angles roffsets rho : List ℝ)
    (RE : List (List (List Num))) (MRE : List (List Num)), angles ≠ [] → (∀ p, adW p = .fin 1) → (∀ p, gpW p = .fin 2) →
    getModelsRelErr mini (some ad) adW gpW false true true angles roffsets rho ["GP"] = .ok (RE, MRE) →
    ∀ row ∈ MRE, ∀ v ∈ row, v = .fin 100 := by
  intro hall
  have hrow : relErrRow mini exampleAD (fun _ => .fin 1) (fun _ => .fin 2) false (probePts true true [1] 0 0) "GP" = .ok [.fin 100] := by
    unfold relErrRow modelVel probePts
    rw [if_neg (by decide), if_neg (by decide), if_pos rfl]
    simp only [List.map_cons, List.map_nil, List.zipWith_cons_cons, List.zipWith_nil_left]
    simp only [Num.ofNat_def, Num.fin_sub, Num.fin_div one_ne_zero, Num.fin_mul]
    norm_num
  have hrun : getModelsRelErr mini (some exampleAD) (fun _ => .fin 1) (fun _ => .fin 2) false true true [0, 1] [0] [1] ["GP"] =
      .ok ([[[.fin 100], [0]]], [[.fin 50]]) := by
    unfold getModelsRelErr
    have hrows : relErrRows mini exampleAD (fun _ => .fin 1) (fun _ => .fin 2) false true true [1] ["GP"] (List.zip [0, 1] [0]) = .ok [[[.fin 100]]] := by
      unfold relErrRows
      simp only [List.zip_cons_cons, List.zip_nil_right, List.mapM_cons, List.mapM_nil, hrow]
      rfl
    simp only [Bool.false_eq_true, if_false, hrows]
    have hm : npMean [Num.fin 100, 0] = .fin 50 := by
      have := npMean_fin [100, 0] (by simp)
      simp only [List.map_cons, List.map_nil] at this
      rw [Num.zero_def, this]
      norm_num
    rw [Num.zero_def] at hm
    simp [List.range_succ, hm]
  have := hall exampleAD _ _ [0, 1] [0] [1] _ _ (by simp) (fun _ => rfl) (fun _ => rfl) hrun [.fin 50] (by simp) (.fin 50) (by simp)
  have := Num.fin.inj this
  norm_num at this

/-- C117: a case without data and a model that is not supported are errors; without any direction every list of models is accepted. -/
theorem C117_errors (mini : (ℝ → Num) → ℝ) (adW gpW : V3 ℝ → Num) (mt hz useRho : Bool) (angles roffsets rho : List ℝ) (models : List String) :
    (∃ e, getModelsRelErr mini none adW gpW mt hz useRho angles roffsets rho models = .error e) ∧
    (∀ (ad : OutputAD) (name : String), name ∈ models → name ∉ ["VC", "VD", "SS", "AD", "GP"] → angles ≠ [] → roffsets ≠ [] →
      ∃ e, getModelsRelErr mini (some ad) adW gpW mt hz useRho angles roffsets rho models = .error e) ∧
    (∀ ad : OutputAD, angles = [] ∨ roffsets = [] → ∃ r, getModelsRelErr mini (some ad) adW gpW false hz useRho angles roffsets rho models = .ok r) := by
  refine ⟨⟨_, rfl⟩, ?_, ?_⟩
  · intro ad name hn hbad ha hr
    cases hres : getModelsRelErr mini (some ad) adW gpW mt hz useRho angles roffsets rho models with
    | error e => exact ⟨e, rfl⟩
    | ok r =>
      exfalso
      unfold getModelsRelErr at hres
      simp only at hres
      split at hres
      · exact nomatch hres
      cases hrows : relErrRows mini ad adW gpW mt hz useRho rho models (List.zip angles roffsets) with
      | error e => rw [hrows] at hres; exact nomatch hres
      | ok rows =>
        obtain ⟨θ, angles, rfl⟩ := List.exists_cons_of_ne_nil ha
        obtain ⟨o, roffsets, rfl⟩ := List.exists_cons_of_ne_nil hr
        refine mapM_bad _ _ (θ, o) (by rw [List.zip_cons_cons]; exact List.mem_cons_self) ?_ rows hrows
        refine mapM_bad _ _ name hn ?_
        intro r hr
        unfold relErrRow modelVel at hr
        simp only [List.mem_cons, List.not_mem_nil, or_false, not_or] at hbad
        rw [if_neg (by tauto), if_neg hbad.2.2.2.1, if_neg hbad.2.2.2.2] at hr
        exact nomatch hr
  · intro ad h
    have hz : List.zip angles roffsets = [] := by rcases h with rfl | rfl <;> simp
    unfold getModelsRelErr relErrRows
    rw [hz]
    exact ⟨_, rfl⟩

/-- C117: with matching, the error of the cylinder model at the rotor centre is that of the interpolation of the data: zero if the
interpolant returns the value the data hold at the centre. -/
theorem C117_centre (mini : (ℝ → Num) → ℝ) (ad : OutputAD) (adW gpW : V3 ℝ → Num) (hz : Bool) (angles roffsets : List ℝ)
    (RE : List (List (List Num))) (MRE : List (List Num)) (uc : ℝ)
    (h : getModelsRelErr mini (some ad) adW gpW true hz true angles roffsets [0] ["VC"] = .ok (RE, MRE))
    (hH : 9 ≤ ad.case.HH ∨ ad.case.Yaw = 0 ∧ 0.51 ≤ ad.case.HH)
    (hcos : ad.case.CT ≤ 1 → cos (ad.case.Yaw * (1 + 0.3 * (1 - √(1 - ad.case.CT))) * π / 180) ≠ 0)
    (hc : ad.fCenter = .ok uc) (huc : uc ≠ 0) (hint : adW ⟨0, 0, 0⟩ = .fin uc) (k : ℕ) (hk : k < angles.length) (hk' : k < roffsets.length) :
    ∃ M row, RE[0]? = some M ∧ M[k]? = some row ∧ row[0]? = some (.fin 0) := by
  obtain ⟨M, row, hM, -, hrow, -, -, hvc⟩ := C117_entry mini ad adW gpW true hz true angles roffsets [0] ["VC"] RE MRE h 0 k 0 "VC" angles[k] roffsets[k] 0 rfl
    (List.getElem?_eq_getElem hk) (List.getElem?_eq_getElem hk') rfl
  obtain ⟨-, vc, us, hs, hu, hent⟩ := hvc (by decide) (by decide)
  have hpt : (if hz = true then (if true = true then (⟨-(0 * sin angles[k]), 0, 0 * cos angles[k]⟩ : V3 ℝ) else ⟨roffsets[k], 0, 0⟩)
      else (if true = true then ⟨0, -(0 * sin angles[k]), 0 * cos angles[k]⟩ else ⟨0, roffsets[k], 0⟩)) = ⟨0, 0, 0⟩ := by
    cases hz <;> simp
  rw [List.map_cons, List.map_nil] at hu
  beta_reduce at hu hent
  rw [hpt] at hu hent
  obtain ⟨uc', v, h1, h2, h3⟩ := C90_match mini ad ad.case 1 vc hs hH hcos
  rw [hc] at h1
  obtain rfl := Except.ok.inj h1
  rw [hu] at h2
  have h2 := Except.ok.inj h2
  subst h2
  have h4 := hent v rfl
  rw [h3, hint] at h4
  simp only [Num.ofNat_def, Num.fin_sub, Num.fin_div huc, Num.fin_mul] at h4
  refine ⟨M, row, hM, hrow, ?_⟩
  rw [h4]
  norm_num

/-- the hypotheses of `C117_entry` and `C117_centre` on the plane `exampleAD` -/
example (mini : (ℝ → Num) → ℝ) : ∃ RE MRE, getModelsRelErr mini (some exampleAD) (fun _ => .fin 0.7) (fun _ => .fin 0.8) true true true [0] [0] [0] ["VC"] =
    .ok (RE, MRE) ∧ exampleAD.fCenter = .ok 0.7 ∧ 9 ≤ exampleAD.case.HH := by
  have hc : exampleAD.fCenter = .ok 0.7 :=
    C89_center exampleAD 1 1 0.7 [0.8, 0.7, 0.8] (by simp [exampleAD]; norm_num) (by simp [exampleAD]) (by simp [exampleAD]) (by simp [exampleAD]) rfl rfl
  have h9 : (9 : ℝ) ≤ exampleAD.case.HH := by simp [exampleAD]; norm_num
  obtain ⟨vc, hvc⟩ := (C90_setup mini (some exampleAD) exampleAD.case 1 "VC" one_ne_zero 9999 rfl (by norm_num)).2.mpr ⟨_, _, rfl, hc⟩
  obtain ⟨uc, v, h1, h2, h3⟩ := C90_match mini exampleAD exampleAD.case 1 vc hvc (Or.inl h9) (by simp [exampleAD])
  have hp : probePts true true [0] 0 0 = [⟨0, 0, 0⟩] := by simp [probePts]
  have hr : relErrRow mini exampleAD (fun _ => .fin 0.7) (fun _ => .fin 0.8) true (probePts true true [0] 0 0) "VC" =
      .ok [(v.z - .fin 0.7) / .fin 0.7 * 100] := by
    rw [hp]
    unfold relErrRow modelVel
    rw [if_pos (Or.inl rfl), hvc]
    simp only [h2]
    rfl
  have hrows : relErrRows mini exampleAD (fun _ => .fin 0.7) (fun _ => .fin 0.8) true true true [0] ["VC"] (List.zip [0] [0]) =
      .ok [[[(v.z - .fin 0.7) / .fin 0.7 * 100]]] := by
    unfold relErrRows
    simp only [List.zip_cons_cons, List.zip_nil_right, List.mapM_cons, List.mapM_nil, hr]
    rfl
  unfold getModelsRelErr
  simp only [if_true, hc, hrows]
  exact ⟨_, _, rfl, trivial, h9⟩

end Wiz
