import Verif.Model.SolverHeap
import Verif.Lemmas.Solver
import Mathlib.Tactic.IntervalCases

/-!
# The memory model of the discrete solver refines the value-level model
-/
namespace Wiz
open Classical

/-! ### The heap version computes what the value-level model computes -/

/-- the contents of the arrays of the loop -/
structure LoopState (m : ℕ) (h : Heap) (kr ap C lR b S Sbis Ctrot loc Cti Cteff g : ℕ → Num) : Prop where
  kr : h.cells (m+1) = kr
  ap : h.cells (m+2) = ap
  C : h.cells (m+3) = C
  lR : h.cells (m+4) = lR
  b : h.cells (m+5) = b
  S : h.cells (m+6) = S
  Sbis : h.cells (m+7) = Sbis
  Ctrot : h.cells (m+8) = Ctrot
  loc : h.cells (m+9) = loc
  Cti : h.cells (m+10) = Cti
  Cteff : h.cells (m+11) = Cteff
  g : h.cells (m+12) = g

section
variable {m : ℕ} {h : Heap} {kr ap C lR b S Sbis Ctrot loc Cti Cteff g : ℕ → Num}
theorem LoopState.wb (s : LoopState m h kr ap C lR b S Sbis Ctrot loc Cti Cteff g) (i : ℕ) (v : Num) :
    LoopState m (h.write (m+5) i v) kr ap C lR (upd b i v) S Sbis Ctrot loc Cti Cteff g := by
  constructor <;> simp [Heap.write, s.kr, s.ap, s.C, s.lR, s.b, s.S, s.Sbis, s.Ctrot, s.loc, s.Cti, s.Cteff, s.g]
theorem LoopState.wS (s : LoopState m h kr ap C lR b S Sbis Ctrot loc Cti Cteff g) (i : ℕ) (v : Num) :
    LoopState m (h.write (m+6) i v) kr ap C lR b (upd S i v) Sbis Ctrot loc Cti Cteff g := by
  constructor <;> simp [Heap.write, s.kr, s.ap, s.C, s.lR, s.b, s.S, s.Sbis, s.Ctrot, s.loc, s.Cti, s.Cteff, s.g]
theorem LoopState.wSbis (s : LoopState m h kr ap C lR b S Sbis Ctrot loc Cti Cteff g) (i : ℕ) (v : Num) :
    LoopState m (h.write (m+7) i v) kr ap C lR b S (upd Sbis i v) Ctrot loc Cti Cteff g := by
  constructor <;> simp [Heap.write, s.kr, s.ap, s.C, s.lR, s.b, s.S, s.Sbis, s.Ctrot, s.loc, s.Cti, s.Cteff, s.g]
theorem LoopState.wCtrot (s : LoopState m h kr ap C lR b S Sbis Ctrot loc Cti Cteff g) (i : ℕ) (v : Num) :
    LoopState m (h.write (m+8) i v) kr ap C lR b S Sbis (upd Ctrot i v) loc Cti Cteff g := by
  constructor <;> simp [Heap.write, s.kr, s.ap, s.C, s.lR, s.b, s.S, s.Sbis, s.Ctrot, s.loc, s.Cti, s.Cteff, s.g]
theorem LoopState.wloc (s : LoopState m h kr ap C lR b S Sbis Ctrot loc Cti Cteff g) (i : ℕ) (v : Num) :
    LoopState m (h.write (m+9) i v) kr ap C lR b S Sbis Ctrot (upd loc i v) Cti Cteff g := by
  constructor <;> simp [Heap.write, s.kr, s.ap, s.C, s.lR, s.b, s.S, s.Sbis, s.Ctrot, s.loc, s.Cti, s.Cteff, s.g]
theorem LoopState.wCti (s : LoopState m h kr ap C lR b S Sbis Ctrot loc Cti Cteff g) (i : ℕ) (v : Num) :
    LoopState m (h.write (m+10) i v) kr ap C lR b S Sbis Ctrot loc (upd Cti i v) Cteff g := by
  constructor <;> simp [Heap.write, s.kr, s.ap, s.C, s.lR, s.b, s.S, s.Sbis, s.Ctrot, s.loc, s.Cti, s.Cteff, s.g]
theorem LoopState.wCteff (s : LoopState m h kr ap C lR b S Sbis Ctrot loc Cti Cteff g) (i : ℕ) (v : Num) :
    LoopState m (h.write (m+11) i v) kr ap C lR b S Sbis Ctrot loc Cti (upd Cteff i v) g := by
  constructor <;> simp [Heap.write, s.kr, s.ap, s.C, s.lR, s.b, s.S, s.Sbis, s.Ctrot, s.loc, s.Cti, s.Cteff, s.g]
theorem LoopState.wg (s : LoopState m h kr ap C lR b S Sbis Ctrot loc Cti Cteff g) (i : ℕ) (v : Num) :
    LoopState m (h.write (m+12) i v) kr ap C lR b S Sbis Ctrot loc Cti Cteff (upd g i v) := by
  constructor <;> simp [Heap.write, s.kr, s.ap, s.C, s.lR, s.b, s.S, s.Sbis, s.Ctrot, s.loc, s.Cti, s.Cteff, s.g]
end

theorem upd_self (x : ℕ → Num) (i : ℕ) (v : Num) : upd x i v i = v := by simp [upd]
theorem upd_upd (x : ℕ → Num) (i : ℕ) (v w : Num) : upd (upd x i v) i w = upd x i w := by
  funext j; simp only [upd]; split <;> rfl

theorem passFirst_refines (m n : ℕ) (h : Heap) (i : ℕ) (kr ap C lR b S Sbis Ctrot loc Cti Cteff g : ℕ → Num)
    (st : LoopState m h kr ap C lR b S Sbis Ctrot loc Cti Cteff g) (b1 S1 loc1 : Num)
    (e : (b1, S1, loc1) = (if i = n - 1 then ((1:Num), 1 - C i, (0:Num)) else
        ((1 + sumFrom n g (i+1) : Num), (1 + sumFrom n g (i+1))^2 - (kr i - kr (i+1)) * (1 + ap i),
          (kr (i+1) / 2)^2 * (1 / (lR i)^2 - 1 / (lR (i+1))^2)))) :
    ∃ Sbis' Ctrot', LoopState m (passFirst n (m+1) (m+2) (m+3) (m+4) (loopRefs (m+5)) i h) kr ap C lR (upd b i b1) (upd S i S1) Sbis' Ctrot'
      (upd loc i loc1) Cti Cteff g := by
  unfold passFirst
  simp only [loopRefs]
  by_cases hl : i = n - 1
  · rw [if_pos hl] at e ⊢
    simp only [Prod.mk.injEq] at e
    obtain ⟨rfl, rfl, rfl⟩ := e
    have t1 := st.wb i 1
    have t2 := t1.wS i (1 - C i)
    have t3 := t2.wSbis i (1 - C i)
    have t4 := t3.wCtrot i 0
    have t5 := t4.wloc i 0
    refine ⟨upd Sbis i (1 - C i), upd Ctrot i 0, ?_⟩
    rw [t1.C, t2.C]
    exact t5
  · rw [if_neg hl] at e ⊢
    simp only [Prod.mk.injEq] at e
    obtain ⟨rfl, rfl, rfl⟩ := e
    have t1 := st.wb i (1 + sumFrom n g (i+1))
    have t2 := t1.wS i ((1 + sumFrom n g (i+1))^2 - (kr i - kr (i+1)) * (1 + ap i))
    have t3 := t2.wloc i ((kr (i+1) / 2)^2 * (1 / (lR i)^2 - 1 / (lR (i+1))^2))
    refine ⟨Sbis, Ctrot, ?_⟩
    rw [st.g, t1.b, t1.kr, t1.ap, upd_self, t2.kr, t2.lR]
    exact t3

theorem passThrust_refines (m n : ℕ) (sw : Bool) (h : Heap) (i : ℕ) (kr ap C lR b S Sbis Ctrot loc Cti Cteff g : ℕ → Num)
    (st : LoopState m h kr ap C lR b S Sbis Ctrot loc Cti Cteff g) (ce : Num)
    (e : ce = if ¬ sw then kr i - 0 else kr i * (1 + kr i / (4 * (lR i)^2)) - sumFrom n loc (i+1)) :
    ∃ Ctrot' Cti', LoopState m (passThrust n (m+1) (m+4) (loopRefs (m+5)) sw i h) kr ap C lR b S (upd Sbis i (1 - ce)) Ctrot'
      loc Cti' (upd Cteff i ce) g := by
  unfold passThrust
  simp only [loopRefs]
  cases sw
  · simp only [Bool.false_eq_true, not_false_eq_true, if_true] at e ⊢
    have t1 := st.wCtrot i 0
    have t2 := t1.wCti i (kr i)
    have t3 := t2.wCteff i ce
    have t4 := t3.wSbis i (1 - ce)
    refine ⟨upd Ctrot i 0, upd Cti i (kr i), ?_⟩
    · rw [t1.kr, t2.Cti, t2.Ctrot, upd_self, upd_self, ← e, t3.Cteff, upd_self]
      exact t4
  · simp only [not_true, if_false] at e ⊢
    have t1 := st.wCtrot i (sumFrom n loc (i+1))
    have t2 := t1.wCti i (kr i * (1 + kr i / (4 * (lR i)^2)))
    have t3 := t2.wCteff i ce
    have t4 := t3.wSbis i (1 - ce)
    refine ⟨upd Ctrot i (sumFrom n loc (i+1)), upd Cti i (kr i * (1 + kr i / (4 * (lR i)^2))), ?_⟩
    · rw [st.loc, t1.kr, t1.lR, t2.Cti, t2.Ctrot, upd_self, upd_self, ← e, t3.Cteff, upd_self]
      exact t4

theorem passGamma_refines (m : ℕ) (sw hi : Bool) (h : Heap) (i : ℕ) (kr ap C lR b S Sbis Ctrot loc Cti Cteff g : ℕ → Num)
    (st : LoopState m h kr ap C lR b S Sbis Ctrot loc Cti Cteff g) :
    LoopState m (passGamma (loopRefs (m+5)) sw hi i h) kr ap C lR b S Sbis Ctrot loc Cti Cteff (upd g i
      (if hi then (if ctcN < Cteff i then - b i + (1 - 2 * ((Cteff i - 4 * acN^2) / (4 * (1 - 2 * acN))))
        else (if sw then - b i + Num.sqrt (Sbis i) else - b i + Num.sqrt (S i)))
       else (if sw then - b i + Num.sqrt (Sbis i) else - b i + Num.sqrt (S i)))) := by
  have fin : ∀ v : Num, LoopState m (if hi then
      (if ctcN < (h.write (m+12) i v).cells (m+11) i then
        (h.write (m+12) i v).write (m+12) i (- (h.write (m+12) i v).cells (m+5) i +
          (1 - 2 * (((h.write (m+12) i v).cells (m+11) i - 4 * acN^2) / (4 * (1 - 2 * acN)))))
       else h.write (m+12) i v) else h.write (m+12) i v) kr ap C lR b S Sbis Ctrot loc Cti Cteff (upd g i
      (if hi then (if ctcN < Cteff i then - b i + (1 - 2 * ((Cteff i - 4 * acN^2) / (4 * (1 - 2 * acN))))
        else v) else v)) := by
    intro v
    have t1 := st.wg i v
    have t2 := t1.wg i (- b i + (1 - 2 * ((Cteff i - 4 * acN^2) / (4 * (1 - 2 * acN)))))
    rw [upd_upd] at t2
    cases hi
    · simpa only [Bool.false_eq_true, if_false] using t1
    · simp only [if_true]
      by_cases hc : ctcN < Cteff i
      · rw [if_pos (by rw [t1.Cteff]; exact hc), if_pos hc, t1.Cteff, t1.b]; exact t2
      · rw [if_neg (by rw [t1.Cteff]; exact hc), if_neg hc]; exact t1
  cases sw
  · have := fin (- b i + Num.sqrt (S i))
    rw [← st.b, ← st.S] at this
    rw [← st.b, ← st.S]
    exact this
  · have := fin (- b i + Num.sqrt (Sbis i))
    rw [← st.b, ← st.Sbis] at this
    rw [← st.b, ← st.Sbis]
    exact this

/-- one pass on the heap is one pass of the value-level loop -/
theorem pass_refines (m n : ℕ) (sw hi : Bool) (h : Heap) (i : ℕ) (s : DState) (kr ap C lR S Sbis Ctrot Cti : ℕ → Num)
    (st : LoopState m h kr ap C lR s.b S Sbis Ctrot s.Ctrot_loc Cti s.Cteff s.gamma_t_bar) :
    ∃ S' Sbis' Ctrot' Cti', LoopState m (discrPassHeap n (m+1) (m+2) (m+3) (m+4) (loopRefs (m+5)) sw hi h i) kr ap C lR
      (discrStep n kr ap C lR sw hi s i).b S' Sbis' Ctrot' (discrStep n kr ap C lR sw hi s i).Ctrot_loc Cti'
      (discrStep n kr ap C lR sw hi s i).Cteff (discrStep n kr ap C lR sw hi s i).gamma_t_bar := by
  by_cases hl : i = n - 1
  · obtain ⟨Sbis1, Ctrot1, st1⟩ := passFirst_refines m n h i _ _ _ _ _ _ _ _ _ _ _ _ st 1 (1 - C i) 0 (by rw [if_pos hl])
    cases sw
    · obtain ⟨Ctrot2, Cti2, st2⟩ := passThrust_refines m n false _ i _ _ _ _ _ _ _ _ _ _ _ _ st1 (kr i - 0) (by simp)
      have st3 := passGamma_refines m false hi _ i _ _ _ _ _ _ _ _ _ _ _ _ st2
      simp only [upd_self] at st3
      simp only [discrStep, if_pos hl]
      exact ⟨_, _, _, _, st3⟩
    · obtain ⟨Ctrot2, Cti2, st2⟩ := passThrust_refines m n true _ i _ _ _ _ _ _ _ _ _ _ _ _ st1
        (kr i * (1 + kr i / (4 * (lR i)^2)) - sumFrom n (upd s.Ctrot_loc i 0) (i+1)) (by simp)
      have st3 := passGamma_refines m true hi _ i _ _ _ _ _ _ _ _ _ _ _ _ st2
      simp only [upd_self] at st3
      simp only [discrStep, if_pos hl]
      exact ⟨_, _, _, _, st3⟩
  · obtain ⟨Sbis1, Ctrot1, st1⟩ := passFirst_refines m n h i _ _ _ _ _ _ _ _ _ _ _ _ st (1 + sumFrom n s.gamma_t_bar (i+1))
      ((1 + sumFrom n s.gamma_t_bar (i+1))^2 - (kr i - kr (i+1)) * (1 + ap i))
      ((kr (i+1) / 2)^2 * (1 / (lR i)^2 - 1 / (lR (i+1))^2)) (by rw [if_neg hl])
    cases sw
    · obtain ⟨Ctrot2, Cti2, st2⟩ := passThrust_refines m n false _ i _ _ _ _ _ _ _ _ _ _ _ _ st1 (kr i - 0) (by simp)
      have st3 := passGamma_refines m false hi _ i _ _ _ _ _ _ _ _ _ _ _ _ st2
      simp only [upd_self] at st3
      simp only [discrStep, if_neg hl]
      exact ⟨_, _, _, _, st3⟩
    · obtain ⟨Ctrot2, Cti2, st2⟩ := passThrust_refines m n true _ i _ _ _ _ _ _ _ _ _ _ _ _ st1
        (kr i * (1 + kr i / (4 * (lR i)^2)) - sumFrom n (upd s.Ctrot_loc i ((kr (i+1) / 2)^2 * (1 / (lR i)^2 - 1 / (lR (i+1))^2))) (i+1)) (by simp)
      have st3 := passGamma_refines m true hi _ i _ _ _ _ _ _ _ _ _ _ _ _ st2
      simp only [upd_self] at st3
      simp only [discrStep, if_neg hl]
      exact ⟨_, _, _, _, st3⟩

theorem passes_refine (m n : ℕ) (sw hi : Bool) (kr ap C lR : ℕ → Num) (l : List ℕ) : ∀ (h : Heap) (s : DState) (S Sbis Ctrot Cti : ℕ → Num)
    (st : LoopState m h kr ap C lR s.b S Sbis Ctrot s.Ctrot_loc Cti s.Cteff s.gamma_t_bar),
    ∃ S' Sbis' Ctrot' Cti', LoopState m (l.foldl (discrPassHeap n (m+1) (m+2) (m+3) (m+4) (loopRefs (m+5)) sw hi) h) kr ap C lR
      (l.foldl (discrStep n kr ap C lR sw hi) s).b S' Sbis' Ctrot' (l.foldl (discrStep n kr ap C lR sw hi) s).Ctrot_loc Cti'
      (l.foldl (discrStep n kr ap C lR sw hi) s).Cteff (l.foldl (discrStep n kr ap C lR sw hi) s).gamma_t_bar := by
  induction l with
  | nil => intro h s S Sbis Ctrot Cti st; exact ⟨S, Sbis, Ctrot, Cti, st⟩
  | cons a l ih =>
    intro h s S Sbis Ctrot Cti st
    obtain ⟨S1, Sbis1, Ctrot1, Cti1, st1⟩ := pass_refines m n sw hi h a s kr ap C lR S Sbis Ctrot Cti st
    exact ih _ _ _ _ _ _ st1

theorem read_congr (h h' : Heap) (r : ℕ) (n : ℕ) (f : ℕ → Num) (h1 : h.len r = n) (h2 : ∀ i < n, h.cells r i = f i) : h.read r = arr n f := by
  unfold Heap.read arr
  rw [h1]
  apply List.map_congr_left
  intro i hi
  exact h2 i (List.mem_range.mp hi)

theorem idx_read (h : Heap) (r i : ℕ) (hi : i < h.len r) : idx (h.read r) i = h.cells r i := by
  simp [idx, Heap.read, arr, List.getD_eq_getElem?_getD, hi]

theorem length_read (h : Heap) (r : ℕ) : (h.read r).length = h.len r := by simp [Heap.read, arr]

theorem inputs_cells (n : ℕ) (h : Heap) (gcp rcyl : ℕ) (U0 Ω nB : Num) (bt : Bool) (hg : gcp < h.next) (hc : rcyl < h.next) :
    (allocInputs n h gcp rcyl U0 Ω nB bt).next = h.next + 5 ∧
    (allocInputs n h gcp rcyl U0 Ω nB bt).cells h.next = (fun i => h.cells gcp i * nB) ∧
    (allocInputs n h gcp rcyl U0 Ω nB bt).len h.next = n ∧
    (allocInputs n h gcp rcyl U0 Ω nB bt).cells (h.next+1) = (fun i => h.cells gcp i * nB * Ω / (.fin Real.pi * U0^2)) ∧
    (allocInputs n h gcp rcyl U0 Ω nB bt).cells (h.next+2) =
      (fun i => if bt then apCylConv n (fun i => h.cells gcp i * nB) (h.cells rcyl) Ω i else 0 * (h.cells gcp i * nB)) ∧
    (allocInputs n h gcp rcyl U0 Ω nB bt).cells (h.next+3) = (fun i => h.cells gcp i * nB * Ω / (.fin Real.pi * U0^2) *
      (1 + if bt then apCylConv n (fun i => h.cells gcp i * nB) (h.cells rcyl) Ω i else 0 * (h.cells gcp i * nB))) ∧
    (allocInputs n h gcp rcyl U0 Ω nB bt).cells (h.next+4) = (fun i => Ω * h.cells rcyl i / U0) := by
  have e1 : rcyl ≠ h.next := by omega
  have e2 : rcyl ≠ h.next + 1 := by omega
  have e3 : rcyl ≠ h.next + 1 + 1 := by omega
  have e4 : rcyl ≠ h.next + 1 + 1 + 1 := by omega
  unfold allocInputs
  simp [Heap.alloc, e1, e2, e3, e4, Nat.add_assoc]

theorem loop_cells (n : ℕ) (h : Heap) : (allocLoop n h).next = h.next + 8 ∧ (∀ r < h.next, (allocLoop n h).cells r = h.cells r ∧ (allocLoop n h).len r = h.len r) ∧
    ∀ j < 8, (allocLoop n h).cells (h.next + j) = fun _ => 0 := by
  refine ⟨by simp [allocLoop, Heap.alloc], fun r hr => ?_, fun j hj => ?_⟩
  · have e : ∀ j, r ≠ h.next + j := fun j => by omega
    have e0 : r ≠ h.next := by omega
    simp [allocLoop, Heap.alloc, e, e0, Nat.add_assoc]
  · unfold allocLoop
    interval_cases j <;> simp [Heap.alloc, Nat.add_assoc]

theorem passes_next (n k_r ap C lR : ℕ) (L : LoopRefs) (sw hi : Bool) (l : List ℕ) (h : Heap) :
    (l.foldl (discrPassHeap n k_r ap C lR L sw hi) h).next = h.next ∧ (l.foldl (discrPassHeap n k_r ap C lR L sw hi) h).len = h.len := by
  have w : ∀ (h : Heap) r i v, (h.write r i v).next = h.next ∧ (h.write r i v).len = h.len := fun _ _ _ _ => ⟨rfl, rfl⟩
  have e1 : ∀ (h : Heap) a, (passFirst n k_r ap C lR L a h).next = h.next ∧ (passFirst n k_r ap C lR L a h).len = h.len := by
    intro h a
    unfold passFirst
    split <;> simp only [w, and_self]
  have e2 : ∀ (h : Heap) a, (passThrust n k_r lR L sw a h).next = h.next ∧ (passThrust n k_r lR L sw a h).len = h.len := by
    intro h a
    unfold passThrust
    cases sw <;> simp only [w, and_self, Bool.false_eq_true, not_false_eq_true, not_true, if_true, if_false]
  have e3 : ∀ (h : Heap) a, (passGamma L sw hi a h).next = h.next ∧ (passGamma L sw hi a h).len = h.len := by
    intro h a
    unfold passGamma
    cases sw <;> cases hi <;> simp only [w, and_self, Bool.false_eq_true, if_true, if_false]
    all_goals (split <;> simp only [w, and_self])
  induction l generalizing h with
  | nil => exact ⟨rfl, rfl⟩
  | cons a l ih =>
    rw [List.foldl_cons, (ih _).1, (ih _).2]
    unfold discrPassHeap
    rw [(e3 _ _).1, (e3 _ _).2, (e2 _ _).1, (e2 _ _).2]
    exact e1 _ _

theorem outputs_cells (n : ℕ) (h : Heap) (m rcp : ℕ) (U0 Ω : Num) (sw : Bool) (hm : m + 13 ≤ h.next) (hr : rcp < h.next)  :
    (allocOutputs n h m rcp U0 Ω sw).len h.next = n ∧
    (allocOutputs n h m rcp U0 Ω sw).len (h.next+1) = n ∧
    (allocOutputs n h m rcp U0 Ω sw).len (h.next+2) = n ∧
    (allocOutputs n h m rcp U0 Ω sw).len (h.next+3) = n ∧
    (sw = true → (allocOutputs n h m rcp U0 Ω sw).len (h.next+4) = n) ∧
    (allocOutputs n h m rcp U0 Ω sw).cells h.next =
      (fun i => 2 * .fin Real.pi * (U0 * (h.cells (m+5) i + h.cells (m+12) i / 2)) / (Ω * (1 + h.cells (m+2) i))) ∧
    (allocOutputs n h m rcp U0 Ω sw).cells (h.next+1) =
      idx (((cumsum ((arr n fun i => h.cells (m+12) i / 2).reverse)).map fun x => -x).reverse) ∧
    (allocOutputs n h m rcp U0 Ω sw).cells (h.next+2) =
      (fun i => if sw then h.cells m i / (4 * .fin Real.pi * Ω * (h.cells rcp i)^2)
        else idx (((cumsum ((arr n fun i => h.cells (m+12) i / 2).reverse)).map fun x => -x).reverse) i * 0) ∧
    (allocOutputs n h m rcp U0 Ω sw).cells (h.next+3) = (fun i => h.cells (m+12) i * U0) ∧
    (sw = true → (allocOutputs n h m rcp U0 Ω sw).cells (h.next+4) =
      (fun i => (h.cells m i - (if i = n - 1 then 0 else h.cells m (i+1))) / (2 * .fin Real.pi * h.cells rcp i))) := by
  have e : ∀ j k, k ≤ 12 → m + k ≠ h.next + j := by omega
  have e' : ∀ k, k ≤ 12 → m + k ≠ h.next := by omega
  have e0 : ∀ j, m ≠ h.next + j := by omega
  have e0' : m ≠ h.next := by omega
  have f : ∀ j, rcp ≠ h.next + j := by omega
  have f' : rcp ≠ h.next := by omega
  have g2 := e 1 2 (by omega)
  have g12 := e 1 12 (by omega)
  have g12' := e 2 12 (by omega)
  have g12'' := e 3 12 (by omega)
  have k2 := e' 2 (by omega)
  have k12 := e' 12 (by omega)
  cases sw <;> simp [allocOutputs, Heap.alloc, loopRefs, Nat.add_assoc, e0, e0', f, f', g2, g12, g12', g12'', k2, k12]

end Wiz
