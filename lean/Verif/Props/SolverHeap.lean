import Verif.Model.SolverHeap
import Verif.Lemmas.SolverHeap
import Verif.Props.Solver

/-! # Which arrays the solvers write to (C32) -/
namespace Wiz
open Classical

/-- every array that existed in `h` below reference `m` has the same length and contents in `h'` -/
def Heap.Same (m : ℕ) (h h' : Heap) : Prop := h.next ≤ h'.next ∧ ∀ r < m, h'.cells r = h.cells r ∧ h'.len r = h.len r

theorem Heap.Same.refl (m : ℕ) (h : Heap) : Heap.Same m h h := ⟨le_rfl, fun _ _ => ⟨rfl, rfl⟩⟩
theorem Heap.Same.trans {m : ℕ} {h h' h'' : Heap} (a : Heap.Same m h h') (b : Heap.Same m h' h'') : Heap.Same m h h'' :=
  ⟨a.1.trans b.1, fun r hr => ⟨(b.2 r hr).1.trans (a.2 r hr).1, (b.2 r hr).2.trans (a.2 r hr).2⟩⟩
theorem Heap.Same.alloc {m : ℕ} {h0 h : Heap} (s : Heap.Same m h0 h) (hm : m ≤ h0.next) (n : ℕ) (f : ℕ → Num) :
    Heap.Same m h0 (h.alloc n f) := by
  refine s.trans ⟨Nat.le_succ _, fun r hr => ?_⟩
  have : r ≠ h.next := by have := s.1; omega
  simp [Heap.alloc, this]
theorem Heap.Same.write {m : ℕ} {h0 h : Heap} (s : Heap.Same m h0 h) (r i : ℕ) (v : Num) (hr : m ≤ r) :
    Heap.Same m h0 (h.write r i v) := by
  refine s.trans ⟨le_rfl, fun r' hr' => ?_⟩
  have : r' ≠ r := by omega
  simp [Heap.write, this]

theorem pass_same (m n k_r ap C lR : ℕ) (L : LoopRefs) (sw hi : Bool) (h0 h : Heap) (i : ℕ) (s : Heap.Same m h0 h)
    (h1 : m ≤ L.b) (h2 : m ≤ L.S) (h3 : m ≤ L.Sbis) (h4 : m ≤ L.Ctrot) (h5 : m ≤ L.Ctrot_loc) (h6 : m ≤ L.Cti)
    (h7 : m ≤ L.Cteff) (h8 : m ≤ L.gamma_t_bar) : Heap.Same m h0 (discrPassHeap n k_r ap C lR L sw hi h i) := by
  unfold discrPassHeap passFirst passThrust passGamma
  simp only
  split_ifs <;> (repeat' apply Heap.Same.write) <;> assumption

theorem passes_same (m n k_r ap C lR : ℕ) (L : LoopRefs) (sw hi : Bool) (h0 h : Heap) (l : List ℕ) (s : Heap.Same m h0 h)
    (h1 : m ≤ L.b) (h2 : m ≤ L.S) (h3 : m ≤ L.Sbis) (h4 : m ≤ L.Ctrot) (h5 : m ≤ L.Ctrot_loc) (h6 : m ≤ L.Cti)
    (h7 : m ≤ L.Cteff) (h8 : m ≤ L.gamma_t_bar) : Heap.Same m h0 (l.foldl (discrPassHeap n k_r ap C lR L sw hi) h) := by
  induction l generalizing h with
  | nil => exact s
  | cons a l ih =>
    rw [List.foldl_cons]
    exact ih _ (pass_same m n k_r ap C lR L sw hi h0 h a s h1 h2 h3 h4 h5 h6 h7 h8)

theorem inputs_same (m n : ℕ) (h0 h : Heap) (gcp rcyl : ℕ) (U0 Ω nB : Num) (bt : Bool) (hm : m ≤ h0.next) (s : Heap.Same m h0 h) :
    Heap.Same m h0 (allocInputs n h gcp rcyl U0 Ω nB bt) := by
  unfold allocInputs
  simp only
  repeat' apply Heap.Same.alloc
  all_goals first | exact hm | exact s

theorem loop_same (m n : ℕ) (h0 h : Heap) (hm : m ≤ h0.next) (s : Heap.Same m h0 h) : Heap.Same m h0 (allocLoop n h) := by
  unfold allocLoop
  simp only
  repeat' apply Heap.Same.alloc
  all_goals first | exact hm | exact s

theorem outputs_same (m n : ℕ) (h0 h : Heap) (q rcp : ℕ) (U0 Ω : Num) (sw : Bool) (hm : m ≤ h0.next) (s : Heap.Same m h0 h) :
    Heap.Same m h0 (allocOutputs n h q rcp U0 Ω sw) := by
  unfold allocOutputs
  simp only
  split
  all_goals
    repeat' apply Heap.Same.alloc
    all_goals first | exact hm | exact s

theorem discrCyl_same (m : ℕ) (h0 h : Heap) (rcp gcp rcyl : ℕ) (U0 Ω nB : Num) (sw bt hi : Bool) (hm : m ≤ h0.next) (s : Heap.Same m h0 h) :
    Heap.Same m h0 (discrHeapCyl h rcp gcp rcyl U0 Ω nB sw bt hi).2 := by
  have hle := s.1
  unfold discrHeapCyl
  simp only
  split
  · exact s
  split
  · exact s
  split
  · exact s
  apply outputs_same _ _ _ _ _ _ _ _ _ hm
  apply passes_same
  · exact loop_same _ _ _ _ hm (inputs_same _ _ _ _ _ _ _ _ _ _ hm s)
  all_goals (simp only [loopRefs]; omega)

/-- C32 (discrete solver): whatever the inputs, the options and whether or not an exception is
raised, every array that existed before the call is unchanged after it. -/
theorem C32_discrete (h : Heap) (rcp gcp : ℕ) (R U0 Ω nB : Num) (sw bt hi : Bool) (rcyl? : Option ℕ) :
    ∀ r < h.next, (discrHeap h rcp gcp R U0 Ω nB sw bt hi rcyl?).2.cells r = h.cells r ∧
      (discrHeap h rcp gcp R U0 Ω nB sw bt hi rcyl?).2.len r = h.len r := by
  unfold discrHeap
  cases rcyl? with
  | some rcyl => exact (discrCyl_same h.next h h rcp gcp rcyl U0 Ω nB sw bt hi le_rfl (.refl _ _)).2
  | none => exact (discrCyl_same h.next h _ rcp gcp h.next U0 Ω nB sw bt hi le_rfl ((Heap.Same.refl _ _).alloc le_rfl _ _)).2

/-- C32 (interfaces): `WakeVorticityFromCt` and `WakeVorticityFromGamma` leave every existing array
unchanged. -/
theorem C32_interfaces (minimize : (ℝ → Num) → ℝ) (h : Heap) (r x : ℕ) (R U0 Ω : Num) :
    (∀ q < h.next, (fromCtHeap minimize h r x R U0 Ω).2.cells q = h.cells q ∧ (fromCtHeap minimize h r x R U0 Ω).2.len q = h.len q) ∧
    (∀ q < h.next, (fromGammaHeap h r x R U0 Ω).2.cells q = h.cells q ∧ (fromGammaHeap h r x R U0 Ω).2.len q = h.len q) := by
  constructor
  · have s1 : Heap.Same h.next h (h.alloc (h.len r) (fun i => h.cells r i / R)) := (Heap.Same.refl _ _).alloc le_rfl _ _
    have s2 : ∀ b L, Heap.Same h.next h (circulationHeap minimize (h.alloc (h.len r) (fun i => h.cells r i / R)) h.next x L b).2 := by
      intro b L
      unfold circulationHeap
      split
      · exact s1.alloc le_rfl _ _
      · exact s1
    unfold fromCtHeap discrHeap
    refine (discrCyl_same h.next h _ _ _ _ _ _ _ _ _ _ le_rfl ?_).2
    apply Heap.Same.alloc _ le_rfl
    apply Heap.Same.alloc _ le_rfl
    exact s2 _ _
  · exact C32_discrete h r x R U0 _ 1 _ true true none

theorem inductions_same (m : ℕ) (h0 h : Heap) (vr lr k : ℕ) (sw hi : Bool) (hm : m ≤ h0.next) (s : Heap.Same m h0 h)
    (hl : m ≤ lr ∨ ¬ Num.Eqv (h.cells lr 0) 0) : Heap.Same m h0 (inductionsHeap h vr lr k sw hi).2 := by
  unfold inductionsHeap
  simp only
  split
  · exact s
  · split
    · exact s
    · by_cases h0 : Num.Eqv (h.cells lr 0) 0
      · rw [if_pos h0]
        repeat' apply Heap.Same.alloc
        all_goals first | exact hm | skip
        exact s.write _ _ _ (hl.resolve_right (fun h' => h' h0))
      · rw [if_neg h0]
        repeat' apply Heap.Same.alloc
        all_goals first | exact hm | exact s

theorem contInputs_same (m n : ℕ) (h0 h : Heap) (rcp gcp : ℕ) (R U0 Ω : Num) (hm : m ≤ h0.next) (s : Heap.Same m h0 h) :
    Heap.Same m h0 (allocContInputs n h rcp gcp R U0 Ω) := by
  unfold allocContInputs
  repeat' apply Heap.Same.alloc
  all_goals first | exact hm | exact s

theorem contOutputs_same (m n : ℕ) (h0 h : Heap) (rcp gcp : ℕ) (ind : IndRefs) (U0 Ω : Num) (hm : m ≤ h0.next) (s : Heap.Same m h0 h) :
    Heap.Same m h0 (allocContOutputs n h rcp gcp ind U0 Ω) := by
  unfold allocContOutputs
  simp only
  repeat' apply Heap.Same.alloc
  all_goals first | exact hm | exact s

/-- what happens after the safety assignment on `r_cp[0]` -/
theorem contTail_same (m : ℕ) (h0 h : Heap) (rcp gcp : ℕ) (R U0 Ω : Num) (sw hi : Bool) (hm : m ≤ h0.next)
    (s : Heap.Same m h0 h) (s' : Heap.Same m h0 (if Num.Eqv (h.cells rcp 0) 0 then h.write rcp 0 (h.cells rcp 1 * .fin 0.5) else h))
    (e1 : h.len rcp ≠ 0) (e2 : ¬ (Num.Eqv (h.cells rcp 0) 0 ∧ h.len rcp < 2)) :
    Heap.Same m h0 (contHeap h rcp gcp R U0 Ω sw hi).2 := by
  unfold contHeap
  simp only
  rw [if_neg e1, if_neg e2]
  generalize (if Num.Eqv (h.cells rcp 0) 0 then h.write rcp 0 (h.cells rcp 1 * .fin 0.5) else h) = g at *
  have sx : Heap.Same m h0 (inductionsHeap (allocContInputs (g.len rcp) g rcp gcp R U0 Ω) (g.next+1) (g.next+2) g.next sw hi).2 := by
    apply inductions_same m h0 _ _ _ _ _ _ hm (contInputs_same _ _ _ _ _ _ _ _ _ hm s')
    left
    have := s'.1
    omega
  split
  · exact sx
  · exact contOutputs_same _ _ _ _ _ _ _ _ _ hm sx

/-- C32 (continuous solver), the part that holds: if the first radius (tip-speed ratio) is nonzero
no existing array is changed.  Missing: first entry equal to zero, see `C32_refuted`. -/
theorem C32_continuous_partial (h : Heap) (sw hi : Bool) :
    (∀ (rcp gcp : ℕ) (R U0 Ω : Num), rcp < h.next → ¬ Num.Eqv (h.cells rcp 0) 0 →
      ∀ r < h.next, (contHeap h rcp gcp R U0 Ω sw hi).2.cells r = h.cells r ∧ (contHeap h rcp gcp R U0 Ω sw hi).2.len r = h.len r) ∧
    (∀ vr lr k : ℕ, ¬ Num.Eqv (h.cells lr 0) 0 →
      ∀ r < h.next, (inductionsHeap h vr lr k sw hi).2.cells r = h.cells r ∧ (inductionsHeap h vr lr k sw hi).2.len r = h.len r) :=
  ⟨fun rcp gcp R U0 Ω hr hz => by
      by_cases e1 : h.len rcp = 0
      · intro r _
        unfold contHeap; rw [if_pos e1]; exact ⟨rfl, rfl⟩
      · exact (contTail_same h.next h h rcp gcp R U0 Ω sw hi le_rfl (.refl _ _) (by rw [if_neg hz]; exact .refl _ _) e1 (fun h' => hz h'.1)).2,
   fun vr lr k hz => (inductions_same h.next h h vr lr k sw hi le_rfl (.refl _ _) (Or.inr hz)).2⟩

/-- C32 refuted, exactly: when the first radius is zero (and there are at least two), the caller's
array `r_cp` is changed in its first entry, to half of the second; every other existing array is
left alone. Likewise `lambda_r[0]` becomes a hundredth of `lambda_r[1]`. -/
theorem C32_refuted (h : Heap) (sw hi : Bool) :
    (∀ (rcp gcp : ℕ) (R U0 Ω : Num), rcp < h.next → Num.Eqv (h.cells rcp 0) 0 → 2 ≤ h.len rcp →
      (contHeap h rcp gcp R U0 Ω sw hi).2.cells rcp = (fun i => if i = 0 then h.cells rcp 1 * .fin 0.5 else h.cells rcp i) ∧
      ∀ r < h.next, r ≠ rcp → (contHeap h rcp gcp R U0 Ω sw hi).2.cells r = h.cells r) ∧
    (∀ vr lr k : ℕ, lr < h.next → Num.Eqv (h.cells lr 0) 0 → 2 ≤ h.len lr →
      (inductionsHeap h vr lr k sw hi).2.cells lr = (fun i => if i = 0 then h.cells lr 1 * .fin 0.01 else h.cells lr i) ∧
      ∀ r < h.next, r ≠ lr → (inductionsHeap h vr lr k sw hi).2.cells r = h.cells r) := by
  have frame : ∀ (g : Heap) (r0 : ℕ) (v : Num), g.next = h.next → (g = h.write r0 0 v) →
      ∀ g' : Heap, Heap.Same h.next g g' →
      g'.cells r0 = (if r0 < h.next then (fun i => if i = 0 then v else h.cells r0 i) else g'.cells r0) ∧
      ∀ r < h.next, r ≠ r0 → g'.cells r = h.cells r := by
    intro g r0 v hn hg g' hs
    constructor
    · by_cases hr : r0 < h.next
      · rw [if_pos hr, (hs.2 r0 hr).1, hg]
        funext i
        simp [Heap.write, upd]
      · rw [if_neg hr]
    · intro r hr hne
      rw [(hs.2 r hr).1, hg]
      simp [Heap.write, hne]
  constructor
  · intro rcp gcp R U0 Ω hr hz hlen
    have key : Heap.Same h.next (h.write rcp 0 (h.cells rcp 1 * .fin 0.5)) (contHeap h rcp gcp R U0 Ω sw hi).2 := by
      unfold contHeap
      simp only
      rw [if_neg (by omega), if_neg (by rintro ⟨-, h2⟩; omega), if_pos hz]
      generalize hg : h.write rcp 0 (h.cells rcp 1 * .fin 0.5) = g
      have hgn : g.next = h.next := by rw [← hg]; rfl
      have sx : Heap.Same h.next g (inductionsHeap (allocContInputs (g.len rcp) g rcp gcp R U0 Ω) (g.next+1) (g.next+2) g.next sw hi).2 := by
        apply inductions_same h.next g _ _ _ _ _ _ hgn.ge (contInputs_same _ _ _ _ _ _ _ _ _ hgn.ge (.refl _ _))
        left; omega
      split
      · exact sx
      · exact contOutputs_same _ _ _ _ _ _ _ _ _ hgn.ge sx
    have := frame (h.write rcp 0 (h.cells rcp 1 * .fin 0.5)) rcp _ rfl rfl _ key
    rw [if_pos hr] at this
    exact this
  · intro vr lr k hr hz hlen
    have key : Heap.Same h.next (h.write lr 0 (h.cells lr 1 * .fin 0.01)) (inductionsHeap h vr lr k sw hi).2 := by
      unfold inductionsHeap
      simp only
      rw [if_neg (by omega), if_neg (by rintro ⟨-, h2⟩; omega), if_pos hz]
      repeat' apply Heap.Same.alloc
      all_goals first | exact le_rfl | exact Heap.Same.refl _ _
    have := frame (h.write lr 0 (h.cells lr 1 * .fin 0.01)) lr _ rfl rfl _ key
    rw [if_pos hr] at this
    exact this

/-- a caller's array `[0,1,2]` is really modified (its first entry becomes 1/2) -/
example : ∃ (h : Heap) (rcp gcp : ℕ), rcp < h.next ∧ gcp < h.next ∧
    (contHeap h rcp gcp 1 1 1 true true).2.cells rcp 0 = .fin (1/2) ∧ h.cells rcp 0 = .fin 0 := by
  let h : Heap := ⟨fun _ => 3, fun _ i => .fin i, 2⟩
  refine ⟨h, 0, 1, by norm_num [h], by norm_num [h], ?_, by simp [h]⟩
  have := ((C32_refuted h true true).1 0 1 1 1 1 (by norm_num [h]) (by simp [h]) (by norm_num [h])).1
  rw [this]
  simp [h]
  norm_num

/-! ### The heap version computes what the value-level model computes -/

theorem cumsumAux_length (l : List Num) : ∀ s, (cumsumAux s l).length = l.length := by
  induction l with
  | nil => intro s; rfl
  | cons a l ih => intro s; simp [cumsumAux, ih]

theorem discrCyl_contents (h : Heap) (rcp gcp rcyl : ℕ) (R U0 Ω nB : Num) (sw bt hi : Bool)
    (h1 : rcp < h.next) (h2 : gcp < h.next) (h3 : rcyl < h.next) :
    match (discrHeapCyl h rcp gcp rcyl U0 Ω nB sw bt hi).1,
      wakeVorticityDiscr (h.read rcp) (h.read gcp) R U0 Ω nB sw bt hi (some (h.read rcyl)) with
    | .ok p, .ok w => (discrHeapCyl h rcp gcp rcyl U0 Ω nB sw bt hi).2.read p.gamma_t = w.gamma_t ∧
        p.gamma_l.map (discrHeapCyl h rcp gcp rcyl U0 Ω nB sw bt hi).2.read = w.gamma_l ∧ p.Gamma_r = w.Gamma_r ∧
        (discrHeapCyl h rcp gcp rcyl U0 Ω nB sw bt hi).2.read p.a = w.misc.a ∧
        (discrHeapCyl h rcp gcp rcyl U0 Ω nB sw bt hi).2.read p.a_prime = w.misc.a_prime ∧
        (discrHeapCyl h rcp gcp rcyl U0 Ω nB sw bt hi).2.read p.Gamma_cp = w.misc.Gamma_cp ∧
        (discrHeapCyl h rcp gcp rcyl U0 Ω nB sw bt hi).2.read p.r_cp = w.misc.r_cp ∧
        (discrHeapCyl h rcp gcp rcyl U0 Ω nB sw bt hi).2.read p.h = w.misc.h
    | .error e, .error e' => e = e'
    | _, _ => False := by
  unfold discrHeapCyl wakeVorticityDiscr
  simp only [length_read]
  by_cases c1 : h.len rcp = 0 ∨ h.len gcp ≠ h.len rcp ∨ h.len rcyl ≠ h.len rcp
  · simp only [if_pos c1]
  simp only [if_neg c1]
  push Not at c1
  obtain ⟨n0, ng, nc⟩ := c1
  rw [idx_read h rcyl 0 (by omega), idx_read h rcp 0 (by omega)]
  by_cases c2 : amax (h.cells rcyl 0) (h.read rcyl).tail < amax (h.cells rcp 0) (h.read rcp).tail
  · simp only [if_pos c2]
  simp only [if_neg c2]
  by_cases c3 : Num.Eqv (h.cells rcyl 0) 0
  · simp only [if_pos c3]
  simp only [if_neg c3]
  generalize en : h.len rcp = n at *
  generalize em : h.next = m at *
  -- the inputs
  have I := inputs_cells n h gcp rcyl U0 Ω nB bt (by omega) (by omega)
  have Is := (inputs_same m n h h gcp rcyl U0 Ω nB bt em.ge (.refl _ _)).2 rcp h1
  rw [em] at I
  generalize allocInputs n h gcp rcyl U0 Ω nB bt = hI at *
  obtain ⟨i0, i1, i2, i3, i4, i5, i6⟩ := I
  obtain ⟨l0, l1, l2⟩ := loop_cells n hI
  rw [i0] at l0 l1 l2
  generalize allocLoop n hI = hL at *
  generalize eG : (fun i => h.cells gcp i * nB) = G at *
  generalize eA : (fun i => if bt then apCylConv n G (h.cells rcyl) Ω i else 0 * (h.cells gcp i * nB)) = A at *
  have i5' : hI.cells (m+3) = fun i => G i * Ω / (.fin Real.pi * U0^2) * (1 + A i) := by
    rw [i5]; subst eA; subst eG; rfl
  have i3' : hI.cells (m+1) = fun i => G i * Ω / (.fin Real.pi * U0^2) := by
    rw [i3]; subst eG; rfl
  have st : LoopState m hL (fun i => G i * Ω / (.fin Real.pi * U0^2)) A (fun i => G i * Ω / (.fin Real.pi * U0^2) * (1 + A i))
      (fun i => Ω * h.cells rcyl i / U0) dZeros.b (fun _ => 0) (fun _ => 0) (fun _ => 0) dZeros.Ctrot_loc (fun _ => 0) dZeros.Cteff dZeros.gamma_t_bar :=
    ⟨((l1 (m+1) (by omega)).1).trans i3', ((l1 (m+2) (by omega)).1).trans i4, ((l1 (m+3) (by omega)).1).trans i5',
     ((l1 (m+4) (by omega)).1).trans i6, l2 0 (by omega), l2 1 (by omega), l2 2 (by omega), l2 3 (by omega), l2 4 (by omega),
     l2 5 (by omega), l2 6 (by omega), l2 7 (by omega)⟩
  obtain ⟨S', Sb', Cr', Ci', st'⟩ := passes_refine m n sw hi _ _ _ _ (List.range n).reverse hL dZeros _ _ _ _ st
  have pn := passes_next n (m+1) (m+2) (m+3) (m+4) (loopRefs (m+5)) sw hi (List.range n).reverse hL
  have ps := (passes_same (m+5) n (m+1) (m+2) (m+3) (m+4) (loopRefs (m+5)) sw hi hL hL (List.range n).reverse (.refl _ _)
    (by simp [loopRefs]) (by simp [loopRefs]) (by simp [loopRefs]) (by simp [loopRefs]) (by simp [loopRefs])
    (by simp [loopRefs]) (by simp [loopRefs]) (by simp [loopRefs])).2
  generalize (List.range n).reverse.foldl (discrPassHeap n (m+1) (m+2) (m+3) (m+4) (loopRefs (m+5)) sw hi) hL = hP at *
  change LoopState m hP _ _ _ _ (discrLoop n _ _ _ _ sw hi).b _ _ _ (discrLoop n _ _ _ _ sw hi).Ctrot_loc _ (discrLoop n _ _ _ _ sw hi).Cteff (discrLoop n _ _ _ _ sw hi).gamma_t_bar at st'
  have hGi : ∀ i < n, idx (h.read gcp) i * nB = G i := by
    intro i hi'
    rw [idx_read h gcp i (by omega), ← eG]
  have hci : ∀ i < n, idx (h.read rcyl) i = h.cells rcyl i := fun i hi' => idx_read h rcyl i (by omega)
  have hri : ∀ i < n, idx (h.read rcp) i = h.cells rcp i := fun i hi' => idx_read h rcp i (by omega)
  have hAi : ∀ i < n, (if bt then apCylConv n (fun i => idx (h.read gcp) i * nB) (idx (h.read rcyl)) Ω i else 0 * (idx (h.read gcp) i * nB)) = A i := by
    intro i hi'
    rw [← eA]
    cases bt
    · simp only [Bool.false_eq_true, if_false, hGi i hi', ← eG]
    · simp only [if_true]
      unfold apCylConv
      by_cases hl : i = n - 1
      · simp only [if_pos hl, hGi i hi', hci i hi']
      · simp only [if_neg hl, hGi i hi', hci i hi', hGi (i+1) (by omega)]
  rw [discrLoop_congr n _ (fun i => G i * Ω / (.fin Real.pi * U0^2)) _ A _ (fun i => G i * Ω / (.fin Real.pi * U0^2) * (1 + A i)) _
    (fun i => Ω * h.cells rcyl i / U0) sw hi (fun i hi' => by rw [hGi i hi']) hAi (fun i hi' => by rw [hAi i hi', hGi i hi'])
    (fun i hi' => by rw [hci i hi'])]
  generalize discrLoop n (fun i => G i * Ω / (.fin Real.pi * U0^2)) A (fun i => G i * Ω / (.fin Real.pi * U0^2) * (1 + A i)) (fun i => Ω * h.cells rcyl i / U0) sw hi = s at *
  have hPm : hP.cells m = G := by rw [(ps m (by omega)).1, (l1 m (by omega)).1, i1]
  have hPr : hP.cells rcp = h.cells rcp := by rw [(ps rcp (by omega)).1, (l1 rcp (by omega)).1, Is.1]
  have hPlr : hP.len rcp = n := by rw [(ps rcp (by omega)).2, (l1 rcp (by omega)).2, Is.2, en]
  have hPlm : hP.len m = n := by rw [(ps m (by omega)).2, (l1 m (by omega)).2, i2]
  have hPn : hP.next = m + 13 := by rw [pn.1, l0]
  have os := (outputs_same (m+13) n hP hP m rcp U0 Ω sw hPn.ge (.refl _ _)).2
  have O := outputs_cells n hP m rcp U0 Ω sw hPn.ge (by omega)
  rw [hPn, hPm, hPr, st'.b, st'.g, st'.ap] at O
  generalize allocOutputs n hP m rcp U0 Ω sw = hO at *
  obtain ⟨o0, o1, o2, o3, o4, o5, o6, o7, o8, o9⟩ := O
  have hOm : hO.cells m = G := by rw [(os m (by omega)).1, hPm]
  have hOr : hO.read rcp = h.read rcp := by
    unfold Heap.read
    rw [(os rcp (by omega)).1, (os rcp (by omega)).2, hPr, hPlr, en]
  have hal : (((cumsum ((arr n fun i => s.gamma_t_bar i / 2).reverse)).map fun x => -x).reverse).length = n := by
    simp [arr, cumsum, cumsumAux_length]
  have r1 : hO.read (m+16) = arr n fun i => s.gamma_t_bar i * U0 := read_congr hO hO _ n _ o3 (fun i _ => by rw [o8])
  have r2 : hO.read (m+14) = (((cumsum ((arr n fun i => s.gamma_t_bar i / 2).reverse)).map fun x => -x).reverse) := by
    rw [read_congr hO hO (m+14) n _ o1 (fun i _ => by rw [o6])]
    generalize ((cumsum ((arr n fun i => s.gamma_t_bar i / 2).reverse)).map fun x => -x).reverse = l at *
    apply List.ext_getElem
    · simp [arr, hal]
    · intro i p q
      simp [arr, idx, List.getD_eq_getElem?_getD, q]
  have r3 : hO.read (m+13) = arr n fun i => 2 * .fin Real.pi * (U0 * (s.b i + s.gamma_t_bar i / 2)) / (Ω * (1 + A i)) :=
    read_congr hO hO _ n _ o0 (fun i _ => by rw [o5])
  have r4 : hO.read m = arr n fun i => idx (h.read gcp) i * nB :=
    read_congr hO hO _ n _ (by rw [(os m (by omega)).2, hPlm]) (fun i hi' => by rw [hOm, hGi i hi'])
  have r3' : (arr n fun i => 2 * .fin Real.pi * (U0 * (s.b i + s.gamma_t_bar i / 2)) / (Ω * (1 + A i))) =
    (arr n fun i => 2 * .fin Real.pi * (U0 * (s.b i + s.gamma_t_bar i / 2)) / (Ω * (1 + if bt then apCylConv n (fun i => idx (h.read gcp) i * nB) (idx (h.read rcyl)) Ω i else 0 * (idx (h.read gcp) i * nB)))) := by
    unfold arr
    exact List.map_congr_left fun i hi' => by rw [hAi i (List.mem_range.mp hi')]
  cases sw
  · simp only [Bool.false_eq_true, if_false] at o7 ⊢
    refine ⟨r1, rfl, trivial, r2, ?_, r4, hOr, r3.trans r3'⟩
    rw [read_congr hO hO (m+15) n _ o2 (fun i _ => by rw [o7])]
    generalize ((cumsum ((arr n fun i => s.gamma_t_bar i / 2).reverse)).map fun x => -x).reverse = l at *
    apply List.ext_getElem
    · simp [arr, hal]
    · intro i p q
      simp [arr, idx, List.getD_eq_getElem?_getD, List.length_map] at q ⊢
      simp [q]
  · simp only [if_true] at o7 ⊢
    refine ⟨r1, ?_, ?_, r2, ?_, r4, hOr, r3.trans r3'⟩
    · rw [Option.map_some, read_congr hO hO (m+17) n _ (o4 rfl) (fun i _ => by rw [o9 rfl])]
      congr 1
      unfold arr
      refine List.map_congr_left fun i hi' => ?_
      have hi' := List.mem_range.mp hi'
      rw [hri i hi', hGi i hi']
      by_cases hl : i = n - 1
      · rw [if_pos hl, if_pos hl]
      · rw [if_neg hl, if_neg hl, hGi (i+1) (by omega)]
    · rw [hOm, hGi 0 (by omega)]
    · rw [read_congr hO hO (m+15) n _ o2 (fun i _ => by rw [o7])]
      unfold arr
      refine List.map_congr_left fun i hi' => ?_
      have hi' := List.mem_range.mp hi'
      rw [hri i hi', hGi i hi']

/-- **C32** (link of the two models): the discrete solver run on the heap raises exactly the exception
of the value-level model of `Model/Solver.lean` run on the contents of the caller's arrays, and
otherwise leaves in the returned arrays exactly the lists it computes. -/
theorem C32_contents (h : Heap) (rcp gcp : ℕ) (R U0 Ω nB : Num) (sw bt hi : Bool) (rcyl? : Option ℕ)
    (h1 : rcp < h.next) (h2 : gcp < h.next) (h3 : ∀ c, rcyl? = some c → c < h.next) :
    match (discrHeap h rcp gcp R U0 Ω nB sw bt hi rcyl?).1,
      wakeVorticityDiscr (h.read rcp) (h.read gcp) R U0 Ω nB sw bt hi (rcyl?.map h.read) with
    | .ok p, .ok w => (discrHeap h rcp gcp R U0 Ω nB sw bt hi rcyl?).2.read p.gamma_t = w.gamma_t ∧
        p.gamma_l.map (discrHeap h rcp gcp R U0 Ω nB sw bt hi rcyl?).2.read = w.gamma_l ∧ p.Gamma_r = w.Gamma_r ∧
        (discrHeap h rcp gcp R U0 Ω nB sw bt hi rcyl?).2.read p.a = w.misc.a ∧
        (discrHeap h rcp gcp R U0 Ω nB sw bt hi rcyl?).2.read p.a_prime = w.misc.a_prime ∧
        (discrHeap h rcp gcp R U0 Ω nB sw bt hi rcyl?).2.read p.Gamma_cp = w.misc.Gamma_cp ∧
        (discrHeap h rcp gcp R U0 Ω nB sw bt hi rcyl?).2.read p.r_cp = w.misc.r_cp ∧
        (discrHeap h rcp gcp R U0 Ω nB sw bt hi rcyl?).2.read p.h = w.misc.h
    | .error e, .error e' => e = e'
    | _, _ => False := by
  cases rcyl? with
  | some rcyl => exact discrCyl_contents h rcp gcp rcyl R U0 Ω nB sw bt hi h1 h2 (h3 _ rfl)
  | none =>
    have k := discrCyl_contents (h.alloc (h.len rcp) (idx (defaultRcyl (h.read rcp) R))) rcp gcp h.next R U0 Ω nB sw bt hi
      (by simp [Heap.alloc]; omega) (by simp [Heap.alloc]; omega) (by simp [Heap.alloc])
    have a1 : rcp ≠ h.next := by omega
    have a2 : gcp ≠ h.next := by omega
    have e1 : (h.alloc (h.len rcp) (idx (defaultRcyl (h.read rcp) R))).read rcp = h.read rcp := by simp [Heap.read, Heap.alloc, a1]
    have e2 : (h.alloc (h.len rcp) (idx (defaultRcyl (h.read rcp) R))).read gcp = h.read gcp := by simp [Heap.read, Heap.alloc, a2]
    rw [e1, e2] at k
    by_cases hz : h.len rcp = 0
    · have c1 : (discrHeap h rcp gcp R U0 Ω nB sw bt hi none).1 = .error "ValueError" := by
        simp [discrHeap, discrHeapCyl, Heap.alloc, a1, hz]
      have c2 : wakeVorticityDiscr (h.read rcp) (h.read gcp) R U0 Ω nB sw bt hi (Option.map h.read none) = .error "ValueError" := by
        unfold wakeVorticityDiscr
        rw [if_pos]
        left; rw [length_read, hz]
      rw [c1, c2]
    have hd : (defaultRcyl (h.read rcp) R).length = h.len rcp := by
      unfold defaultRcyl
      simp only [length_read]
      split <;> simp [arr, *]
    have e3 : (h.alloc (h.len rcp) (idx (defaultRcyl (h.read rcp) R))).read h.next = defaultRcyl (h.read rcp) R := by
      rw [read_congr _ h h.next (h.len rcp) (idx (defaultRcyl (h.read rcp) R)) (by simp [Heap.alloc]) (by simp [Heap.alloc])]
      generalize defaultRcyl (h.read rcp) R = l at *
      apply List.ext_getElem
      · simp [arr, hd]
      · intro i p q
        simp [arr, idx, List.getD_eq_getElem?_getD, q]
    rw [e3] at k
    exact k

end Wiz
