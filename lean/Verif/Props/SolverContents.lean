import Verif.Props.SolverHeap

/-! # C32: the interfaces and the continuous solver on the heap compute what the value-level model computes -/
namespace Wiz
open Classical

theorem alloc_read_old (h : Heap) (n : ℕ) (f : ℕ → Num) (r : ℕ) (hr : r ≠ h.next) : (h.alloc n f).read r = h.read r := by
  simp [Heap.read, Heap.alloc, hr]

theorem alloc_read_new (h : Heap) (n : ℕ) (f : ℕ → Num) : (h.alloc n f).read h.next = arr n f := by
  simp [Heap.read, Heap.alloc]

theorem arr_idx (l : List Num) : arr l.length (idx l) = l := by
  apply List.ext_getElem
  · simp [arr]
  · intro i p q
    simp [arr, idx, List.getD_eq_getElem?_getD, q]

theorem arr_cells_map (h : Heap) (r : ℕ) (f : Num → Num) : arr (h.len r) (fun i => f (h.cells r i)) = (h.read r).map f := by
  simp [Heap.read, arr]

/-- C32 (interfaces): the arrays `WakeVorticityFromCt` and `WakeVorticityFromGamma` return have, in the final memory, the
contents the value-level solver gives for the contents of the arguments; they fail together, with the same exception. -/
theorem C32_contents_interfaces (mini : (ℝ → Num) → ℝ) (h : Heap) (r x : ℕ) (R U0 Ω : Num) (h1 : r < h.next) (h2 : x < h.next) :
    (match (fromCtHeap mini h r x R U0 Ω).1, wakeVorticityFromCt mini (h.read r) (h.read x) R U0 Ω with
    | .ok p, .ok w => (fromCtHeap mini h r x R U0 Ω).2.read p.gamma_t = w.gamma_t ∧
        p.gamma_l.map (fromCtHeap mini h r x R U0 Ω).2.read = w.gamma_l ∧ p.Gamma_r = w.Gamma_r ∧
        (fromCtHeap mini h r x R U0 Ω).2.read p.a = w.misc.a ∧
        (fromCtHeap mini h r x R U0 Ω).2.read p.a_prime = w.misc.a_prime ∧
        (fromCtHeap mini h r x R U0 Ω).2.read p.Gamma_cp = w.misc.Gamma_cp ∧
        (fromCtHeap mini h r x R U0 Ω).2.read p.r_cp = w.misc.r_cp ∧
        (fromCtHeap mini h r x R U0 Ω).2.read p.h = w.misc.h
    | .error e, .error e' => e = e'
    | _, _ => False) ∧
    (match (fromGammaHeap h r x R U0 Ω).1, wakeVorticityFromGamma (h.read r) (h.read x) R U0 Ω with
    | .ok p, .ok w => (fromGammaHeap h r x R U0 Ω).2.read p.gamma_t = w.gamma_t ∧
        p.gamma_l.map (fromGammaHeap h r x R U0 Ω).2.read = w.gamma_l ∧ p.Gamma_r = w.Gamma_r ∧
        (fromGammaHeap h r x R U0 Ω).2.read p.a = w.misc.a ∧
        (fromGammaHeap h r x R U0 Ω).2.read p.a_prime = w.misc.a_prime ∧
        (fromGammaHeap h r x R U0 Ω).2.read p.Gamma_cp = w.misc.Gamma_cp ∧
        (fromGammaHeap h r x R U0 Ω).2.read p.r_cp = w.misc.r_cp ∧
        (fromGammaHeap h r x R U0 Ω).2.read p.h = w.misc.h
    | .error e, .error e' => e = e'
    | _, _ => False) := by
  constructor
  · unfold fromCtHeap wakeVorticityFromCt
    simp only
    generalize capOmega Ω = Ω'
    generalize hL : Ω' * R / U0 = Λ
    generalize hsw : decide (Λ < 20) = sw
    generalize hh1 : h.alloc (h.len r) (fun i => h.cells r i / R) = g
    have gn : g.next = h.next + 1 := by rw [← hh1]; rfl
    have gr : g.read r = h.read r := by rw [← hh1]; exact alloc_read_old _ _ _ _ (by omega)
    have gx : g.read x = h.read x := by rw [← hh1]; exact alloc_read_old _ _ _ _ (by omega)
    have gb : g.read h.next = (h.read r).map fun y => y / R := by
      rw [← hh1, alloc_read_new]; exact arr_cells_map h r (fun y => y / R)
    -- the circulation
    obtain ⟨c, g2, hc, hcn, g2r, hcr, hle⟩ : ∃ c g2, circulationHeap mini g h.next x Λ sw = (c, g2) ∧ c < g2.next ∧ g2.read r = h.read r ∧
        g2.read c = circulationFromPrescribedCt mini ((h.read r).map fun y => y / R) (h.read x) Λ sw ∧ g.next ≤ g2.next := by
      unfold circulationHeap
      cases sw with
      | false =>
        refine ⟨x, g, rfl, by omega, gr, ?_, le_rfl⟩
        rw [gx]; simp [circulationFromPrescribedCt]
      | true =>
        refine ⟨g.next, _, rfl, Nat.lt_succ_self _, ?_, ?_, Nat.le_succ _⟩
        · rw [alloc_read_old _ _ _ _ (by omega), gr]
        · rw [alloc_read_new, gb, gx]
          have hl : (circulationFromPrescribedCt mini ((h.read r).map fun y => y / R) (h.read x) Λ true).length = g.len h.next := by
            have : g.len h.next = h.len r := by rw [← hh1]; simp [Heap.alloc]
            rw [this]
            simp [circulationFromPrescribedCt, length_read]
            omega
          rw [← hl]
          exact arr_idx _
    rw [hc]
    simp only
    generalize hg3 : g2.alloc (g2.len c) (fun i => g2.cells c i * .fin Real.pi * U0^2 / Ω') = g3
    have e1 : g3.read r = h.read r := by rw [← hg3, alloc_read_old _ _ _ _ (by omega), g2r]
    have e2 : g3.read g2.next = (circulationFromPrescribedCt mini ((h.read r).map fun y => y / R) (h.read x) Λ sw).map fun k => k * .fin Real.pi * U0^2 / Ω' := by
      rw [← hg3, alloc_read_new, ← hcr]
      exact arr_cells_map g2 c (fun k => k * .fin Real.pi * U0^2 / Ω')
    have hn : g3.next = g2.next + 1 := by rw [← hg3]; rfl
    have := C32_contents g3 r g2.next R U0 Ω' 1 sw true true none (by omega) (by omega) (fun _ h => by cases h)
    rw [e1, e2] at this
    exact this
  · unfold fromGammaHeap wakeVorticityFromGamma
    exact C32_contents h r x R U0 (capOmega Ω) 1 _ true true none h1 h2 (fun _ h => by cases h)

theorem five_alloc (g : Heap) (n : ℕ) (f1 f2 f3 f4 f5 : ℕ → Num) :
    let h := ((((g.alloc n f1).alloc n f2).alloc n f3).alloc n f4).alloc n f5
    h.read g.next = arr n f1 ∧ h.read (g.next+1) = arr n f2 ∧ h.read (g.next+2) = arr n f3 ∧ h.read (g.next+3) = arr n f4 ∧ h.read (g.next+4) = arr n f5 := by
  simp [Heap.read, Heap.alloc, Nat.add_assoc]

theorem contSafety_read (h : Heap) (r : ℕ) (f : Num) (hn : ¬ (Num.Eqv (h.cells r 0) 0 ∧ h.len r < 2)) :
    (if Num.Eqv (h.cells r 0) 0 then h.write r 0 (h.cells r 1 * f) else h).read r = contSafety f (h.read r) := by
  by_cases hz : Num.Eqv (h.cells r 0) 0
  · rw [if_pos hz]
    have hl : 2 ≤ h.len r := by by_contra hc; exact hn ⟨hz, by omega⟩
    obtain ⟨k, hk⟩ : ∃ k, h.len r = k + 2 := ⟨h.len r - 2, by omega⟩
    have e : h.read r = h.cells r 0 :: h.cells r 1 :: (List.range k).map fun i => h.cells r (i + 2) := by
      unfold Heap.read arr
      rw [hk, List.range_succ_eq_map, List.range_succ_eq_map]
      simp [Function.comp_def]
    rw [e]
    simp only [contSafety, if_pos hz]
    unfold Heap.read arr
    have : (h.write r 0 (h.cells r 1 * f)).len r = k + 2 := hk
    rw [this, List.range_succ_eq_map, List.range_succ_eq_map]
    simp [Heap.write, upd, Function.comp_def]
  · rw [if_neg hz]
    unfold contSafety
    cases hl : h.read r with
    | nil => rfl
    | cons x t =>
      cases t with
      | nil => rfl
      | cons y t =>
        have : x = h.cells r 0 := by
          have h0 : 0 < h.len r := by rw [← length_read, hl]; simp
          have := idx_read h r 0 h0
          rw [hl] at this
          exact this
        simp only [this, if_neg hz]

/-- C32 (inductions): on arrays of equal length `InductionsFromCirculation_VC_Cont` succeeds unless the first tip-speed
ratio is zero and there is no second; the arrays it returns hold the inductions and thrust coefficients of the value-level
model for the safe-guarded tip-speed ratios. -/
theorem C32_contents_inductions (h : Heap) (vr lr k : ℕ) (sw hi : Bool) (hne1 : vr ≠ lr) (hne2 : k ≠ lr) (l1 : h.len vr = h.len k) (l2 : h.len lr = h.len k) :
    ((∃ p, (inductionsHeap h vr lr k sw hi).1 = .ok p) ↔ 0 < h.len lr ∧ ¬ (Num.Eqv (h.cells lr 0) 0 ∧ h.len lr < 2)) ∧
    ∀ p, (inductionsHeap h vr lr k sw hi).1 = .ok p →
      let c := inductionsCont (h.read vr) (contSafety (.fin 0.01) (h.read lr)) (h.read k) sw hi
      let h' := (inductionsHeap h vr lr k sw hi).2
      h'.read p.a = c.a ∧ h'.read p.a_prime = c.a_prime ∧ h'.read p.Ct_KJ = c.Ct_KJ ∧ h'.read p.Ct_eff = c.Ct_eff ∧ h'.read p.Ct_rot = c.Ct_rot := by
  unfold inductionsHeap
  by_cases e0 : h.len lr = 0
  · rw [if_pos e0]
    exact ⟨⟨fun ⟨_, h⟩ => (by cases h), fun ⟨h, _⟩ => by omega⟩, fun p h => by cases h⟩
  rw [if_neg e0]
  by_cases e1 : Num.Eqv (h.cells lr 0) 0 ∧ h.len lr < 2
  · rw [if_pos e1]
    exact ⟨⟨fun ⟨_, h⟩ => (by cases h), fun ⟨_, h⟩ => absurd e1 h⟩, fun p h => by cases h⟩
  rw [if_neg e1]
  refine ⟨⟨fun _ => ⟨by omega, e1⟩, fun _ => ⟨_, rfl⟩⟩, fun p hp => ?_⟩
  have hr := contSafety_read h lr (.fin 0.01) e1
  simp only at hp ⊢
  generalize hg : (if Num.Eqv (h.cells lr 0) 0 then h.write lr 0 (h.cells lr 1 * .fin 0.01) else h) = g at *
  have gn : g.next = h.next := by rw [← hg]; split <;> rfl
  have gl : g.len = h.len := by rw [← hg]; split <;> rfl
  have gv : g.read vr = h.read vr := by
    rw [← hg]; split
    · simp [Heap.read, Heap.write, hne1]
    · rfl
  have gk : g.read k = h.read k := by
    rw [← hg]; split
    · simp [Heap.read, Heap.write, hne2]
    · rfl
  rw [hr, gv, gk, gl]
  generalize hc : inductionsCont (h.read vr) (contSafety (.fin 0.01) (h.read lr)) (h.read k) sw hi = c
  have hlr : (contSafety (.fin 0.01) (h.read lr)).length = h.len k := by
    rw [← hr, length_read, gl, l2]
  have hcl : c.a.length = h.len k ∧ c.a_prime.length = h.len k ∧ c.Ct_KJ.length = h.len k ∧ c.Ct_eff.length = h.len k ∧ c.Ct_rot.length = h.len k := by
    rw [← hc]
    have ct : ∀ (y x : List Num) (a : Num), y.length = x.length → (cumtrapzAux a y x).length = y.length - 1 := by
      intro y
      induction y with
      | nil => intro x a _; simp [cumtrapzAux]
      | cons y0 ys ih =>
        intro x a hl
        match ys, x, hl with
        | [], [x0], _ => simp [cumtrapzAux]
        | y1 :: ys, x0 :: x1 :: xs, hl =>
          have := ih (x1 :: xs) (a + (x1 - x0) * (y0 + y1) / 2) (by simpa using hl)
          simp only [cumtrapzAux, List.length_cons]
          rw [this]
          simp
    have hpos : 0 < h.len k := by omega
    cases sw
    · simp [inductionsCont, arr, length_read]
    · simp only [inductionsCont, if_true]
      refine ⟨?_, ?_, ?_, ?_, ?_⟩
      all_goals simp [arr, length_read]
      rw [ct _ _ _ (by simp [length_read, l1])]
      simp
      omega
  obtain ⟨c1, c2, c3, c4, c5⟩ := hcl
  have hp := (Except.ok.inj hp).symm
  subst hp
  obtain ⟨r1, r2, r3, r4, r5⟩ := five_alloc g (h.len k) (idx c.a) (idx c.a_prime) (idx c.Ct_KJ) (idx c.Ct_eff) (idx c.Ct_rot)
  refine ⟨r1.trans ?_, r2.trans ?_, r3.trans ?_, r4.trans ?_, r5.trans ?_⟩
  · rw [← c1]; exact arr_idx _
  · rw [← c2]; exact arr_idx _
  · rw [← c3]; exact arr_idx _
  · rw [← c4]; exact arr_idx _
  · rw [← c5]; exact arr_idx _

theorem ind_refs (h : Heap) (vr lr k : ℕ) (sw hi : Bool) (p : IndRefs) (hp : (inductionsHeap h vr lr k sw hi).1 = .ok p) :
    p = ⟨h.next, h.next+1, h.next+2, h.next+3, h.next+4⟩ ∧ (inductionsHeap h vr lr k sw hi).2.next = h.next + 5 ∧
    (inductionsHeap h vr lr k sw hi).2.len h.next = h.len k ∧ (inductionsHeap h vr lr k sw hi).2.len (h.next + 1) = h.len k := by
  unfold inductionsHeap at hp ⊢
  by_cases e0 : h.len lr = 0
  · rw [if_pos e0] at hp; cases hp
  rw [if_neg e0] at hp ⊢
  by_cases e1 : Num.Eqv (h.cells lr 0) 0 ∧ h.len lr < 2
  · rw [if_pos e1] at hp; cases hp
  rw [if_neg e1] at hp ⊢
  simp only at hp ⊢
  generalize hg : (if Num.Eqv (h.cells lr 0) 0 then h.write lr 0 (h.cells lr 1 * .fin 0.01) else h) = g at *
  have gn : g.next = h.next := by rw [← hg]; split <;> rfl
  have gl : g.len = h.len := by rw [← hg]; split <;> rfl
  have hp := (Except.ok.inj hp).symm
  rw [gn] at hp
  refine ⟨hp, by simp [Heap.alloc, gn], by simp [Heap.alloc, gn, gl, Nat.add_assoc], by simp [Heap.alloc, gn, gl, Nat.add_assoc]⟩

theorem contInputs_read (n : ℕ) (h : Heap) (rcp gcp : ℕ) (R U0 Ω : Num) (hr : rcp < h.next) (hg : gcp < h.next) (hn : h.len rcp = n) :
    (allocContInputs n h rcp gcp R U0 Ω).next = h.next + 3 ∧
    (allocContInputs n h rcp gcp R U0 Ω).read h.next = ((h.read gcp).map fun g => Ω * g / (.fin Real.pi * U0^2)) ∧
    (allocContInputs n h rcp gcp R U0 Ω).read (h.next+1) = ((h.read rcp).map fun r => r / R) ∧
    (allocContInputs n h rcp gcp R U0 Ω).read (h.next+2) = ((h.read rcp).map fun r => Ω * r / U0) ∧
    (allocContInputs n h rcp gcp R U0 Ω).len h.next = h.len gcp ∧
    (allocContInputs n h rcp gcp R U0 Ω).len (h.next+1) = n ∧
    (allocContInputs n h rcp gcp R U0 Ω).len (h.next+2) = n := by
  subst hn
  have e1 : rcp ≠ h.next := by omega
  have e2 : rcp ≠ h.next + 1 := by omega
  refine ⟨rfl, ?_, ?_, ?_, ?_, ?_, ?_⟩
  · rw [← arr_cells_map]; simp [allocContInputs, Heap.read, Heap.alloc, Nat.add_assoc]
  · rw [← arr_cells_map]; simp [allocContInputs, Heap.read, Heap.alloc, Nat.add_assoc]
  · rw [← arr_cells_map]; simp [allocContInputs, Heap.read, Heap.alloc, Nat.add_assoc]
  all_goals simp [allocContInputs, Heap.alloc, Nat.add_assoc]

/-- C32 (continuous solver): on different arrays of equal length, `WakeVorticityFromCirculation_Cont` succeeds as soon as
there are two radii, and the arrays it returns hold what the value-level model gives for the contents of the arguments. -/
theorem C32_contents_continuous (h : Heap) (rcp gcp : ℕ) (R U0 Ω : Num) (sw hi : Bool) (hr : rcp < h.next) (hg : gcp < h.next)
    (hne : gcp ≠ rcp) (hl : h.len gcp = h.len rcp) :
    (2 ≤ h.len rcp → ∃ p, (contHeap h rcp gcp R U0 Ω sw hi).1 = .ok p) ∧
    ∀ p, (contHeap h rcp gcp R U0 Ω sw hi).1 = .ok p →
      let w := wakeVorticityCont (h.read rcp) (h.read gcp) R U0 Ω sw hi
      let h' := (contHeap h rcp gcp R U0 Ω sw hi).2
      h'.read p.gamma_t = w.gamma_t ∧ p.gamma_l.map h'.read = w.gamma_l ∧ p.Gamma_r = w.Gamma_r ∧
      h'.read p.ind.a = w.ind.a ∧ h'.read p.ind.a_prime = w.ind.a_prime ∧ h'.read p.ind.Ct_KJ = w.ind.Ct_KJ ∧
      h'.read p.ind.Ct_eff = w.ind.Ct_eff ∧ h'.read p.ind.Ct_rot = w.ind.Ct_rot ∧
      h'.read p.Vz = w.Vz ∧ h'.read p.h = w.h ∧ h'.read p.r_cp = w.r_cp ∧ h'.read p.Gamma_cp = h.read gcp := by
  unfold contHeap
  by_cases e0 : h.len rcp = 0
  · rw [if_pos e0]
    exact ⟨fun h => by omega, fun p h => by cases h⟩
  rw [if_neg e0]
  by_cases e1 : Num.Eqv (h.cells rcp 0) 0 ∧ h.len rcp < 2
  · rw [if_pos e1]
    exact ⟨fun h => by omega, fun p h => by cases h⟩
  rw [if_neg e1]
  have hsr := contSafety_read h rcp (.fin 0.5) e1
  simp only
  generalize hgd : (if Num.Eqv (h.cells rcp 0) 0 then h.write rcp 0 (h.cells rcp 1 * .fin 0.5) else h) = g at *
  have gn : g.next = h.next := by rw [← hgd]; split <;> rfl
  have gl : g.len = h.len := by rw [← hgd]; split <;> rfl
  have gg : g.read gcp = h.read gcp := by
    rw [← hgd]; split
    · simp [Heap.read, Heap.write, hne]
    · rfl
  obtain ⟨i0, i1, i2, i3, i4, i5, i6⟩ := contInputs_read (g.len rcp) g rcp gcp R U0 Ω (by omega) (by omega) rfl
  have hsame := contInputs_same g.next (g.len rcp) g g rcp gcp R U0 Ω le_rfl (.refl _ _)
  generalize allocContInputs (g.len rcp) g rcp gcp R U0 Ω = H at *
  obtain ⟨ok, cont⟩ := C32_contents_inductions H (g.next+1) (g.next+2) g.next sw hi (by omega) (by omega) (by rw [i5, i4, gl, hl]) (by rw [i6, i4, gl, hl])
  have isame := inductions_same g.next H H (g.next+1) (g.next+2) g.next sw hi (by omega) (.refl _ _) (Or.inl (by omega))
  have hrefs := ind_refs H (g.next+1) (g.next+2) g.next sw hi
  generalize inductionsHeap H (g.next+1) (g.next+2) g.next sw hi = q at *
  obtain ⟨res, K⟩ := q
  simp only at ok cont isame hrefs ⊢
  constructor
  · intro h2
    obtain ⟨p, hp⟩ := ok.mpr ⟨by rw [i6, gl]; omega, fun hh => by rw [i6, gl] at hh; omega⟩
    rw [hp]
    exact ⟨_, rfl⟩
  · intro p hp
    cases res with
    | error e => cases hp
    | ok ind =>
      obtain ⟨rfl, kn, kl0, kl1⟩ := hrefs ind rfl
      obtain ⟨c1, c2, c3, c4, c5⟩ := cont _ rfl
      simp only at hp
      have hp := (Except.ok.inj hp).symm
      have kr : K.read rcp = g.read rcp := by
        unfold Heap.read
        rw [(isame.2 rcp (by omega)).1, (isame.2 rcp (by omega)).2, (hsame.2 rcp (by omega)).1, (hsame.2 rcp (by omega)).2]
      have kg : K.read gcp = h.read gcp := by
        rw [← gg]
        unfold Heap.read
        rw [(isame.2 gcp (by omega)).1, (isame.2 gcp (by omega)).2, (hsame.2 gcp (by omega)).1, (hsame.2 gcp (by omega)).2]
      simp only at c1 c2 c3 c4 c5
      rw [i2, i3, i1, hsr, gg] at c1 c2 c3 c4 c5
      rw [hsr] at kr
      have hlen : K.len rcp = h.len rcp := by rw [(isame.2 rcp (by omega)).2, (hsame.2 rcp (by omega)).2, gl]
      have hleng : K.len gcp = h.len rcp := by rw [(isame.2 gcp (by omega)).2, (hsame.2 gcp (by omega)).2, gl, hl]
      have hgl : g.len rcp = h.len rcp := by rw [gl]
      have k0 : K.len H.next = h.len rcp := by rw [kl0, i4, gl, hl]
      have k1 : K.len (H.next + 1) = h.len rcp := by rw [kl1, i4, gl, hl]
      rw [hgl]
      have hn : (contSafety (.fin 0.5) (h.read rcp)).length = h.len rcp := by rw [← kr, length_read, hlen]
      unfold wakeVorticityCont
      simp only
      rw [hn]
      generalize inductionsCont ((contSafety (.fin 0.5) (h.read rcp)).map fun r => r / R)
        (contSafety (.fin 0.01) ((contSafety (.fin 0.5) (h.read rcp)).map fun r => Ω * r / U0)) ((h.read gcp).map fun g => Ω * g / (.fin Real.pi * U0^2)) sw hi = C at *
      generalize h.len rcp = n at *
      generalize contSafety (.fin 0.5) (h.read rcp) = rc at *
      generalize h.read gcp = G at *
      rw [← c1, ← c2, ← c3, ← c4, ← c5, ← kr, ← kg]
      have out : ∀ r < K.next, (allocContOutputs n K rcp gcp ⟨H.next, H.next+1, H.next+2, H.next+3, H.next+4⟩ U0 Ω).read r = K.read r := by
        intro r hr
        have := (contOutputs_same K.next n K K rcp gcp ⟨H.next, H.next+1, H.next+2, H.next+3, H.next+4⟩ U0 Ω le_rfl (.refl _ _)).2 r hr
        unfold Heap.read
        rw [this.1, this.2]
      subst hp
      have hVz : arr n (fun i => U0 * (1 - 2 * K.cells H.next i)) = (K.read H.next).map fun a => U0 * (1 - 2 * a) := by
        rw [← k0]; exact arr_cells_map K H.next (fun a => U0 * (1 - 2 * a))
      have cong : ∀ f f' : ℕ → Num, (∀ i < n, f i = f' i) → arr n f = arr n f' := fun f f' h =>
        List.map_congr_left fun i hi => h i (List.mem_range.mp hi)
      have ia : ∀ i < n, idx ((K.read H.next).map fun a => U0 * (1 - 2 * a)) i = U0 * (1 - 2 * K.cells H.next i) := by
        intro i hi
        rw [← hVz]
        simp [idx, arr, List.getD_eq_getElem?_getD, hi]
      have iap : ∀ i < n, idx (K.read (H.next + 1)) i = K.cells (H.next + 1) i := fun i hi => idx_read K _ i (by omega)
      have ig : ∀ i < n, idx (K.read gcp) i = K.cells gcp i := fun i hi => idx_read K _ i (by omega)
      have ir : ∀ i < n, idx (K.read rcp) i = K.cells rcp i := fun i hi => idx_read K _ i (by omega)
      have ih : ∀ i < n, idx (arr n fun i => idx ((K.read H.next).map fun a => U0 * (1 - 2 * a)) i * 2 * .fin Real.pi / (Ω * (1 + 2 * idx (K.read (H.next + 1)) i))) i
          = U0 * (1 - 2 * K.cells H.next i) * 2 * .fin Real.pi / (Ω * (1 + 2 * K.cells (H.next + 1) i)) := by
        intro i hi
        rw [← ia i hi, ← iap i hi]
        simp [idx, arr, List.getD_eq_getElem?_getD, hi]
      have it : ∀ i < n, (idx (K.read gcp) i - if i = n - 1 then 0 else idx (K.read gcp) (i+1)) = K.cells gcp i - if i = n - 1 then 0 else K.cells gcp (i+1) := by
        intro i hi
        rw [ig i hi]
        by_cases hh : i = n - 1
        · rw [if_pos hh, if_pos hh]
        · rw [if_neg hh, if_neg hh, ig (i+1) (by omega)]
      have n1 : ∀ a j, a < K.next → a ≠ K.next + j := by omega
      have n0 : ∀ a, a < K.next → a ≠ K.next := by omega
      have hrK : rcp < K.next := by omega
      have hgK : gcp < K.next := by omega
      have h1K : H.next + 1 < K.next := by omega
      have h0K : H.next < K.next := by omega
      refine ⟨?_, ?_, ?_, out _ (by simp only; omega), out _ (by simp only; omega), out _ (by simp only; omega), out _ (by simp only; omega), out _ (by simp only; omega), ?_, ?_, out _ hrK, out _ hgK⟩
      · rw [cong (fun i => - (idx (K.read gcp) i - if i = n - 1 then 0 else idx (K.read gcp) (i+1)) / idx (arr n fun i => idx ((K.read H.next).map fun a => U0 * (1 - 2 * a)) i * 2 * .fin Real.pi / (Ω * (1 + 2 * idx (K.read (H.next + 1)) i))) i)
          (fun i => - (K.cells gcp i - if i = n - 1 then 0 else K.cells gcp (i+1)) / (U0 * (1 - 2 * K.cells H.next i) * 2 * .fin Real.pi / (Ω * (1 + 2 * K.cells (H.next + 1) i)))) (fun i hi => by rw [it i hi, ih i hi])]
        simp [allocContOutputs, Heap.read, Heap.alloc, n1, n0, hgK, h1K, h0K, Nat.add_assoc]
      · cases sw
        · rfl
        · simp only [if_true, Option.map_some]
          rw [cong (fun i => (idx (K.read gcp) i - if i = n - 1 then 0 else idx (K.read gcp) (i+1)) / (2 * .fin Real.pi * idx (K.read rcp) i))
            (fun i => (K.cells gcp i - if i = n - 1 then 0 else K.cells gcp (i+1)) / (2 * .fin Real.pi * K.cells rcp i)) (fun i hi => by rw [it i hi, ir i hi])]
          simp [allocContOutputs, Heap.read, Heap.alloc, n1, n0, hgK, hrK, Nat.add_assoc]
      · rw [ig 0 (by omega)]
      · rw [← hVz]
        simp [allocContOutputs, Heap.read, Heap.alloc, Nat.add_assoc]
      · rw [cong (fun i => idx ((K.read H.next).map fun a => U0 * (1 - 2 * a)) i * 2 * .fin Real.pi / (Ω * (1 + 2 * idx (K.read (H.next + 1)) i)))
          (fun i => U0 * (1 - 2 * K.cells H.next i) * 2 * .fin Real.pi / (Ω * (1 + 2 * K.cells (H.next + 1) i))) (fun i hi => by rw [ia i hi, iap i hi])]
        simp [allocContOutputs, Heap.read, Heap.alloc, n1, n0, h1K, h0K, Nat.add_assoc]

/-- three arrays of two entries -/
example : ∃ (h : Heap) (p : ContRefs), (contHeap h 0 1 1 1 1 true true).1 = .ok p ∧ (h.read 0).length = 2 := by
  let h : Heap := ⟨fun _ => 2, fun _ i => .fin i, 2⟩
  obtain ⟨p, hp⟩ := (C32_contents_continuous h 0 1 1 1 1 true true (by norm_num [h]) (by norm_num [h]) (by norm_num) rfl).1 le_rfl
  exact ⟨h, p, hp, by simp [Heap.read, arr, h]⟩

end Wiz
