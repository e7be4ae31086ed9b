import Verif.Lemmas.TurbineRotation

namespace Wiz
open Classical

theorem mul_isFin2 {a b : Num} (h : (a * b).IsFin) : a.IsFin ∧ b.IsFin := by
  cases a with
  | fin x => exact ⟨⟨x, rfl⟩, mul_isFin h⟩
  | nan => simp at h
  | pinf =>
    cases b with
    | fin x =>
      rw [Num.mul_comm'] at h
      exact absurd (mul_isFin h) (by simp)
    | nan => simp at h
    | _ => obtain ⟨x, h⟩ := h; exact nomatch h
  | ninf =>
    cases b with
    | fin x =>
      rw [Num.mul_comm'] at h
      exact absurd (mul_isFin h) (by simp)
    | nan => simp at h
    | _ => obtain ⟨x, h⟩ := h; exact nomatch h

theorem sub_isFin {a b : Num} (h : (a - b).IsFin) : a.IsFin ∧ b.IsFin := by
  have h' : (a + -b).IsFin := h
  obtain ⟨h1, h2⟩ := add_isFin h'
  refine ⟨h1, ?_⟩
  obtain ⟨x, hx⟩ := h2
  cases b with
  | fin y => exact ⟨y, rfl⟩
  | _ => exact nomatch hx

/-- at mirrored points the vertical velocities cancel (when they are numbers) -/
def OddKernel (K : List (V3 ℝ) → List (V3 Num)) : Prop :=
  ∀ (A B : List (V3 ℝ)) (i : ℕ) (x y z a b : ℝ), A[i]? = some ⟨x, y, z⟩ → B[i]? = some ⟨x, -y, z⟩ →
    ((K A).getD i 0).y = .fin a → ((K B).getD i 0).y = .fin b → a + b = 0

theorem polarR_neg (x y : ℝ) : polarR x (-y) = polarR x y := by simp [polarR]

theorem sin_arctan2_neg (x y : ℝ) : Real.sin (arctan2 (-y) x) = -Real.sin (arctan2 y x) := by
  by_cases h : x ≠ 0 ∨ y ≠ 0
  · have h' : x ≠ 0 ∨ -y ≠ 0 := by
      rcases h with h | h
      · exact .inl h
      · exact .inr (neg_ne_zero.mpr h)
    rw [sin_arctan2 h, sin_arctan2 h', polarR_neg, neg_div]
  · push Not at h
    rw [h.1, h.2, neg_zero, arctan2_zero, Real.sin_zero, neg_zero]

theorem vcPt_fst (P P' : Num → Num → Num) (g : Num) (R eps r z : ℝ) : (vcPt P g R eps r z).1 = (vcPt P' g R eps r z).1 := by
  unfold vcPt
  split
  · rfl
  · rfl

theorem odd_of_polar (c : Num) (s : ℝ) (a b : ℝ) (h1 : c * .fin s = .fin a) (h2 : c * .fin (-s) = .fin b) : a + b = 0 := by
  obtain ⟨⟨k, rfl⟩, -⟩ := mul_isFin2 ⟨_, h1⟩
  simp at h1 h2
  linarith

theorem getD_of_getElem {α : Type} {l : List α} {i : ℕ} {x d : α} (h : l[i]? = some x) : l.getD i d = x := by
  simp [List.getD_eq_getElem?_getD, h]

theorem vcTang_odd (g : Num) (R eps : ℝ) : OddKernel fun Y => vcTang Y g R eps := by
  intro A B i x y z a b hA hB h1 h2
  simp only [vcTang_map, List.getD_eq_getElem?_getD, List.getElem?_map, hA, hB, Option.map_some, Option.getD_some] at h1 h2
  simp only [polarToCart] at h1 h2
  rw [polarR_neg, sin_arctan2_neg, vcPt_fst _ (piOf (vcBatch A R eps))] at h2
  exact odd_of_polar _ _ _ _ h1 h2

theorem vcTangDoublet_map' (pts : List (V3 ℝ)) (g : Num) (R rCut : ℝ) : ∃ P : Num → Num → Num,
    vcTangDoublet pts g R rCut = pts.map fun p => polarToCart p (if ¬ vcCut R rCut p then vcPt P g R 0 (polarR p.x p.y) p.z
      else match doubletLinePolarU (polarR p.x p.y) p.z (g * (.fin R)^2 * .fin Real.pi) with
        | .ok u => u
        | .error _ => (.nan, .nan)) := by
  refine ⟨piOf (vcBatch (pts.filter fun p => decide (¬ vcCut R rCut p)) R 0), ?_⟩
  unfold vcTangDoublet vcTangDoubletPolar
  simp only [vcTangPolar_map]
  rw [scatter_map, List.zipWith_map_right, List.zipWith_self]
  apply List.map_congr_left
  intro p _
  by_cases h : vcCut R rCut p
  · simp only [h, not_true_eq_false, if_false]
    generalize doubletLinePolarU _ _ _ = e
    cases e <;> rfl
  · simp [h]

theorem vcTangDoublet_odd (g : Num) (R rCut : ℝ) : OddKernel fun Y => vcTangDoublet Y g R rCut := by
  intro A B i x y z a b hA hB h1 h2
  obtain ⟨P, hP⟩ := vcTangDoublet_map' A g R rCut
  obtain ⟨P', hP'⟩ := vcTangDoublet_map' B g R rCut
  have hcut : vcCut R rCut ⟨x, -y, z⟩ ↔ vcCut R rCut ⟨x, y, z⟩ := by unfold vcCut; simp only [polarR_neg]
  simp only [hP, hP', List.getD_eq_getElem?_getD, List.getElem?_map, hA, hB, Option.map_some, Option.getD_some] at h1 h2
  simp only [polarToCart] at h1 h2
  rw [sin_arctan2_neg] at h2
  by_cases hc : vcCut R rCut ⟨x, y, z⟩
  · rw [if_neg (not_not.mpr hc)] at h1
    rw [if_neg (not_not.mpr (hcut.mpr hc)), polarR_neg] at h2
    exact odd_of_polar _ _ _ _ h1 h2
  · rw [if_pos hc] at h1
    rw [if_pos (fun h => hc (hcut.mp h)), polarR_neg, vcPt_fst _ P] at h2
    exact odd_of_polar _ _ _ _ h1 h2

theorem doubletLine_odd (k : Num) : OddKernel fun Y => Y.map fun p => doubletLineU p k 0 none := by
  intro A B i x y z a b hA hB h1 h2
  simp only [List.getD_eq_getElem?_getD, List.getElem?_map, hA, hB, Option.map_some, Option.getD_some] at h1 h2
  unfold doubletLineU at h1 h2
  simp only [abs_neg] at h1 h2
  have e : (Num.fin (-y))^2 = (Num.fin y)^2 := by simp
  rw [e] at h2
  split at h1
  · rename_i hc
    rw [if_pos hc] at h2
    simp at h1 h2
    linarith
  · rename_i hc
    rw [if_neg hc] at h2
    simp only at h1 h2
    generalize (doubletLineIntegrals _ _ _ _).2.1 = t0 at h1 h2
    generalize (doubletLineIntegrals _ _ _ _).2.2.1 = t1 at h1 h2
    obtain ⟨⟨k', hk⟩, hX⟩ := mul_isFin2 ⟨_, h1⟩
    obtain ⟨p1, p2⟩ := sub_isFin hX
    obtain ⟨-, ⟨t0', rfl⟩⟩ := mul_isFin2 p1
    obtain ⟨-, ⟨t1', rfl⟩⟩ := mul_isFin2 p2
    rw [hk] at h1 h2
    simp at h1 h2
    rw [← h1, ← h2]; ring

theorem ss_odd (g : Num) (R : ℝ) : OddKernel fun Y => Y.map fun p => (⟨ssUDefault p g R * 0, ssUDefault p g R * 0, ssUDefault p g R⟩ : V3 Num) := by
  intro A B i x y z a b hA hB h1 h2
  simp only [List.getD_eq_getElem?_getD, List.getElem?_map, hA, hB, Option.map_some, Option.getD_some] at h1 h2
  obtain ⟨⟨c, hc⟩, -⟩ := mul_isFin2 ⟨_, h1⟩
  obtain ⟨⟨d, hd⟩, -⟩ := mul_isFin2 ⟨_, h2⟩
  rw [hc] at h1
  rw [hd] at h2
  simp at h1 h2
  linarith

/-- a successful tangential part without yaw is an odd kernel -/
theorem tangPart_odd (chi m : Num) (M : String) (g : Num) (R Rff : ℝ) (hy : ¬ yawed chi) :
    (∃ e, ∀ Y, tangPart chi m M g R Rff Y = .error e) ∨ ∃ K, OddKernel K ∧ (∀ Y, (K Y).length = Y.length) ∧ ∀ Y, tangPart chi m M g R Rff Y = .ok (K Y) := by
  unfold tangPart
  simp only [if_neg hy]
  by_cases h1 : M = "VC"
  · simp only [if_pos h1]; exact .inr ⟨_, vcTang_odd g R 0, fun Y => vcTang_length _ _ _ _, fun Y => rfl⟩
  · by_cases h2 : M = "VCFF"
    · simp only [if_neg h1, if_pos h2]; exact .inr ⟨_, vcTangDoublet_odd g R Rff, fun Y => vcTangDoublet_length _ _ _ _, fun Y => rfl⟩
    · by_cases h3 : M = "VD"
      · simp only [if_neg h1, if_neg h2, if_pos h3]; exact .inr ⟨_, doubletLine_odd _, fun Y => by simp, fun Y => rfl⟩
      · by_cases h4 : M = "SS"
        · simp only [if_neg h1, if_neg h2, if_neg h3, if_pos h4]; exact .inr ⟨_, ss_odd g R, fun Y => by simp, fun Y => rfl⟩
        · simp only [if_neg h1, if_neg h2, if_neg h3, if_neg h4]; exact .inl ⟨_, fun Y => rfl⟩

theorem pair_sum_zero {ι : Type} (l : List ι) (f g : ι → V3 Num) (hfg : ∀ c ∈ l, ∀ a b : ℝ, (f c).y = .fin a → (g c).y = .fin b → a + b = 0) :
    ∀ t : ℝ, ((l.map f).sum + (l.map g).sum).y = .fin t → t = 0 := by
  induction l with
  | nil => intro t ht; simp at ht; exact ht.symm
  | cons c l ih =>
    intro t ht
    simp only [List.map_cons, List.sum_cons] at ht
    have e : (f c + (l.map f).sum + (g c + (l.map g).sum)).y = (f c).y + (g c).y + ((l.map f).sum + (l.map g).sum).y := by
      simp only [V3.add_y]; abel
    rw [e] at ht
    obtain ⟨h1, ⟨s, hs⟩⟩ := add_isFin ⟨_, ht⟩
    obtain ⟨⟨a, ha⟩, ⟨b, hb⟩⟩ := add_isFin h1
    have h0 := hfg c (List.mem_cons_self ..) a b ha hb
    have hs0 := ih (fun c hc => hfg c (List.mem_cons_of_mem _ hc)) s hs
    rw [ha, hb, hs] at ht
    simp at ht
    rw [← ht, h0, hs0, add_zero]

/-- the concentric cylinders of one group and their images cancel on the ground -/
theorem vcsTang_ground (pts : List (V3 ℝ)) (c : V3 ℝ) (cy : List (Num × ℝ)) (eps : ℝ) (i : ℕ) (p : V3 ℝ) (hp : pts[i]? = some p) (hy : p.y = 0)
    (t : ℝ) (ht : ((vcsTang pts [⟨c, cy⟩] eps true).getD i 0).y = .fin t) : t = 0 := by
  have hs := (C50_tang_sum pts [⟨c, cy⟩] eps true).2 i
  simp only [List.map_cons, List.map_nil, List.sum_cons, List.sum_nil, add_zero, if_true] at hs
  rw [hs] at ht
  refine pair_sum_zero _ _ _ ?_ t ht
  intro k _ a b ha hb
  refine vcTang_odd k.1 k.2 eps _ _ i (p.x - c.x) (-c.y) (p.z - c.z) a b ?_ ?_ ha hb
  · rw [List.getElem?_map, hp, Option.map_some]; congr 1; ext <;> simp [hy]
  · rw [List.getElem?_map, hp, Option.map_some]; congr 1; ext <;> simp [hy]

end Wiz
