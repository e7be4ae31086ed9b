import Verif.Spec.PointVortex
import Mathlib.Tactic.IntervalCases
import Mathlib.Tactic.NormNum.NatFactorial
namespace Wiz
open Spec

theorem V2.fin_add (a b : V2 ℝ) : V2.fin a + V2.fin b = V2.fin (a + b) := rfl
theorem V2.fin_zero : V2.fin 0 = 0 := rfl
theorem V2.fin_sum (l : List (V2 ℝ)) : (l.map V2.fin).sum = V2.fin l.sum := by
  induction l with
  | nil => rfl
  | cons a l ih => simp only [List.map_cons, List.sum_cons, ih, V2.fin_add]

/-- What a selected kernel computes on finite arguments. -/
def kernelReal (k : Option ((Num → Num) × (Num → Num))) (w : ℝ → ℝ) : Prop :=
  match k with
  | none => ∀ q, w q = 1
  | some (fE, fK) => ∀ q, (1 : Num) - fK (.fin q) * fE (.fin q) = .fin (w q)

theorem laguerre0 (x : ℝ) : laguerre 0 x = 1 := by simp [laguerre]
theorem laguerre1 (x : ℝ) : laguerre 1 x = 1 - x := by
  simp [laguerre, Finset.sum_range_succ]; ring
theorem laguerre2 (x : ℝ) : laguerre 2 x = 1 - 2*x + x^2/2 := by
  simp [laguerre, Finset.sum_range_succ]; norm_num; ring
theorem choose31 : Nat.choose 3 1 = 3 := rfl
theorem laguerre3 (x : ℝ) : laguerre 3 x = 1 - 3*x + 3*x^2/2 - x^3/6 := by
  have h : Nat.choose 3 2 = 3 := rfl
  have h2 : Nat.factorial 3 = 6 := rfl
  simp [laguerre, Finset.sum_range_succ, h, h2]; ring
theorem laguerre4 (x : ℝ) : laguerre 4 x = 1 - 4*x + 3*x^2 - 2/3*x^3 + x^4/24 := by
  have h : Nat.choose 4 2 = 6 := rfl
  have h' : Nat.choose 4 3 = 4 := rfl
  have h2 : Nat.factorial 3 = 6 := rfl
  have h3 : Nat.factorial 4 = 24 := rfl
  simp [laguerre, Finset.sum_range_succ, h, h', h2, h3]; ring

theorem setup_ok (sm ko : ℤ) (w : ℝ → ℝ) (h : coreFunction sm ko = some w) :
    ∃ k, vpsSetup sm ko = .ok k ∧ kernelReal k w ∧ (k = none → sm = 0) ∧ (sm = 0 → k = none) := by
  have d2 : ∀ a : ℝ, Num.fin a / Num.fin 2 = Num.fin (a/2) := fun a => Num.fin_div (by norm_num)
  have d6 : ∀ a : ℝ, Num.fin a / Num.fin 6 = Num.fin (a/6) := fun a => Num.fin_div (by norm_num)
  have d8 : ∀ a : ℝ, Num.fin a / Num.fin 8 = Num.fin (a/8) := fun a => Num.fin_div (by norm_num)
  have d4 : ∀ a : ℝ, Num.fin a / Num.fin 4 = Num.fin (a/4) := fun a => Num.fin_div (by norm_num)
  have d12 : ∀ a : ℝ, Num.fin a / Num.fin 12 = Num.fin (a/12) := fun a => Num.fin_div (by norm_num)
  have d48 : ∀ a : ℝ, Num.fin a / Num.fin 48 = Num.fin (a/48) := fun a => Num.fin_div (by norm_num)
  have d384 : ∀ a : ℝ, Num.fin a / Num.fin 384 = Num.fin (a/384) := fun a => Num.fin_div (by norm_num)
  unfold coreFunction at h
  split_ifs at h with h0 h1 h2 h3
  · subst h0
    refine ⟨none, by simp [vpsSetup], ?_, by simp, by simp⟩
    simp only [Option.some.injEq] at h
    subst h
    simp [kernelReal]
  · obtain ⟨rfl, h1⟩ := h1
    simp only [Option.some.injEq] at h
    subst h
    rcases h1 with rfl | rfl | rfl | rfl
    all_goals
      simp only [vpsSetup]
      norm_num
      refine ⟨?_, by simp⟩
      intro q
    · simp [laguerre0]
    · have : (Int.toNat 1) = 1 := rfl
      simp [this, laguerre1]
    · have : (Int.toNat 2) = 2 := rfl
      simp [this, laguerre2, d2]
    · have : (Int.toNat 3) = 3 := rfl
      simp [this, laguerre3, d2, d6]
  · obtain ⟨rfl, rfl⟩ := h2
    simp only [Option.some.injEq] at h
    subst h
    simp only [vpsSetup]
    norm_num
    refine ⟨?_, by simp⟩
    intro q
    simp
  · obtain ⟨rfl, h3⟩ := h3
    simp only [Option.some.injEq] at h
    subst h
    rcases h3 with rfl | rfl | rfl | rfl
    all_goals
      simp only [vpsSetup]
      norm_num
      refine ⟨?_, by simp⟩
      intro q
    · have : (Int.toNat 1) = 1 := rfl
      simp [this, laguerre1, d2]
      ring_nf
    · have : (Int.toNat 2) = 2 := rfl
      simp [this, laguerre2, d2, d8]
      ring_nf
    · have : (Int.toNat 3) = 3 := rfl
      simp [this, laguerre3, d2, d8, d48]
      ring_nf
    · have : (Int.toNat 4) = 4 := rfl
      simp [this, laguerre4, d2, d4, d12, d384]
      ring_nf

theorem setup_error (sm ko : ℤ) (h : coreFunction sm ko = none) : ∃ e, vpsSetup sm ko = .error e := by
  unfold coreFunction at h
  split_ifs at h with h0 h1 h2 h3
  unfold vpsSetup
  by_cases a1 : sm = 1
  · subst a1; simp at h1; simp [h1]
  · by_cases a2 : sm = 2
    · subst a2; simp at h2 h3; simp [h2, h3]
    · simp [h0, a1, a2]

/-- One step of the loop. -/
theorem vpsStep_eval (k) (w : ℝ → ℝ) (hk : kernelReal k w) (x0 : V2 ℝ) (v : Vortex)
    (hc : k = none ∨ v.core ≠ 0) (G : List ℝ) (SP : Option (List ℝ)) (iv : ℕ)
    (hG : G[iv]? = some v.circ) (hS : k = none ∨ ∃ l, SP = some l ∧ l[iv]? = some v.core) (U : V2 Num) :
    vpsStep k x0 v.pos G SP iv U = .ok (U + V2.fin (vortexVelocity w x0 v)) := by
  have hpi : (2 : ℝ) * Real.pi ≠ 0 := by positivity
  have e2 : ∀ a : ℝ, (Num.fin a / ((2 : Num) * Num.fin Real.pi)) = Num.fin (a / (2*Real.pi)) := by
    intro a
    simp only [Num.ofNat_def, Num.fin_mul]; rw [Num.fin_div hpi]
  have hsq : (x0.x - v.pos.x) * (x0.x - v.pos.x) + (x0.y - v.pos.y) * (x0.y - v.pos.y)
      = (x0.x - v.pos.x)^2 + (x0.y - v.pos.y)^2 := by ring
  unfold vpsStep vortexVelocity
  simp only [hsq]
  by_cases hr : (x0.x - v.pos.x)^2 + (x0.y - v.pos.y)^2 < 1e-15
  · simp only [hr, if_true]
    have : V2.fin ⟨0, 0⟩ = (0 : V2 Num) := rfl
    rw [this, add_zero]
  · have hr0 : (x0.x - v.pos.x)^2 + (x0.y - v.pos.y)^2 ≠ 0 := by
      intro h0; rw [h0] at hr; norm_num at hr
    simp only [hr, if_false]
    generalize (x0.x - v.pos.x)^2 + (x0.y - v.pos.y)^2 = r2 at *
    cases k with
    | none =>
      simp only [kernelReal] at hk
      simp only [hG, hk, e2, Num.fin_mul, Num.fin_div hr0, V2.fin, mul_one]
    | some p =>
      obtain ⟨fE, fK⟩ := p
      simp only [kernelReal] at hk
      have hc' : v.core ≠ 0 := by simpa using hc
      obtain ⟨l, rfl, hl⟩ : ∃ l, SP = some l ∧ l[iv]? = some v.core := by simpa using hS
      simp only [hG, hl, Num.fin_pow, Num.fin_div (pow_ne_zero 2 hc'), hk, e2, Num.fin_mul, Num.fin_div hr0, V2.fin]
      apply congrArg Except.ok
      apply congrArg (U + ·)
      ext <;> simp <;> ring

theorem vpsLoop_eval (k) (w : ℝ → ℝ) (hk : kernelReal k w) (x0 : V2 ℝ) (G : List ℝ) (SP : Option (List ℝ)) :
    ∀ (vs : List Vortex) (iv : ℕ) (_ : k = none ∨ ∀ v ∈ vs, v.core ≠ 0)
    (_ : ∀ i (h : i < vs.length), G[iv+i]? = some (vs[i]).circ)
    (_ : k = none ∨ ∃ l, SP = some l ∧ ∀ i (h : i < vs.length), l[iv+i]? = some (vs[i]).core) (U : V2 Num),
    vpsLoop k x0 G SP iv (vs.map Vortex.pos) U
      = .ok (U + V2.fin ((vs.map (vortexVelocity w x0)).sum)) := by
  intro vs
  induction vs with
  | nil => intro iv _ _ _ U; simp only [List.map_nil, vpsLoop, List.sum_nil, V2.fin_zero, add_zero]
  | cons v vs ih =>
    intro iv hc hG hS U
    have hG0 := hG 0 (by simp)
    simp only [List.map_cons, vpsLoop]
    rw [vpsStep_eval k w hk x0 v (hc.imp id fun h => h v (by simp)) G SP iv (by simpa using hG0)
      (hS.imp id fun ⟨l, h1, h2⟩ => ⟨l, h1, by have := h2 0 (by simp); simpa only [Nat.add_zero, List.getElem_cons_zero] using this⟩)]
    simp only []
    rw [ih (iv+1) (hc.imp id fun h v hv => h v (by simp [hv]))]
    · rw [List.sum_cons, ← V2.fin_add, add_assoc]
    · intro i h
      have := hG (i+1) (by simpa using h)
      simp only [List.getElem_cons_succ] at this
      rw [← this]; congr 1; omega
    · refine hS.imp id fun ⟨l, h1, h2⟩ => ⟨l, h1, ?_⟩
      intro i h
      have := h2 (i+1) (by simpa using h)
      simp only [List.getElem_cons_succ] at this
      rw [← this]; congr 1; omega

theorem vpsU_eval (sm ko : ℤ) (w : ℝ → ℝ) (h : coreFunction sm ko = some w) (CP : List (V2 ℝ))
    (vs : List Vortex) (SP : Option (List ℝ))
    (hc : sm = 0 ∨ (SP = some (vs.map Vortex.core) ∧ ∀ v ∈ vs, v.core ≠ 0)) :
    vpsU CP (vs.map Vortex.pos) (vs.map Vortex.circ) sm ko SP
      = .ok (CP.map fun p => V2.fin (vs.map (vortexVelocity w p)).sum) := by
  obtain ⟨k, hk, hr, hn, hn'⟩ := setup_ok sm ko w h
  unfold vpsU
  rw [hk]
  simp only []
  induction CP with
  | nil => rfl
  | cons p CP ih =>
    rw [vpsPoints, vpsLoop_eval k w hr p]
    · simp only [ih, List.map_cons, zero_add]
    · exact hc.imp hn' fun h => h.2
    · intro i h; simp [h]
    · refine hc.imp hn' fun h => ⟨_, h.1, ?_⟩
      intro i hi; simp [hi]
end Wiz
