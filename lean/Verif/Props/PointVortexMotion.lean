import Verif.Props.VortexPoint
import Verif.Spec.PointVortexMotion
import Mathlib.Analysis.Calculus.MeanValue
import Mathlib.Analysis.SpecialFunctions.Log.Deriv
import Mathlib.Analysis.SpecialFunctions.Trigonometric.Deriv
import Mathlib.MeasureTheory.Integral.IntervalIntegral.FundThmCalculus
import Mathlib.Algebra.Order.BigOperators.Group.Finset

/-! # Motion of point vortices under `vps_u` (C161) -/
namespace Wiz
open Spec

theorem V2.fsum_x {ι} (s : Finset ι) (f : ι → V2 ℝ) : (∑ i ∈ s, f i).x = ∑ i ∈ s, (f i).x := by
  classical
  induction s using Finset.induction_on with
  | empty => rfl
  | insert a s ha ih => rw [Finset.sum_insert ha, Finset.sum_insert ha, ← ih]; rfl
theorem V2.fsum_y {ι} (s : Finset ι) (f : ι → V2 ℝ) : (∑ i ∈ s, f i).y = ∑ i ∈ s, (f i).y := by
  classical
  induction s using Finset.induction_on with
  | empty => rfl
  | insert a s ha ih => rw [Finset.sum_insert ha, Finset.sum_insert ha, ← ih]; rfl

theorem V2.fin_injective : Function.Injective V2.fin := by
  intro a b h
  have hx := congrArg V2.x h
  have hy := congrArg V2.y h
  simp only [V2.fin, Num.fin.injEq] at hx hy
  exact V2.ext hx hy

/-- The velocities are determined, and are the sums of the single vortices. -/
theorem own_iff {n : ℕ} (sm ko : ℤ) (w : ℝ → ℝ) (hw : coreFunction sm ko = some w) (Γ : Fin n → ℝ) (c : ℝ)
    (hc : sm = 0 ∨ c ≠ 0) (p u : Fin n → V2 ℝ) :
    OwnVelocities sm ko Γ c p u ↔
      ∀ i, u i = ∑ j, vortexVelocity w (p i) ⟨p j, Γ j, c⟩ := by
  have e := vpsU_eval sm ko w hw (List.ofFn p) (List.ofFn fun j => (⟨p j, Γ j, c⟩ : Vortex))
    (some (List.replicate n c)) (hc.imp id fun h => ⟨by
      rw [List.map_ofFn]; congr 1; exact (List.ofFn_const n c).symm, by
      intro v hv
      rw [List.mem_ofFn] at hv
      obtain ⟨j, rfl⟩ := hv
      exact h⟩)
  have e1 : (List.ofFn fun j => (⟨p j, Γ j, c⟩ : Vortex)).map Vortex.pos = List.ofFn p := by
    rw [List.map_ofFn]; rfl
  have e2 : (List.ofFn fun j => (⟨p j, Γ j, c⟩ : Vortex)).map Vortex.circ = List.ofFn Γ := by
    rw [List.map_ofFn]; rfl
  rw [e1, e2] at e
  have e3 : ((List.ofFn p).map fun q => V2.fin
      ((List.ofFn fun j => (⟨p j, Γ j, c⟩ : Vortex)).map (vortexVelocity w q)).sum)
      = List.ofFn fun i => V2.fin (∑ j, vortexVelocity w (p i) ⟨p j, Γ j, c⟩) := by
    rw [List.map_ofFn]
    congr 1
    funext i
    simp only [Function.comp_def, List.map_ofFn, List.sum_ofFn]
  rw [e3] at e
  unfold OwnVelocities
  rw [e]
  constructor
  · intro h i
    have h1 := List.ofFn_injective (Except.ok.inj h)
    exact (V2.fin_injective (congrFun h1 i)).symm
  · intro h
    simp only [h]

theorem fin_antisymm {n : ℕ} (f : Fin n → Fin n → ℝ) (h : ∀ i j, f i j = - f j i) :
    ∑ i, ∑ j, f i j = 0 := by
  have h1 : ∑ i, ∑ j, f i j = - ∑ i, ∑ j, f i j := by
    conv_lhs => rw [Finset.sum_comm]
    simp only [← Finset.sum_neg_distrib]
    exact Finset.sum_congr rfl fun i _ => Finset.sum_congr rfl fun j _ => h j i
  linarith

theorem own_balance {n : ℕ} (sm ko : ℤ) (hd : coreFunction sm ko ≠ none) (Γ : Fin n → ℝ) (c : ℝ)
    (hc : sm = 0 ∨ c ≠ 0) (p u : Fin n → V2 ℝ) (hu : OwnVelocities sm ko Γ c p u) :
    ∑ i, Γ i * (u i).x = 0 ∧ ∑ i, Γ i * (u i).y = 0 ∧
      ∑ i, Γ i * ((p i).x * (u i).x + (p i).y * (u i).y) = 0 := by
  obtain ⟨w, hw⟩ := Option.ne_none_iff_exists'.mp hd
  have h := (own_iff sm ko w hw Γ c hc p u).mp hu
  simp only [h, V2.fsum_x, V2.fsum_y, Finset.mul_sum, ← Finset.sum_add_distrib]
  refine ⟨?_, ?_, ?_⟩ <;>
  · apply fin_antisymm
    intro i j
    simp only [vortexVelocity]
    have e1 : ((p j).x - (p i).x)^2 + ((p j).y - (p i).y)^2 = ((p i).x - (p j).x)^2 + ((p i).y - (p j).y)^2 := by ring
    rw [e1]
    split_ifs with hr
    · simp
    · ring

/-- Constancy on an open interval. -/
theorem const_of_deriv_zero (f : ℝ → ℝ) (a b : ℝ) (h : ∀ t, a < t → t < b → HasDerivAt f 0 t) (s t : ℝ)
    (hs : a < s ∧ s < b) (ht : a < t ∧ t < b) : f s = f t := by
  refine isOpen_Ioo.is_const_of_deriv_eq_zero (s := Set.Ioo a b) isPreconnected_Ioo ?_ ?_ hs ht
  · intro x hx
    exact (h x hx.1 hx.2).differentiableAt.differentiableWithinAt
  · intro x hx
    exact (h x hx.1 hx.2).deriv

/-- C161: point vortices (any number, any circulations, unsmoothed or with a common core, any
documented kernel) that are carried by the velocities returned by `vps_u` keep their linear
impulse (hence, if the total circulation is not zero, their centre of vorticity) and their
angular impulse for all times, whatever the encounters. -/
theorem C161_impulse {n : ℕ} (sm ko : ℤ) (hd : coreFunction sm ko ≠ none) (Γ : Fin n → ℝ) (c : ℝ)
    (hc : sm = 0 ∨ c ≠ 0) (p : ℝ → Fin n → V2 ℝ) (a b : ℝ) (hp : CarriedOn sm ko Γ c p a b) (s t : ℝ)
    (hs : a < s ∧ s < b) (ht : a < t ∧ t < b) :
    impulse Γ (p s) = impulse Γ (p t) ∧ angularImpulse Γ (p s) = angularImpulse Γ (p t) := by
  refine ⟨Prod.ext ?_ ?_, ?_⟩
  · refine const_of_deriv_zero (fun t => ∑ i, Γ i * (p t i).x) a b (fun t h1 h2 => ?_) s t hs ht
    obtain ⟨u, hu, hder⟩ := hp t h1 h2
    have := HasDerivAt.fun_sum (u := Finset.univ) fun i _ => (hder i).1.const_mul (Γ i)
    rwa [(own_balance sm ko hd Γ c hc _ u hu).1] at this
  · refine const_of_deriv_zero (fun t => ∑ i, Γ i * (p t i).y) a b (fun t h1 h2 => ?_) s t hs ht
    obtain ⟨u, hu, hder⟩ := hp t h1 h2
    have := HasDerivAt.fun_sum (u := Finset.univ) fun i _ => (hder i).2.const_mul (Γ i)
    rwa [(own_balance sm ko hd Γ c hc _ u hu).2.1] at this
  · refine const_of_deriv_zero (fun t => ∑ i, Γ i * ((p t i).x ^ 2 + (p t i).y ^ 2)) a b (fun t h1 h2 => ?_) s t hs ht
    obtain ⟨u, hu, hder⟩ := hp t h1 h2
    have := HasDerivAt.fun_sum (u := Finset.univ) fun i _ =>
      (((hder i).1.fun_pow 2).fun_add ((hder i).2.fun_pow 2)).const_mul (Γ i)
    refine this.congr_deriv ?_
    have e := (own_balance sm ko hd Γ c hc _ u hu).2.2
    calc _ = 2 * ∑ i, Γ i * ((p t i).x * (u i).x + (p t i).y * (u i).y) := by
            rw [Finset.mul_sum]
            exact Finset.sum_congr rfl fun i _ => by push_cast; ring
      _ = 0 := by rw [e]; ring

/-- The rate of change of the interaction energy vanishes. -/
theorem energy_rate {n : ℕ} (Γ : Fin n → ℝ) (p u : Fin n → V2 ℝ) (K : Fin n → Fin n → ℝ)
    (hK : ∀ i j, K i j = K j i)
    (hux : ∀ i, (u i).x = ∑ j, Γ j / (2 * Real.pi) * -((p i).y - (p j).y) * K i j)
    (huy : ∀ i, (u i).y = ∑ j, Γ j / (2 * Real.pi) * ((p i).x - (p j).x) * K i j) :
    ∑ i, ∑ j, Γ i * Γ j * (K i j * (2 * ((p i).x - (p j).x) * ((u i).x - (u j).x)
      + 2 * ((p i).y - (p j).y) * ((u i).y - (u j).y))) = 0 := by
  have hpi : (2 : ℝ) * Real.pi ≠ 0 := by positivity
  have hx : ∀ i, ∑ j, Γ j * ((p i).x - (p j).x) * K i j = 2 * Real.pi * (u i).y := by
    intro i
    rw [huy, Finset.mul_sum]
    exact Finset.sum_congr rfl fun j _ => by field_simp
  have hy : ∀ i, ∑ j, Γ j * ((p i).y - (p j).y) * K i j = -(2 * Real.pi * (u i).x) := by
    intro i
    rw [hux, Finset.mul_sum, ← Finset.sum_neg_distrib]
    exact Finset.sum_congr rfl fun j _ => by field_simp
  have hhalf : ∑ i, ∑ j, Γ i * Γ j * K i j * (((p i).x - (p j).x) * (u i).x + ((p i).y - (p j).y) * (u i).y) = 0 := by
    apply Finset.sum_eq_zero
    intro i _
    calc _ = Γ i * ((u i).x * ∑ j, Γ j * ((p i).x - (p j).x) * K i j)
            + Γ i * ((u i).y * ∑ j, Γ j * ((p i).y - (p j).y) * K i j) := by
            rw [Finset.mul_sum, Finset.mul_sum, Finset.mul_sum, Finset.mul_sum, ← Finset.sum_add_distrib]
            exact Finset.sum_congr rfl fun j _ => by ring
      _ = 0 := by rw [hx, hy]; ring
  have hswap : ∑ i, ∑ j, Γ i * Γ j * K i j * (((p i).x - (p j).x) * (u j).x + ((p i).y - (p j).y) * (u j).y)
      = - ∑ i, ∑ j, Γ i * Γ j * K i j * (((p i).x - (p j).x) * (u i).x + ((p i).y - (p j).y) * (u i).y) := by
    rw [Finset.sum_comm]
    simp only [← Finset.sum_neg_distrib]
    exact Finset.sum_congr rfl fun i _ => Finset.sum_congr rfl fun j _ => by rw [hK j i]; ring
  calc _ = 2 * ((∑ i, ∑ j, Γ i * Γ j * K i j * (((p i).x - (p j).x) * (u i).x + ((p i).y - (p j).y) * (u i).y))
        - ∑ i, ∑ j, Γ i * Γ j * K i j * (((p i).x - (p j).x) * (u j).x + ((p i).y - (p j).y) * (u j).y)) := by
        simp only [← Finset.sum_sub_distrib, Finset.mul_sum]
        exact Finset.sum_congr rfl fun i _ => Finset.sum_congr rfl fun j _ => by ring
    _ = 0 := by rw [hswap, hhalf]; ring

/-- C161: as long as no two vortices come within the cut-off distance (`√1e-15`) of the code, they
also keep their interaction energy `Σ_{i≠j} Γᵢ Γⱼ F(|xᵢ-xⱼ|²)`, for the pair potential `F` of the
selected kernel, i.e. every `F` with `F'(q) = w(q/c²)/q`, `w` being the fraction of the
circulation inside of the distance `√q`. -/
theorem C161_energy {n : ℕ} (sm ko : ℤ) (w : ℝ → ℝ) (hw : coreFunction sm ko = some w) (Γ : Fin n → ℝ) (c : ℝ)
    (hc : sm = 0 ∨ c ≠ 0) (F : ℝ → ℝ) (hF : ∀ q, 0 < q → HasDerivAt F (w (q / c ^ 2) / q) q)
    (p : ℝ → Fin n → V2 ℝ) (a b : ℝ) (hp : CarriedOn sm ko Γ c p a b)
    (hapart : ∀ t, a < t → t < b → ∀ i j, i ≠ j → 1e-15 ≤ gap2 (p t i) (p t j)) (s t : ℝ)
    (hs : a < s ∧ s < b) (ht : a < t ∧ t < b) :
    interaction F Γ (p s) = interaction F Γ (p t) := by
  refine const_of_deriv_zero (fun t => interaction F Γ (p t)) a b (fun t h1 h2 => ?_) s t hs ht
  obtain ⟨u, hu, hder⟩ := hp t h1 h2
  have h := (own_iff sm ko w hw Γ c hc _ u).mp hu
  set K : Fin n → Fin n → ℝ := fun i j =>
    if i = j then 0 else w (gap2 (p t i) (p t j) / c ^ 2) / gap2 (p t i) (p t j) with hKdef
  have hpos : ∀ i j, i ≠ j → 0 < gap2 (p t i) (p t j) := fun i j hij =>
    lt_of_lt_of_le (by norm_num) (hapart t h1 h2 i j hij)
  have hd : ∀ i j, HasDerivAt (fun t => if i = j then 0 else Γ i * Γ j * F (gap2 (p t i) (p t j)))
      (Γ i * Γ j * (K i j * (2 * ((p t i).x - (p t j).x) * ((u i).x - (u j).x)
      + 2 * ((p t i).y - (p t j).y) * ((u i).y - (u j).y)))) t := by
    intro i j
    by_cases hij : i = j
    · simp only [hij, if_true, hKdef, sub_self, mul_zero, add_zero]
      exact hasDerivAt_const t 0
    · simp only [hij, if_false, hKdef]
      have hdist : HasDerivAt (fun t => gap2 (p t i) (p t j))
          (2 * ((p t i).x - (p t j).x) * ((u i).x - (u j).x)
            + 2 * ((p t i).y - (p t j).y) * ((u i).y - (u j).y)) t := by
        have e := ((((hder i).1.fun_sub (hder j).1).fun_pow 2).fun_add (((hder i).2.fun_sub (hder j).2).fun_pow 2))
        refine e.congr_deriv ?_
        push_cast; ring
      exact ((hF _ (hpos i j hij)).comp t hdist).const_mul _
  have hsum := HasDerivAt.fun_sum (u := Finset.univ) fun i _ =>
    HasDerivAt.fun_sum (u := Finset.univ) fun j _ => hd i j
  refine hsum.congr_deriv ?_
  apply energy_rate Γ (p t) u K
  · intro i j
    have e : gap2 (p t i) (p t j) = gap2 (p t j) (p t i) := by simp only [gap2]; ring
    simp only [hKdef, e, eq_comm]
  · intro i
    rw [h i, V2.fsum_x]
    refine Finset.sum_congr rfl fun j _ => ?_
    by_cases hij : i = j
    · subst hij
      simp [vortexVelocity, hKdef]
    · have hlt : ¬ ((p t i).x - (p t j).x)^2 + ((p t i).y - (p t j).y)^2 < 1e-15 := not_lt.mpr (hapart t h1 h2 i j hij)
      simp only [vortexVelocity, hlt, if_false, hKdef, hij, gap2]
      ring
  · intro i
    rw [h i, V2.fsum_y]
    refine Finset.sum_congr rfl fun j _ => ?_
    by_cases hij : i = j
    · subst hij
      simp [vortexVelocity, hKdef]
    · have hlt : ¬ ((p t i).x - (p t j).x)^2 + ((p t i).y - (p t j).y)^2 < 1e-15 := not_lt.mpr (hapart t h1 h2 i j hij)
      simp only [vortexVelocity, hlt, if_false, hKdef, hij, gap2]
      ring

/-- C161: for the unsmoothed vortices the pair potential is the logarithm (Kirchhoff's energy). -/
theorem C161_kirchhoff {n : ℕ} (ko : ℤ) (Γ : Fin n → ℝ) (c : ℝ) (p : ℝ → Fin n → V2 ℝ) (a b : ℝ)
    (hp : CarriedOn 0 ko Γ c p a b)
    (hapart : ∀ t, a < t → t < b → ∀ i j, i ≠ j → 1e-15 ≤ gap2 (p t i) (p t j)) (s t : ℝ)
    (hs : a < s ∧ s < b) (ht : a < t ∧ t < b) :
    interaction Real.log Γ (p s) = interaction Real.log Γ (p t) :=
  C161_energy 0 ko (fun _ => 1) (by simp [coreFunction]) Γ c (Or.inl rfl) Real.log
    (fun q hq => by simpa using Real.hasDerivAt_log hq.ne') p a b hp hapart s t hs ht

/-- C161: for every documented kernel there is a pair potential. -/
theorem C161_potential (sm ko : ℤ) (w : ℝ → ℝ) (hw : coreFunction sm ko = some w) (c : ℝ) :
    ∃ F : ℝ → ℝ, ∀ q, 0 < q → HasDerivAt F (w (q / c ^ 2) / q) q := by
  have hcont : Continuous w := by
    unfold coreFunction at hw
    split_ifs at hw <;> (simp only [Option.some.injEq] at hw; subst hw)
    all_goals first | fun_prop | (unfold laguerre; fun_prop)
  refine ⟨fun q => ∫ y in (1:ℝ)..q, w (y / c ^ 2) / y, fun q hq => ?_⟩
  have hc : ∀ y : ℝ, 0 < y → ContinuousAt (fun y => w (y / c ^ 2) / y) y := fun y hy =>
    (hcont.continuousAt.comp (continuousAt_id.div_const _)).div continuousAt_id hy.ne'
  have hsm : ContinuousOn (fun y => w (y / c ^ 2) / y) (Set.Ioi 0) := fun y hy => (hc y hy).continuousWithinAt
  apply intervalIntegral.integral_hasDerivAt_right
  · apply ContinuousOn.intervalIntegrable
    apply hsm.mono
    intro y hy
    exact lt_of_lt_of_le (lt_min one_pos hq) (Set.mem_uIcc.mp hy |>.elim (fun h => (min_le_left _ _).trans h.1)
      (fun h => (min_le_right _ _).trans h.1))
  · exact hsm.stronglyMeasurableAtFilter isOpen_Ioi q hq
  · exact hc q hq

/-- C161, time stepping: with the explicit Euler method, whatever the number and the sizes of the
time steps (also negative or zero ones), the linear impulse is kept exactly; the angular impulse
is not, and for circulations of one sign it never decreases: the computed vortices spiral
outwards. -/
theorem C161_euler {n : ℕ} (sm ko : ℤ) (hd : coreFunction sm ko ≠ none) (Γ : Fin n → ℝ) (c : ℝ)
    (hc : sm = 0 ∨ c ≠ 0) (dts : List ℝ) (p q : Fin n → V2 ℝ) (hr : EulerRun sm ko Γ c dts p q) :
    impulse Γ q = impulse Γ p ∧ ((∀ i, 0 ≤ Γ i) → angularImpulse Γ p ≤ angularImpulse Γ q) := by
  induction hr with
  | done p => exact ⟨rfl, fun _ => le_refl _⟩
  | step dt dts p u q hu hr ih =>
    obtain ⟨b1, b2, b3⟩ := own_balance sm ko hd Γ c hc p u hu
    obtain ⟨i1, i2⟩ := ih
    constructor
    · rw [i1]
      unfold impulse
      congr 1
      · calc ∑ i, Γ i * ((p i).x + dt * (u i).x) = (∑ i, Γ i * (p i).x) + dt * ∑ i, Γ i * (u i).x := by
              rw [Finset.mul_sum, ← Finset.sum_add_distrib]; exact Finset.sum_congr rfl fun i _ => by ring
          _ = _ := by rw [b1]; ring
      · calc ∑ i, Γ i * ((p i).y + dt * (u i).y) = (∑ i, Γ i * (p i).y) + dt * ∑ i, Γ i * (u i).y := by
              rw [Finset.mul_sum, ← Finset.sum_add_distrib]; exact Finset.sum_congr rfl fun i _ => by ring
          _ = _ := by rw [b2]; ring
    · intro hpos
      refine le_trans ?_ (i2 hpos)
      have e : angularImpulse Γ (fun i => ⟨(p i).x + dt * (u i).x, (p i).y + dt * (u i).y⟩)
          = angularImpulse Γ p + 2 * dt * (∑ i, Γ i * ((p i).x * (u i).x + (p i).y * (u i).y))
            + dt ^ 2 * ∑ i, Γ i * ((u i).x ^ 2 + (u i).y ^ 2) := by
        unfold angularImpulse
        rw [Finset.mul_sum, Finset.mul_sum, ← Finset.sum_add_distrib, ← Finset.sum_add_distrib]
        exact Finset.sum_congr rfl fun i _ => by ring
      rw [e, b3]
      have : 0 ≤ ∑ i, Γ i * ((u i).x ^ 2 + (u i).y ^ 2) :=
        Finset.sum_nonneg fun i _ => mul_nonneg (hpos i) (by positivity)
      have h2 : 0 ≤ dt ^ 2 * ∑ i, Γ i * ((u i).x ^ 2 + (u i).y ^ 2) := mul_nonneg (sq_nonneg _) this
      linarith

/-- C161: the Euler method never fails: every starting point and every list of steps has a run. -/
theorem C161_euler_total {n : ℕ} (sm ko : ℤ) (hd : coreFunction sm ko ≠ none) (Γ : Fin n → ℝ) (c : ℝ)
    (hc : sm = 0 ∨ c ≠ 0) (dts : List ℝ) (p : Fin n → V2 ℝ) : ∃ q, EulerRun sm ko Γ c dts p q := by
  obtain ⟨w, hw⟩ := Option.ne_none_iff_exists'.mp hd
  induction dts generalizing p with
  | nil => exact ⟨p, .done p⟩
  | cons dt dts ih =>
    obtain ⟨q, hq⟩ := ih (fun i => ⟨(p i).x + dt * (∑ j, vortexVelocity w (p i) ⟨p j, Γ j, c⟩).x,
      (p i).y + dt * (∑ j, vortexVelocity w (p i) ⟨p j, Γ j, c⟩).y⟩)
    exact ⟨q, .step dt dts p _ q ((own_iff sm ko w hw Γ c hc p _).mpr fun i => rfl) hq⟩

/-- Two equal vortices turn around their centre; this is a motion to which the theorems apply. -/
theorem C161_pair (ko : ℤ) (c a b : ℝ) :
    CarriedOn 0 ko (fun _ : Fin 2 => 4 * Real.pi) c
      (fun t => ![⟨Real.cos t, Real.sin t⟩, ⟨-Real.cos t, -Real.sin t⟩]) a b ∧
    ∀ t : ℝ, ∀ i j : Fin 2, i ≠ j → 1e-15 ≤
      gap2 ((![⟨Real.cos t, Real.sin t⟩, ⟨-Real.cos t, -Real.sin t⟩] : Fin 2 → V2 ℝ) i)
        ((![⟨Real.cos t, Real.sin t⟩, ⟨-Real.cos t, -Real.sin t⟩] : Fin 2 → V2 ℝ) j) := by
  have hpi : Real.pi ≠ 0 := Real.pi_ne_zero
  constructor
  · intro t _ _
    refine ⟨![⟨-Real.sin t, Real.cos t⟩, ⟨Real.sin t, -Real.cos t⟩], ?_, ?_⟩
    · rw [own_iff 0 ko (fun _ => 1) (by simp [coreFunction]) _ _ (Or.inl rfl)]
      have h0 : ∀ p : V2 ℝ, vortexVelocity (fun _ => 1) p ⟨p, 4 * Real.pi, c⟩ = ⟨0, 0⟩ := by
        intro p; simp [vortexVelocity]
      have hv : ∀ p q : V2 ℝ, (p.x - q.x)^2 + (p.y - q.y)^2 = 4 →
          vortexVelocity (fun _ => 1) p ⟨q, 4 * Real.pi, c⟩ = ⟨-(p.y - q.y) / 2, (p.x - q.x) / 2⟩ := by
        intro p q h
        simp only [vortexVelocity, h, show ¬ (4:ℝ) < 1e-15 by norm_num, if_false]
        ext
        · simp only; field_simp
        · simp only; field_simp
      have q1 : (Real.cos t - -Real.cos t)^2 + (Real.sin t - -Real.sin t)^2 = 4 := by
        nlinarith [Real.sin_sq_add_cos_sq t]
      have q2 : (-Real.cos t - Real.cos t)^2 + (-Real.sin t - Real.sin t)^2 = 4 := by
        nlinarith [Real.sin_sq_add_cos_sq t]
      have v1 := hv ⟨Real.cos t, Real.sin t⟩ ⟨-Real.cos t, -Real.sin t⟩ q1
      have v2 := hv ⟨-Real.cos t, -Real.sin t⟩ ⟨Real.cos t, Real.sin t⟩ q2
      intro i
      fin_cases i
      · rw [Fin.sum_univ_two]
        simp only [Fin.zero_eta, Matrix.cons_val_zero, Matrix.cons_val_one, h0, v1]
        ext <;> simp
      · rw [Fin.sum_univ_two]
        simp only [Fin.mk_one, Matrix.cons_val_zero, Matrix.cons_val_one, h0, v2]
        ext <;> simp; ring
    · intro i
      fin_cases i
      · exact ⟨Real.hasDerivAt_cos t, Real.hasDerivAt_sin t⟩
      · refine ⟨?_, (Real.hasDerivAt_sin t).neg⟩
        have := (Real.hasDerivAt_cos t).neg
        rw [neg_neg] at this
        exact this
  · intro t i j hij
    have h4 : (1e-15 : ℝ) ≤ 4 := by norm_num
    fin_cases i <;> fin_cases j
    · exact absurd rfl hij
    · refine h4.trans (le_of_eq ?_)
      simp [gap2]; nlinarith [Real.sin_sq_add_cos_sq t]
    · refine h4.trans (le_of_eq ?_)
      simp [gap2]; nlinarith [Real.sin_sq_add_cos_sq t]
    · exact absurd rfl hij

end Wiz
