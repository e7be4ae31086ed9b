import Verif.Props.RowResolution
import Mathlib.MeasureTheory.Integral.IntervalIntegral.FundThmCalculus
import Mathlib.Analysis.SpecialFunctions.Sqrt
/-! # C158: refining the spanwise discretisation, the velocity on the shaft converges to that of the continuous loading -/
set_option autoImplicit false
namespace Wiz
open Spec Classical Real
noncomputable section

/-- summation by parts -/
theorem abel_sum (m : ℕ) (A f : ℕ → ℝ) : ∑ j ∈ Finset.range (m+1), (A j - (if j = m then 0 else A (j+1))) * f j = A 0 * f 0 + ∑ j ∈ Finset.range m, A (j+1) * (f (j+1) - f j) := by
  have h : ∀ m, ∑ j ∈ Finset.range m, (A j - A (j+1)) * f j + A m * f m = A 0 * f 0 + ∑ j ∈ Finset.range m, A (j+1) * (f (j+1) - f j) := by
    intro m
    induction m with
    | zero => simp
    | succ m ih => rw [Finset.sum_range_succ, Finset.sum_range_succ]; linear_combination ih
  rw [← h m, Finset.sum_range_succ, if_pos rfl, sub_zero]
  congr 1
  apply Finset.sum_congr rfl
  intro j hj
  rw [if_neg (by have := Finset.mem_range.1 hj; omega)]

/-- the integral of `g` against the derivative of a monotone `f`, by a step function `A` close to `g` -/
theorem step_quadrature (m : ℕ) (x A : ℕ → ℝ) (g f f' : ℝ → ℝ) (δ : ℝ) (hx : ∀ j < m, x j ≤ x (j+1)) (hd : ∀ y ∈ Set.Icc (x 0) (x m), HasDerivAt f (f' y) y)
    (hs : (∀ y ∈ Set.Icc (x 0) (x m), 0 ≤ f' y) ∨ ∀ y ∈ Set.Icc (x 0) (x m), f' y ≤ 0) (hf : ContinuousOn f' (Set.Icc (x 0) (x m))) (hg : ContinuousOn g (Set.Icc (x 0) (x m)))
    (hA : ∀ j < m, ∀ y, x j ≤ y → y ≤ x (j+1) → |A (j+1) - g y| ≤ δ) :
    |∑ j ∈ Finset.range m, A (j+1) * (f (x (j+1)) - f (x j)) - ∫ y in (x 0)..(x m), g y * f' y| ≤ δ * |f (x m) - f (x 0)| := by
  have hmono : ∀ i j, i ≤ j → j ≤ m → x i ≤ x j := by
    intro i j hij
    induction j, hij using Nat.le_induction with
    | base => intro _; exact le_rfl
    | succ j _ ih => intro hj; exact (ih (by omega)).trans (hx j (by omega))
  have hsub : ∀ j < m, Set.Icc (x j) (x (j+1)) ⊆ Set.Icc (x 0) (x m) := fun j hj => Set.Icc_subset_Icc (hmono 0 j (by omega) (by omega)) (hmono (j+1) m (by omega) le_rfl)
  have hu : ∀ j < m, Set.uIcc (x j) (x (j+1)) = Set.Icc (x j) (x (j+1)) := fun j hj => Set.uIcc_of_le (hx j hj)
  have hint : ∀ j < m, IntervalIntegrable (fun y => g y * f' y) MeasureTheory.volume (x j) (x (j+1)) := by
    intro j hj
    apply ContinuousOn.intervalIntegrable
    rw [hu j hj]
    exact (hg.mul hf).mono (hsub j hj)
  have hfi : ∀ j < m, IntervalIntegrable f' MeasureTheory.volume (x j) (x (j+1)) := by
    intro j hj
    apply ContinuousOn.intervalIntegrable
    rw [hu j hj]
    exact hf.mono (hsub j hj)
  have hftc : ∀ j < m, ∫ y in (x j)..(x (j+1)), f' y = f (x (j+1)) - f (x j) := by
    intro j hj
    apply intervalIntegral.integral_eq_sub_of_hasDerivAt _ (hfi j hj)
    intro y hy
    rw [hu j hj] at hy
    exact hd y (hsub j hj hy)
  have hone : ∀ j < m, |A (j+1) * (f (x (j+1)) - f (x j)) - ∫ y in (x j)..(x (j+1)), g y * f' y| ≤ δ * |f (x (j+1)) - f (x j)| := by
    intro j hj
    have e : A (j+1) * (f (x (j+1)) - f (x j)) - ∫ y in (x j)..(x (j+1)), g y * f' y = ∫ y in (x j)..(x (j+1)), (A (j+1) - g y) * f' y := by
      rw [← hftc j hj, ← intervalIntegral.integral_const_mul, ← intervalIntegral.integral_sub ((hfi j hj).const_mul _) (hint j hj)]
      apply intervalIntegral.integral_congr
      intro y _
      change A (j+1) * f' y - g y * f' y = _
      ring
    have e2 : ∫ y in (x j)..(x (j+1)), δ * |f' y| = δ * |f (x (j+1)) - f (x j)| := by
      rw [intervalIntegral.integral_const_mul, ← hftc j hj]
      congr 1
      rcases hs with h | h
      · rw [abs_of_nonneg (intervalIntegral.integral_nonneg (hx j hj) fun y hy => h y (hsub j hj hy))]
        apply intervalIntegral.integral_congr
        intro y hy
        rw [hu j hj] at hy
        exact abs_of_nonneg (h y (hsub j hj hy))
      · have hneg : ∫ y in (x j)..(x (j+1)), |f' y| = -∫ y in (x j)..(x (j+1)), f' y := by
          rw [← intervalIntegral.integral_neg]
          apply intervalIntegral.integral_congr
          intro y hy
          rw [hu j hj] at hy
          exact abs_of_nonpos (h y (hsub j hj hy))
        have h0 : 0 ≤ ∫ y in (x j)..(x (j+1)), |f' y| := intervalIntegral.integral_nonneg (hx j hj) fun y _ => abs_nonneg _
        rw [hneg]
        rw [hneg] at h0
        rw [abs_of_nonpos (by linarith)]
    rw [e, ← e2, ← Real.norm_eq_abs]
    apply intervalIntegral.norm_integral_le_of_norm_le (hx j hj)
    · refine Filter.Eventually.of_forall fun y hy => ?_
      rw [Real.norm_eq_abs, abs_mul]
      exact mul_le_mul_of_nonneg_right (hA j hj y hy.1.le hy.2) (abs_nonneg _)
    · exact ((hfi j hj).abs).const_mul _
  have hsum : ∫ y in (x 0)..(x m), g y * f' y = ∑ j ∈ Finset.range m, ∫ y in (x j)..(x (j+1)), g y * f' y :=
    (intervalIntegral.sum_integral_adjacent_intervals hint).symm
  -- total variation
  have hmf : ∀ j < m, (∀ y ∈ Set.Icc (x 0) (x m), 0 ≤ f' y) → f (x j) ≤ f (x (j+1)) := by
    intro j hj h
    have := intervalIntegral.integral_nonneg (μ := MeasureTheory.volume) (hx j hj) fun y hy => h y (hsub j hj hy)
    rw [hftc j hj] at this
    linarith
  have hmf' : ∀ j < m, (∀ y ∈ Set.Icc (x 0) (x m), f' y ≤ 0) → f (x (j+1)) ≤ f (x j) := by
    intro j hj h
    have := intervalIntegral.integral_nonneg (μ := MeasureTheory.volume) (f := fun y => -f' y) (hx j hj) fun y hy => neg_nonneg.2 (h y (hsub j hj hy))
    rw [intervalIntegral.integral_neg, hftc j hj] at this
    linarith
  have htv : ∑ j ∈ Finset.range m, |f (x (j+1)) - f (x j)| = |f (x m) - f (x 0)| := by
    have tel := Finset.sum_range_sub (fun j => f (x j)) m
    rcases hs with h | h
    · have : ∑ j ∈ Finset.range m, |f (x (j+1)) - f (x j)| = ∑ j ∈ Finset.range m, (f (x (j+1)) - f (x j)) := by
        apply Finset.sum_congr rfl
        intro j hj
        exact abs_of_nonneg (sub_nonneg.2 (hmf j (Finset.mem_range.1 hj) h))
      rw [this]
      refine tel.trans (abs_of_nonneg ?_).symm
      rw [← tel]
      exact Finset.sum_nonneg fun j hj => sub_nonneg.2 (hmf j (Finset.mem_range.1 hj) h)
    · have : ∑ j ∈ Finset.range m, |f (x (j+1)) - f (x j)| = -∑ j ∈ Finset.range m, (f (x (j+1)) - f (x j)) := by
        rw [← Finset.sum_neg_distrib]
        apply Finset.sum_congr rfl
        intro j hj
        exact abs_of_nonpos (sub_nonpos.2 (hmf' j (Finset.mem_range.1 hj) h))
      rw [this]
      have h1 : f (x m) - f (x 0) ≤ 0 := by
        rw [← tel]
        exact Finset.sum_nonpos fun j hj => sub_nonpos.2 (hmf' j (Finset.mem_range.1 hj) h)
      rw [abs_of_nonpos h1]
      exact congrArg Neg.neg tel
  rw [hsum, ← htv, Finset.mul_sum, ← Finset.sum_sub_distrib]
  exact (Finset.abs_sum_le_sum_abs _ _).trans (Finset.sum_le_sum fun j hj => hone j (Finset.mem_range.1 hj))

/-- jumps `A j - A (j+1)` of a distribution `A` close to `g`, weighted by `f`, against the integral of `g` against the derivative of `f` -/
theorem abel_quadrature (m : ℕ) (x A : ℕ → ℝ) (g f f' : ℝ → ℝ) (δ : ℝ) (hx : ∀ j < m, x j ≤ x (j+1)) (hd : ∀ y ∈ Set.Icc (x 0) (x m), HasDerivAt f (f' y) y)
    (hs : (∀ y ∈ Set.Icc (x 0) (x m), 0 ≤ f' y) ∨ ∀ y ∈ Set.Icc (x 0) (x m), f' y ≤ 0) (hf : ContinuousOn f' (Set.Icc (x 0) (x m))) (hg : ContinuousOn g (Set.Icc (x 0) (x m)))
    (hA0 : |A 0 - g (x 0)| ≤ δ) (hA : ∀ j < m, ∀ y, x j ≤ y → y ≤ x (j+1) → |A (j+1) - g y| ≤ δ) :
    |∑ j ∈ Finset.range (m+1), (A j - (if j = m then 0 else A (j+1))) * f (x j) - (g (x 0) * f (x 0) + ∫ y in (x 0)..(x m), g y * f' y)| ≤ δ * (|f (x 0)| + |f (x m) - f (x 0)|) := by
  have key := step_quadrature m x A g f f' δ hx hd hs hf hg hA
  rw [abel_sum m A (fun j => f (x j))]
  have e : A 0 * f (x 0) + ∑ j ∈ Finset.range m, A (j+1) * (f (x (j+1)) - f (x j)) - (g (x 0) * f (x 0) + ∫ y in (x 0)..(x m), g y * f' y) =
      (A 0 - g (x 0)) * f (x 0) + (∑ j ∈ Finset.range m, A (j+1) * (f (x (j+1)) - f (x j)) - ∫ y in (x 0)..(x m), g y * f' y) := by ring
  rw [e, mul_add]
  refine (abs_add_le _ _).trans (add_le_add ?_ key)
  rw [abs_mul]
  exact mul_le_mul_of_nonneg_right hA0 (abs_nonneg _)

/-- the induction of two thrust coefficients -/
theorem induction_lipschitz (c e C : ℝ) (hC : C < 1) (hc : c ≤ C) (he : e ≤ 1) : |(1 - √(1 - e))/2 - (1 - √(1 - c))/2| ≤ |e - c| / (2 * √(1 - C)) := by
  have h0 : 0 < √(1 - C) := sqrt_pos.2 (by linarith)
  have h1 : √(1 - C) ≤ √(1 - c) := sqrt_le_sqrt (by linarith)
  have h2 := sqrt_nonneg (1 - e)
  have s1 := sq_sqrt (show 0 ≤ 1 - c by linarith)
  have s2 := sq_sqrt (show 0 ≤ 1 - e by linarith)
  rw [le_div_iff₀ (by positivity), show (1 - √(1 - e))/2 - (1 - √(1 - c))/2 = (√(1 - c) - √(1 - e))/2 by ring, abs_div, abs_of_pos (two_pos : (0:ℝ) < 2)]
  have e1 : e - c = (√(1 - c) - √(1 - e)) * (√(1 - c) + √(1 - e)) := by
    have : (√(1 - c) - √(1 - e)) * (√(1 - c) + √(1 - e)) = √(1-c)^2 - √(1-e)^2 := by ring
    rw [this, s1, s2]; ring
  rw [e1, abs_mul, abs_of_pos (show 0 < √(1 - c) + √(1 - e) by linarith)]
  have := abs_nonneg (√(1 - c) - √(1 - e))
  nlinarith

theorem spread_deviation (n : ℕ) (hn : 2 ≤ n) (R : ℝ) (hR : 0 < R) (x : ℕ → ℝ) (hx : ∀ i, x i = (0.005 + i * (0.99 / ((n:ℝ) - 1))) * R) (T : ℝ → ℝ) (C V Ω : ℝ) (hΩ : 0 < Ω)
    (hTC : ∀ y, 0.005 * R ≤ y → y ≤ 0.995 * R → 0 ≤ T y ∧ T y ≤ C) :
    ∀ k < n, |ctNoSwirl n x (fun i => T (x i)) R V Ω k - T (x k)| ≤ V^2 * C^2/(16*π*Ω^3*(0.005*R + 0.495*R/((n:ℝ)-1))^2) := by
  have hn1 : (0:ℝ) < (n:ℝ) - 1 := by
    have : (2:ℝ) ≤ n := by exact_mod_cast hn
    linarith
  obtain ⟨hx0, hinc, hxe, hxl, hxm, hxs⟩ := spread_stations n hn R hR x hx
  obtain ⟨o1, o2⟩ := rcyl_outside n x R hn hinc
  have hpi := pi_pos
  have hb := ctNoSwirl_bounds n x (fun i => T (x i)) R V Ω C hΩ hn hx0 hinc (fun i hi => hTC _ (hxm i hi).1 (hxm i hi).2)
  have hrc0 : ∀ k < n, 0.005*R + 0.495*R/((n:ℝ)-1) ≤ rcyl n x R k := by
    have e0 : rcyl n x R 0 = 0.005*R + 0.495*R/((n:ℝ)-1) := by
      have := hxs 1 one_pos
      simp only [Nat.sub_self] at this
      unfold rcyl
      rw [if_neg (by omega), if_neg (by omega), zero_add]
      have h2 : 0.495*R/((n:ℝ)-1) = (0.99 * R / ((n:ℝ) - 1))/2 := by ring
      rw [h2]
      linarith
    intro k
    induction k with
    | zero => intro _; rw [e0]
    | succ k ih => intro hk; exact (ih (by omega)).trans (o2 k hk).le
  intro k hk
  obtain ⟨h1, h2⟩ := hb k hk
  obtain ⟨t0, t1⟩ := hTC _ (hxm k hk).1 (hxm k hk).2
  have hr := hrc0 k hk
  have g1 : V^2 * (T (x k))^2/(16*π*Ω^3*(rcyl n x R k)^2) ≤ V^2 * C^2/(16*π*Ω^3*(0.005*R + 0.495*R/((n:ℝ)-1))^2) := by gcongr
  have g2 : V^2 * C^2/(16*π*Ω^3*(rcyl n x R k)^2) ≤ V^2 * C^2/(16*π*Ω^3*(0.005*R + 0.495*R/((n:ℝ)-1))^2) := by gcongr
  rw [abs_le]
  constructor <;> linarith

/-- the weight of a cylinder of radius `y` on the shaft, its derivative and its bounds -/
theorem shaft_weight (z : ℝ) : (∀ y > 0, HasDerivAt (fun y => 1 + z/√(z^2 + y^2)) (-(z * y)/√(z^2 + y^2)^3) y) ∧
    ∀ y0 y1, 0 < y0 → y0 ≤ y1 → |1 + z/√(z^2 + y0^2)| + |(1 + z/√(z^2 + y1^2)) - (1 + z/√(z^2 + y0^2))| ≤ 3 := by
  constructor
  · intro y hy
    have hpos : 0 < z^2 + y^2 := by positivity
    have h0 : HasDerivAt (fun y : ℝ => z^2 + y^2) (2 * y) y := by
      have := (hasDerivAt_pow 2 y).const_add (z^2)
      exact this.congr_deriv (by norm_num)
    have h1 := h0.sqrt hpos.ne'
    have hq : 0 < √(z^2 + y^2) := sqrt_pos.2 hpos
    have h2 := ((hasDerivAt_const y z).fun_div h1 hq.ne').const_add 1
    refine h2.congr_deriv ?_
    field_simp
    ring
  · intro y0 y1 h0 h1
    have hq : ∀ y : ℝ, 0 < y → |z/√(z^2 + y^2)| ≤ 1 := by
      intro y hy
      have hpos : 0 < √(z^2 + y^2) := sqrt_pos.2 (by positivity)
      rw [abs_div, abs_of_pos hpos, div_le_one hpos]
      exact Real.abs_le_sqrt (by nlinarith)
    have b0 := abs_le.1 (hq y0 h0)
    have b1 := abs_le.1 (hq y1 (by linarith))
    have hs : √(z^2 + y0^2) ≤ √(z^2 + y1^2) := sqrt_le_sqrt (by nlinarith)
    have hp0 : 0 < √(z^2 + y0^2) := sqrt_pos.2 (by positivity)
    rcases le_total 0 z with hz | hz
    · have : z/√(z^2 + y1^2) ≤ z/√(z^2 + y0^2) := by gcongr
      have h3 : 0 ≤ z/√(z^2 + y1^2) := by positivity
      rw [abs_of_nonneg (by linarith), abs_of_nonpos (by linarith)]
      linarith
    · have : z/√(z^2 + y0^2) ≤ z/√(z^2 + y1^2) := by
        have : -z/√(z^2 + y1^2) ≤ -z/√(z^2 + y0^2) := by
          have : 0 ≤ -z := by linarith
          gcongr
        rw [neg_div, neg_div] at this
        linarith
      rw [abs_of_nonneg (by linarith), abs_of_nonneg (by linarith)]
      linarith

/-- C158: a turbine loaded with thrust coefficients given at any radii (piecewise-linear function `T` through them, `0 ≤ T ≤ C ≤ Ctc`, Lipschitz constant `S`), spread by the program over `nCyl=n≥2` stations,
tip-speed ratio of 20 or more, or infinite.  On the shaft, at any signed distance `z` from the rotor, the velocity is along the shaft and it is that of the continuous loading - the induction
`a(r) = (1-√(1-T(r)))/2` of each annulus `dr` times `z r/(z²+r²)^{3/2} dr`, plus the disk inside of the first station - within a bound that decreases like `1/(n-1)` to the convection term. -/
theorem C158_shaft (mini : (ℝ → Num) → ℝ) (R : ℝ) (hub shaft vert U0 : V3 ℝ) (L : Option Num) (gr : Bool)
    (M : String) (ho : Orthonormal shaft vert) (hR : 0 < R) (h : List Op) (pts : List (V3 ℝ)) (hp : pts ≠ []) (o : Opts) (hnw : o.no_wake = false)
    (hlo : o.longi = false) (hro : o.root = false) (hta : o.tang = true)
    (n : ℕ) (hn : 2 ≤ n) (r Ct : List ℝ) (hr : r ≠ []) (hincr : r.Pairwise (· < ·)) (hlen : Ct.length = r.length) (T : ℝ → ℝ) (hT : Interpolates r Ct T)
    (C S : ℝ) (hC : C ≤ Ctc) (hTC : ∀ y, 0.005 * R ≤ y → y ≤ 0.995 * R → 0 ≤ T y ∧ T y ≤ C)
    (hS : ∀ y z, 0.005 * R ≤ y → y ≤ z → z ≤ 0.995 * R → |T z - T y| ≤ S * (z - y)) (Λ : Num) (Ω V : ℝ) :
    let a : LoadArgs := { r := some r, Ct := some (Ct.map .fin), Lambda := some Λ, nCyl := some n }
    let w := (WT.new R hub shaft vert U0 L gr M).run mini (h ++ [.loading a])
    let s := w.e_shaft_g
    let ind := fun y => (1 - √(1 - T y))/2
    V = V3.norm w.U0_g → 0 < V → ((∃ lam, Λ = .fin lam ∧ Ω = lam * V / R) ∨ Λ = .pinf ∧ Ω = 800) → 20 ≤ Ω * R / V →
    C + V^2 * C^2/(16*π*Ω^3*(0.005*R + 0.495*R/((n:ℝ)-1))^2) ≤ 1 →
    o.ground.getD w.Ground = false → o.Model.getD w.Model = "VC" →
    ∀ chi, (w.computeU pts o).2.chi = some chi → ¬ (Num.fin 1e-7 < Num.abs chi) →
    ∃ u, (w.computeU pts o).1 = .ok u ∧ ∀ (i : ℕ) (p : V3 ℝ) (z : ℝ), pts[i]? = some p → p = w.r_hub + V3.smul z s → ∃ v k, u[i]? = some (V3.fin v) ∧
      v - (if o.only_ind then 0 else w.U0_g) = V3.smul (-(V * k)) s ∧
      |k - (ind (0.005*R) * (1 + z/√(z^2 + (0.005*R)^2)) + ∫ y in (0.005*R)..(0.995*R), ind y * (-(z * y)/√(z^2 + y^2)^3))| ≤
        3 * (S * (0.99 * R / ((n:ℝ) - 1)) + V^2 * C^2/(16*π*Ω^3*(0.005*R + 0.495*R/((n:ℝ)-1))^2)) / (2 * √(1 - C)) := by
  intro a w s ind hV hV0 hΛ hL hrad hg hM chi hchi hsk
  have hΩ : 0 < Ω := by
    by_contra hneg
    have : Ω * R / V ≤ 0 := div_nonpos_of_nonpos_of_nonneg (mul_nonpos_of_nonpos_of_nonneg (not_lt.mp hneg) hR.le) hV0.le
    linarith
  have hn1 : (0:ℝ) < (n:ℝ) - 1 := by
    have : (2:ℝ) ≤ n := by exact_mod_cast hn
    linarith
  obtain ⟨x, hx⟩ : ∃ x : ℕ → ℝ, ∀ i, x i = (0.005 + i * (0.99 / ((n:ℝ) - 1))) * R := ⟨_, fun _ => rfl⟩
  obtain ⟨hx0, hinc, hxe, hxl, hxm, hxs⟩ := spread_stations n hn R hR x hx
  have hpi := pi_pos
  have hE1 := spread_radicand n hn R hR x hx T C V Ω hΩ hTC hrad
  have hEd := spread_deviation n hn R hR x hx T C V Ω hΩ hTC
  obtain ⟨E, hE⟩ : ∃ E, E = ctNoSwirl n x (fun i => T (x i)) R V Ω := ⟨_, rfl⟩
  rw [← hE] at hE1 hEd
  obtain ⟨κ, hκ⟩ : ∃ κ, κ = V^2 * C^2/(16*π*Ω^3*(0.005*R + 0.495*R/((n:ℝ)-1))^2) := ⟨_, rfl⟩
  rw [← hκ] at hEd ⊢
  obtain ⟨u, hu, H⟩ := C144_spread mini R hub shaft vert U0 L gr M ho hR h pts hp o hnw hlo hro hta n r Ct hr hincr hlen T hT x hx
    E (fun k => (1 - √(1 - E k))/2) Λ Ω V hn hV hV0 hΛ hL
    (fun i hi => (hTC _ (hxm i hi).1 (hxm i hi).2).2.trans hC) (fun k hk => by rw [hE]; rfl) hE1 (by
      intro k hk
      have := sq_sqrt (sub_nonneg.mpr (hE1 k hk))
      generalize E k = E at *
      exact ⟨by nlinarith, by linarith [sqrt_nonneg (1 - E)]⟩) hg hM chi hchi hsk
  refine ⟨u, hu, fun i p z hpi' hz => ?_⟩
  obtain ⟨v, v1, -, v2⟩ := H i p hpi'
  refine ⟨v, _, v1, (v2 z hz).trans (by rw [neg_mul]), ?_⟩
  have hC1 : C < 1 := hC.trans_lt Ctc_lt_one
  have hq : 0 < √(1 - C) := sqrt_pos.2 (by linarith)
  have hκ0 : 0 ≤ κ := by rw [hκ]; positivity
  have hS0 : 0 ≤ S := by
    have h1 := hS (0.005*R) (0.995*R) le_rfl (by linarith) le_rfl
    by_contra hneg
    have := mul_neg_of_neg_of_pos (not_le.mp hneg) (show 0 < 0.995 * R - 0.005 * R by linarith)
    linarith [abs_nonneg (T (0.995*R) - T (0.005*R))]
  have hstep : 0 < 0.99 * R / ((n:ℝ) - 1) := by positivity
  obtain ⟨m, rfl⟩ : ∃ m, n = m + 1 := ⟨n - 1, by omega⟩
  rw [Nat.add_sub_cancel] at hxl
  simp only [Nat.add_sub_cancel]
  have near : ∀ j < m + 1, ∀ y, 0.005*R ≤ y → y ≤ 0.995*R → |x j - y| ≤ 0.99 * R / (((m+1:ℕ):ℝ) - 1) →
      |(1 - √(1 - E j))/2 - ind y| ≤ (S * (0.99 * R / (((m+1:ℕ):ℝ) - 1)) + κ) / (2 * √(1 - C)) := by
    intro j hj y hy0 hy1 hd
    refine (induction_lipschitz (T y) (E j) C hC1 (hTC y hy0 hy1).2 (hE1 j hj)).trans ?_
    have hl : |T (x j) - T y| ≤ S * |x j - y| := by
      rcases le_total y (x j) with hle | hle
      · rw [abs_of_nonneg (sub_nonneg.2 hle)]
        exact hS y (x j) hy0 hle (hxm j hj).2
      · rw [abs_sub_comm, abs_sub_comm (x j), abs_of_nonneg (sub_nonneg.2 hle)]
        exact hS (x j) y (hxm j hj).1 hle hy1
    have h1 : S * |x j - y| ≤ S * (0.99 * R / (((m+1:ℕ):ℝ) - 1)) := mul_le_mul_of_nonneg_left hd hS0
    have h2 := hEd j hj
    have h3 : |E j - T y| ≤ S * (0.99 * R / (((m+1:ℕ):ℝ) - 1)) + κ := by
      have := abs_sub_le (E j) (T (x j)) (T y)
      linarith
    gcongr
  obtain ⟨sd, sb⟩ := shaft_weight z
  have hI : Set.Icc (x 0) (x m) = Set.Icc (0.005*R) (0.995*R) := by rw [hxe, hxl]
  have hTcont : ContinuousOn T (Set.Icc (x 0) (x m)) := by
    rw [hI]
    have : LipschitzOnWith ⟨S, hS0⟩ T (Set.Icc (0.005*R) (0.995*R)) := by
      apply LipschitzOnWith.of_dist_le_mul
      intro y hy z' hz'
      rw [Real.dist_eq, Real.dist_eq]
      change _ ≤ S * _
      rcases le_total y z' with hle | hle
      · rw [abs_sub_comm, abs_sub_comm y, abs_of_nonneg (sub_nonneg.2 hle)]
        exact hS y z' hy.1 hle hz'.2
      · rw [abs_of_nonneg (sub_nonneg.2 hle)]
        exact hS z' y hz'.1 hle hy.2
    exact this.continuousOn
  have hle0 : ∀ y ∈ Set.Icc (x 0) (x m), 0 < y := fun y hy => hx0.trans_le hy.1
  have key := abel_quadrature m x (fun k => (1 - √(1 - E k))/2) ind (fun y => 1 + z/√(z^2 + y^2)) (fun y => -(z * y)/√(z^2 + y^2)^3)
    ((S * (0.99 * R / (((m+1:ℕ):ℝ) - 1)) + κ) / (2 * √(1 - C))) (fun j hj => (hinc j (j+1) (by omega) (by omega)).le) (fun y hy => sd y (hle0 y hy)) (by
      rcases le_total 0 z with hz0 | hz0
      · right
        intro y hy
        have := hle0 y hy
        rw [neg_div]
        exact neg_nonpos.2 (by positivity)
      · left
        intro y hy
        have := hle0 y hy
        have : 0 ≤ -(z * y) := by nlinarith
        positivity) (by
      apply ContinuousOn.div
      · fun_prop
      · fun_prop
      · intro y hy
        have := hle0 y hy
        have : 0 < √(z^2 + y^2) := sqrt_pos.2 (by positivity)
        positivity) ((continuousOn_const.sub (continuousOn_const.sub hTcont).sqrt).div_const _) (by
      have := near 0 (by omega) (x 0) (hxm 0 (by omega)).1 (hxm 0 (by omega)).2 (by rw [sub_self, abs_zero]; exact hstep.le)
      exact this) (by
      intro j hj y hy0 hy1
      have hs1 := hxs (j+1) (by omega)
      rw [Nat.add_sub_cancel] at hs1
      exact near (j+1) (by omega) y ((hxm j (by omega)).1.trans hy0) (hy1.trans (hxm (j+1) (by omega)).2) (by
        rw [abs_of_nonneg (by linarith), ← hs1]; linarith))
  rw [← hxe, ← hxl]
  refine key.trans ?_
  have hb := sb (x 0) (x m) hx0 (by rw [hxe, hxl]; linarith)
  have hnn : 0 ≤ (S * (0.99 * R / (((m+1:ℕ):ℝ) - 1)) + κ) / (2 * √(1 - C)) := by positivity
  refine (mul_le_mul_of_nonneg_left hb hnn).trans (le_of_eq ?_)
  ring

/-- a thrust coefficient that goes linearly from 0.4 at the hub to 0.6 at the tip of a 50 m rotor -/
theorem interpolates_line : Interpolates [0, 50] [0.4, 0.6] (fun y => 0.4 + 0.004 * max 0 (min y 50)) where
  left := by
    intro a u h1 h2 x hx
    obtain rfl : 0 = a := by simpa using h1
    obtain rfl : 0.4 = u := by simpa using h2
    rw [max_eq_left (min_le_iff.2 (Or.inl hx))]; norm_num
  right := by
    intro a u h1 h2 x hx
    obtain rfl : 50 = a := by simpa using h1
    obtain rfl : 0.6 = u := by simpa using h2
    rw [min_eq_right hx, max_eq_right (by norm_num)]; norm_num
  between := by
    intro k a b u v h1 h2 h3 h4 x hx1 hx2
    have hk : k = 0 := by
      by_contra hk
      rw [List.getElem?_eq_none (by simp; omega)] at h2
      exact nomatch h2
    subst hk
    obtain rfl : 0 = a := by simpa using h1
    obtain rfl : 50 = b := by simpa using h2
    obtain rfl : 0.4 = u := by simpa using h3
    obtain rfl : 0.6 = v := by simpa using h4
    rw [min_eq_left hx2, max_eq_right hx1]; ring

/-- a concrete case: that loading on a 50 m rotor in a wind of 10 m/s (infinite tip-speed ratio), 50 m upstream on the shaft: the blockage is that of the continuous loading within 0.5/(n-1) + 1e-7 of
the wind speed, for every number `n ≥ 2` of stations -/
example (mini : (ℝ → Num) → ℝ) (n : ℕ) (hn2 : 2 ≤ n) :
    let T : ℝ → ℝ := fun y => 0.4 + 0.004 * max 0 (min y 50)
    let w := (WT.new 50 ⟨1,2,3⟩ ⟨0,0,1⟩ ⟨0,1,0⟩ ⟨0,0,10⟩ none false "VC").run mini
      ([.chi (some 0)] ++ [.loading { r := some [0, 50], Ct := some ([0.4, 0.6].map Num.fin), Lambda := some .pinf, nCyl := some n }])
    ∃ u, (w.computeU [⟨1,2,-47⟩] {}).1 = .ok u ∧ ∃ v k, u[0]? = some (V3.fin v) ∧ v = ⟨0, 0, 10 * (1 - k)⟩ ∧
      |k - ((1 - √(1 - T (0.005*50)))/2 * (1 + (-50)/√((-50)^2 + (0.005*50)^2)) + ∫ y in (0.005*50)..(0.995*50), (1 - √(1 - T y))/2 * (-(-50 * y)/√((-50)^2 + y^2)^3))| ≤ 0.5/((n:ℝ) - 1) + 1e-7 := by
  intro T w
  have hn : V3.norm (⟨0,0,10⟩ : V3 ℝ) = 10 := by unfold V3.norm; simp
  have hn1 : (1:ℝ) ≤ (n:ℝ) - 1 := by
    have : (2:ℝ) ≤ n := by exact_mod_cast hn2
    linarith
  obtain ⟨a, ha⟩ : ∃ a : LoadArgs, a = { r := some [0, 50], Ct := some ([0.4, 0.6].map Num.fin), Lambda := some .pinf, nCyl := some n } := ⟨_, rfl⟩
  have hw : w = (WT.new 50 ⟨1,2,3⟩ ⟨0,0,1⟩ ⟨0,1,0⟩ ⟨0,0,10⟩ none false "VC").run mini ([.chi (some 0)] ++ [.loading a]) := by rw [ha]
  clear_value w
  obtain ⟨e1, e2, -, -, e5, -, -, -, -, -, e11, e12, e13, e14⟩ := loading_frame mini
    ((WT.new 50 ⟨1,2,3⟩ ⟨0,0,1⟩ ⟨0,1,0⟩ ⟨0,0,10⟩ none false "VC").run mini [.chi (some 0)]) a
  have f2 : w.r_hub = ⟨1,2,3⟩ := by rw [hw]; exact e2
  have f5 : w.e_shaft_g = ⟨0,0,1⟩ := by
    rw [hw]
    refine e5.trans ?_
    have := (frame_run mini ⟨0,0,1⟩ ⟨0,1,0⟩ 50 [.chi (some 0)] _ (frame_new 50 ⟨1,2,3⟩ ⟨0,0,1⟩ ⟨0,1,0⟩ ⟨0,0,10⟩ none false "VC")).e_shaft_g
    rw [turn_eq] at this
    refine this.trans ?_
    change turn _ 0 _ = _
    unfold turn
    ext <;> simp
  have f11 : w.U0_g = ⟨0,0,10⟩ := by rw [hw]; exact e11
  have f12 : w.Ground = false := by rw [hw]; exact e12
  have f13 : w.chi = some 0 := by rw [hw]; exact e13
  have f14 : w.Model = "VC" := by rw [hw]; exact e14
  have hpi3 := pi_gt_three
  have hκ : 10^2 * (0.6:ℝ)^2/(16*π*800^3*(0.005*50 + 0.495*50/((n:ℝ)-1))^2) ≤ 3e-8 := by
    have h1 : (0.25:ℝ)^2 ≤ (0.005*50 + 0.495*50/((n:ℝ)-1))^2 := by
      have : 0 ≤ 0.495*50/((n:ℝ)-1) := by positivity
      apply pow_le_pow_left₀ (by norm_num)
      linarith
    have : 10^2 * (0.6:ℝ)^2/(16*π*800^3*(0.005*50 + 0.495*50/((n:ℝ)-1))^2) ≤ 10^2 * (0.6:ℝ)^2/(16*3*800^3*0.25^2) := by
      generalize (0.005*50 + 0.495*50/((n:ℝ)-1))^2 = q at *
      gcongr
    refine this.trans ?_
    norm_num
  have hTy : ∀ y, 0.005 * 50 ≤ y → y ≤ 0.995 * 50 → T y = 0.4 + 0.004 * y := by
    intro y h0 h1
    simp only [T]
    rw [min_eq_left (by linarith), max_eq_right (by linarith)]
  have H := C158_shaft mini 50 ⟨1,2,3⟩ ⟨0,0,1⟩ ⟨0,1,0⟩ ⟨0,0,10⟩ none false "VC" ⟨by simp [V3.dot], by simp [V3.dot], by simp [V3.dot]⟩ (by norm_num)
    [.chi (some 0)] [⟨1,2,-47⟩] (by simp) {} rfl rfl rfl rfl n hn2 [0, 50] [0.4, 0.6] (by simp) (by simp) rfl T interpolates_line
    0.6 0.004 (by norm_num [Ctc, ac]) (fun y h0 h1 => by rw [hTy y h0 h1]; constructor <;> linarith)
    (fun y z h0 h1 h2 => by
      rw [hTy y h0 (h1.trans h2), hTy z (h0.trans h1) h2, show 0.4 + 0.004 * z - (0.4 + 0.004 * y) = 0.004 * (z - y) by ring, abs_of_nonneg (by linarith)]) .pinf 800 10
  rw [← ha] at H
  simp only [← hw] at H
  obtain ⟨u, hu, H⟩ := H (by rw [f11, hn]) (by norm_num) (Or.inr (by simp)) (by norm_num) (by linarith) (by rw [f12]; rfl) (by rw [f14]; rfl) 0
    (by rw [computeU_state]; change some (match w.chi with | some c => c | none => w.chiAuto) = _; rw [f13])
    (by simp [Num.abs_fin, Num.zero_def, Num.lt_fin]; norm_num)
  rw [f2, f5, f11] at H
  obtain ⟨v, k, v1, v2, v3⟩ := H 0 ⟨1,2,-47⟩ (-50) rfl (by ext <;> simp <;> norm_num)
  refine ⟨u, hu, v, k, v1, ?_, v3.trans ?_⟩
  · have v2' : v - (⟨0,0,10⟩ : V3 ℝ) = V3.smul (-(10 * k)) ⟨0,0,1⟩ := v2
    have h1 := congrArg V3.x v2'
    have h2 := congrArg V3.y v2'
    have h3 := congrArg V3.z v2'
    simp only [V3.sub_x, V3.sub_y, V3.sub_z, V3.smul] at h1 h2 h3
    ext
    · change v.x = 0; linarith
    · change v.y = 0; linarith
    · change v.z = 10 * (1 - k); linarith
  · have hsq : (0.63:ℝ) ≤ √(1 - 0.6) := Real.le_sqrt_of_sq_le (by norm_num)
    rw [div_le_iff₀ (by positivity)]
    have hi : 0.99 * 50 / ((n:ℝ) - 1) = 99 * (0.5 / ((n:ℝ) - 1)) := by ring
    have hp : 0 ≤ 0.5 / ((n:ℝ) - 1) := by positivity
    rw [hi]
    generalize 0.5 / ((n:ℝ) - 1) = q at *
    nlinarith

end
end Wiz
