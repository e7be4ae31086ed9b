import Verif.Lemmas.Skewed

namespace Wiz
open Classical MeasureTheory Set Filter Topology

theorem turnRule_close (f : ℝ → ℝ) (hf : Continuous f) (θ0 δ ε : ℝ) (n : ℕ) (hn : 0 < n) (hδ : 2*Real.pi/n < δ) (hε : 0 ≤ ε)
    (hu : ∀ x y, |x - y| < δ → |f x - f y| ≤ ε) :
    |Spec.turnRule θ0 n f - ∫ x in θ0..(θ0 + 2*Real.pi), f x| ≤ 2*Real.pi*ε := by
  have hn' : (0:ℝ) < n := by exact_mod_cast hn
  set h := 2*Real.pi/n with hh
  have hpos : 0 < h := by have := Real.pi_pos; positivity
  have hnh : θ0 + (n:ℕ) * h = θ0 + 2*Real.pi := by rw [hh]; field_simp
  have hint : ∀ k < n, IntervalIntegrable f volume (θ0 + (k:ℕ)*h) (θ0 + ((k+1:ℕ):ℝ)*h) := fun k _ => hf.intervalIntegrable _ _
  have hs := intervalIntegral.sum_integral_adjacent_intervals (a := fun k : ℕ => θ0 + k*h) hint
  simp only [Nat.cast_zero, zero_mul, add_zero, hnh] at hs
  rw [← hs]
  unfold Spec.turnRule
  rw [← Finset.sum_sub_distrib]
  refine (Finset.abs_sum_le_sum_abs _ _).trans ?_
  have key : ∀ i ∈ Finset.range n, |h * ((f (θ0 + i*h) + f (θ0 + (i+1)*h))/2) - ∫ x in (θ0 + (i:ℝ)*h)..(θ0 + ((i+1:ℕ):ℝ)*h), f x| ≤ ε * h := by
    intro i _
    set c := (f (θ0 + i*h) + f (θ0 + (i+1)*h))/2
    have e : h * c = ∫ x in (θ0 + (i:ℝ)*h)..(θ0 + ((i+1:ℕ):ℝ)*h), c := by
      rw [intervalIntegral.integral_const]
      push_cast
      simp only [smul_eq_mul]
      ring
    rw [e, ← intervalIntegral.integral_sub (by simp) (hf.intervalIntegrable _ _)]
    have := intervalIntegral.norm_integral_le_of_norm_le_const (a := θ0 + (i:ℝ)*h) (b := θ0 + ((i+1:ℕ):ℝ)*h)
      (f := fun x => c - f x) (C := ε) (by
      intro x hx
      rw [uIoc_of_le (by push_cast; nlinarith)] at hx
      obtain ⟨h1, h2⟩ := hx
      push_cast at h2
      have a1 := hu (θ0 + i*h) x (by rw [abs_lt]; constructor <;> nlinarith)
      have a2 := hu (θ0 + (i+1)*h) x (by rw [abs_lt]; constructor <;> nlinarith)
      rw [Real.norm_eq_abs, abs_le]
      rw [abs_le] at a1 a2
      constructor <;> simp only [c] <;> linarith [a1.1, a1.2, a2.1, a2.2])
    rw [Real.norm_eq_abs] at this
    refine this.trans (le_of_eq ?_)
    push_cast
    rw [show θ0 + (i+1)*h - (θ0 + i*h) = h by ring, abs_of_pos hpos]
  refine (Finset.sum_le_sum key).trans (le_of_eq ?_)
  rw [Finset.sum_const, Finset.card_range, nsmul_eq_mul, hh]
  field_simp

theorem periodic_uc (f : ℝ → ℝ) (hf : Continuous f) (hp : ∀ x, f (x + 2*Real.pi) = f x) :
    ∀ ε > 0, ∃ δ > 0, ∀ x y, |x - y| < δ → |f x - f y| ≤ ε := by
  intro ε hε
  have hP : Function.Periodic f (2*Real.pi) := hp
  have huc : UniformContinuousOn f (Icc (-1) (2*Real.pi+1)) := isCompact_Icc.uniformContinuousOn_of_continuous hf.continuousOn
  rw [Metric.uniformContinuousOn_iff] at huc
  obtain ⟨δ, hδ, h⟩ := huc ε hε
  refine ⟨min δ 1, lt_min hδ one_pos, fun x y hxy => ?_⟩
  have hpi : 0 < 2*Real.pi := by have := Real.pi_pos; positivity
  -- reduce x to [0, 2π)
  set k := ⌊x/(2*Real.pi)⌋
  have hx0 : 0 ≤ x - k*(2*Real.pi) := by
    have := Int.floor_le (x/(2*Real.pi)); rw [le_div_iff₀ hpi] at this; linarith
  have hx1 : x - k*(2*Real.pi) < 2*Real.pi := by
    have := Int.lt_floor_add_one (x/(2*Real.pi)); rw [div_lt_iff₀ hpi] at this; linarith
  have e1 : f x = f (x - k*(2*Real.pi)) := (hP.sub_int_mul_eq k).symm
  have e2 : f y = f (y - k*(2*Real.pi)) := (hP.sub_int_mul_eq k).symm
  have hl := abs_lt.mp (hxy.trans_le (min_le_right _ _))
  rw [e1, e2]
  have := h (x - k*(2*Real.pi)) ⟨by linarith, by linarith⟩ (y - k*(2*Real.pi)) ⟨by linarith [hl.1, hl.2], by linarith [hl.1, hl.2]⟩ (by
    rw [Real.dist_eq]
    rw [show x - k*(2*Real.pi) - (y - k*(2*Real.pi)) = x - y by ring]
    exact hxy.trans_le (min_le_left _ _))
  rw [Real.dist_eq] at this
  exact this.le

/-- the trapezoidal rule over one turn converges for continuous periodic integrands, whatever the starting azimuths -/
theorem turnRule_tendsto (f : ℝ → ℝ) (hf : Continuous f) (hp : ∀ x, f (x + 2*Real.pi) = f x) (θ0 : ℕ → ℝ) :
    Tendsto (fun n => Spec.turnRule (θ0 n) n f) atTop (𝓝 (∫ x in Ioc 0 (2*Real.pi), f x)) := by
  have hP : Function.Periodic f (2*Real.pi) := hp
  have hpi : 0 < 2*Real.pi := by have := Real.pi_pos; positivity
  have hI : ∀ t, ∫ x in t..(t + 2*Real.pi), f x = ∫ x in Ioc 0 (2*Real.pi), f x := by
    intro t
    rw [hP.intervalIntegral_add_eq t 0, zero_add, intervalIntegral.integral_of_le hpi.le]
  rw [Metric.tendsto_atTop]
  intro ε hε
  obtain ⟨δ, hδ, hu⟩ := periodic_uc f hf hp (ε/(4*Real.pi)) (by have := Real.pi_pos; positivity)
  obtain ⟨N, hN⟩ := exists_nat_gt (2*Real.pi/δ)
  refine ⟨N + 1, fun n hn => ?_⟩
  have hn' : (N:ℝ) < n := by exact_mod_cast hn
  have hn0 : 0 < n := by omega
  have hlt : 2*Real.pi/n < δ := by
    rw [div_lt_iff₀ (by exact_mod_cast hn0)]
    rw [div_lt_iff₀ hδ] at hN
    nlinarith
  have := turnRule_close f hf (θ0 n) δ _ n hn0 hlt (by have := Real.pi_pos; positivity) hu
  rw [hI] at this
  rw [Real.dist_eq]
  refine this.trans_lt ?_
  have := Real.pi_pos
  rw [show 2*Real.pi*(ε/(4*Real.pi)) = ε/2 by field_simp; norm_num]
  linarith

theorem gen_continuous (R m : ℝ) (P : V3 ℝ) (h : Spec.OffWake R m P) (γ : ℝ) :
    (Continuous fun θ => (Spec.tangGenerator γ R m P θ).x) ∧ (Continuous fun θ => (Spec.tangGenerator γ R m P θ).y) ∧
    (Continuous fun θ => (Spec.tangGenerator γ R m P θ).z) ∧
    (Continuous fun θ => (Spec.longiGenerator γ R m P θ).x) ∧ (Continuous fun θ => (Spec.longiGenerator γ R m P θ).y) ∧
    (Continuous fun θ => (Spec.longiGenerator γ R m P θ).z) := by
  have e1 := fun θ => tangGenerator_eval (γ := γ) (offWake_pos h θ).1 (offWake_pos h θ).2
  have e2 := fun θ => longiGenerator_eval (γ := γ) (offWake_pos h θ).1 (offWake_pos h θ).2
  have hne : ∀ θ, V3.norm (P - Spec.rim R θ) * (V3.norm (P - Spec.rim R θ) - V3.dot (P - Spec.rim R θ) (Spec.skewDir m)) ≠ 0 :=
    fun θ => mul_ne_zero (offWake_pos h θ).1.ne' (offWake_pos h θ).2.ne'
  simp only [e1, e2]
  have hnc : Continuous fun θ => V3.norm (P - Spec.rim R θ) := by
    unfold V3.norm Spec.rim; simp only [V3.sub_x, V3.sub_y, V3.sub_z]; fun_prop
  have hdc : Continuous fun θ => V3.dot (P - Spec.rim R θ) (Spec.skewDir m) := by
    unfold V3.dot Spec.rim; simp only [V3.sub_x, V3.sub_y, V3.sub_z]; fun_prop
  have hK : ∀ k : ℝ, Continuous fun θ => k / (V3.norm (P - Spec.rim R θ) * (V3.norm (P - Spec.rim R θ) - V3.dot (P - Spec.rim R θ) (Spec.skewDir m))) :=
    fun k => continuous_const.div (hnc.mul (hnc.sub hdc)) hne
  simp only [V3.smul_x, V3.smul_y, V3.smul_z, V3.sub_x, V3.sub_y, V3.sub_z, V3.cross]
  refine ⟨(hK _).mul ?_, (hK _).mul ?_, (hK _).mul ?_, (hK _).mul ?_, (hK _).mul ?_, (hK _).mul ?_⟩
  all_goals
    unfold Spec.rim at *
    unfold Spec.rimTangent at *
    simp only [V3.sub_x, V3.sub_y, V3.sub_z]
    fun_prop

theorem gen_periodic (R m : ℝ) (P : V3 ℝ) (γ θ : ℝ) : Spec.tangGenerator γ R m P (θ + 2*Real.pi) = Spec.tangGenerator γ R m P θ ∧
    Spec.longiGenerator γ R m P (θ + 2*Real.pi) = Spec.longiGenerator γ R m P θ := by
  simp only [Spec.tangGenerator, Spec.longiGenerator, Spec.biotSavart, Spec.wakePoint, Spec.rim, Spec.rimTangent, Real.cos_add_two_pi, Real.sin_add_two_pi]
  exact ⟨trivial, trivial⟩

end Wiz
