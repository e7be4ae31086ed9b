import Verif.Lemmas.RotorPlaneEval
/-! Error of the trapezoidal rule. -/
namespace Wiz
open Real MeasureTheory Set Filter Topology intervalIntegral

theorem panel_error {f f' f'' : ℝ → ℝ} {a b ζ : ℝ} (hab : a ≤ b) (h1 : ∀ x ∈ Icc a b, HasDerivAt f (f' x) x)
    (h2 : ∀ x ∈ Icc a b, HasDerivAt f' (f'' x) x) (hc : ContinuousOn f'' (Icc a b)) (hζ : ∀ x ∈ Icc a b, |f'' x| ≤ ζ) :
    |(b-a) * (f a + f b)/2 - ∫ x in a..b, f x| ≤ (b-a)^3 * ζ/12 := by
  have hu : uIcc a b = Icc a b := uIcc_of_le hab
  have hf : IntervalIntegrable f volume a b :=
    ContinuousOn.intervalIntegrable (by rw [hu]; exact fun x hx => (h1 x hx).continuousAt.continuousWithinAt)
  have hg : IntervalIntegrable (fun x => (x-a)*(b-x)/2 * f'' x) volume a b :=
    ContinuousOn.intervalIntegrable (by rw [hu]; exact ContinuousOn.mul (by fun_prop) hc)
  have hd : ∀ x ∈ uIcc a b, HasDerivAt (fun x => (x - (a+b)/2) * f x + (x-a)*(b-x)/2 * f' x) (f x + (x-a)*(b-x)/2 * f'' x) x := by
    intro x hx
    rw [hu] at hx
    have e1 := ((hasDerivAt_id x).sub_const ((a+b)/2)).mul (h1 x hx)
    have e2 := ((((hasDerivAt_id x).sub_const a).mul ((hasDerivAt_id x).const_sub b)).div_const 2).mul (h2 x hx)
    refine (e1.add e2).congr_deriv ?_
    simp only [id_eq, Pi.mul_apply]
    ring
  have hI := integral_eq_sub_of_hasDerivAt hd (hf.add hg)
  rw [integral_add hf hg] at hI
  have e : (b-a) * (f a + f b)/2 - ∫ x in a..b, f x = ∫ x in a..b, (x-a)*(b-x)/2 * f'' x := by
    have : (b - (a+b)/2) * f b + (b-a)*(b-b)/2 * f' b - ((a - (a+b)/2) * f a + (a-a)*(b-a)/2 * f' a) = (b-a) * (f a + f b)/2 := by ring
    rw [this] at hI
    linarith
  rw [e]
  have hk : IntervalIntegrable (fun x => (x-a)*(b-x)/2 * ζ) volume a b := Continuous.intervalIntegrable (by fun_prop) _ _
  calc |∫ x in a..b, (x-a)*(b-x)/2 * f'' x| ≤ ∫ x in a..b, |(x-a)*(b-x)/2 * f'' x| := abs_integral_le_integral_abs hab
    _ ≤ ∫ x in a..b, (x-a)*(b-x)/2 * ζ := by
        apply integral_mono_on hab hg.abs hk
        intro x hx
        have : 0 ≤ (x-a)*(b-x)/2 := by
          have := mul_nonneg (sub_nonneg.mpr hx.1) (sub_nonneg.mpr hx.2); linarith
        rw [abs_mul, abs_of_nonneg this]
        exact mul_le_mul_of_nonneg_left (hζ x hx) this
    _ = (b-a)^3 * ζ/12 := by
        have hF : ∀ x ∈ uIcc a b, HasDerivAt (fun x => ((a+b)*x^2/2 - x^3/3 - a*b*x)/2 * ζ) ((x-a)*(b-x)/2 * ζ) x := by
          intro x _
          have e1 := (((((hasDerivAt_pow 2 x).const_mul (a+b)).div_const 2).sub ((hasDerivAt_pow 3 x).div_const 3)).sub
            ((hasDerivAt_id x).const_mul (a*b))).div_const 2
          refine (e1.mul_const ζ).congr_deriv ?_
          norm_num; ring_nf; simp
        rw [integral_eq_sub_of_hasDerivAt hF hk]
        ring

/-- trapezoidal rule on `[0,b]` with `n` panels -/
theorem panels_error {f f' f'' : ℝ → ℝ} {b ζ : ℝ} (hb : 0 ≤ b) {n : ℕ} (hn : 0 < n) (h1 : ∀ x ∈ Icc 0 b, HasDerivAt f (f' x) x)
    (h2 : ∀ x ∈ Icc 0 b, HasDerivAt f' (f'' x) x) (hc : ContinuousOn f'' (Icc 0 b)) (hζ : ∀ x ∈ Icc 0 b, |f'' x| ≤ ζ) :
    |panels b n f - ∫ x in (0:ℝ)..b, f x| ≤ b^3 * ζ/(12 * n^2) := by
  have hn' : (0:ℝ) < n := by exact_mod_cast hn
  have hh : 0 ≤ b/n := by positivity
  have hsub : ∀ i : ℕ, i < n → Icc ((i:ℝ)*(b/n)) (((i:ℝ)+1)*(b/n)) ⊆ Icc 0 b := by
    intro i hi x hx
    have hi' : (i:ℝ) + 1 ≤ n := by exact_mod_cast hi
    refine ⟨le_trans (by positivity) hx.1, hx.2.trans ?_⟩
    calc ((i:ℝ)+1)*(b/n) ≤ n*(b/n) := by gcongr
      _ = b := by field_simp
  have hle : ∀ i : ℕ, (i:ℝ)*(b/n) ≤ ((i:ℝ)+1)*(b/n) := fun i => by nlinarith
  have hint : ∀ i < n, IntervalIntegrable f volume ((i:ℝ)*(b/n)) (((i+1:ℕ):ℝ)*(b/n)) := by
    intro i hi
    apply ContinuousOn.intervalIntegrable
    push_cast
    rw [uIcc_of_le (hle i)]
    exact fun x hx => (h1 x (hsub i hi hx)).continuousAt.continuousWithinAt
  have hsum := sum_integral_adjacent_intervals (a := fun i : ℕ => (i:ℝ)*(b/n)) hint
  simp only [Nat.cast_zero, zero_mul] at hsum
  rw [show (n:ℝ)*(b/n) = b by field_simp] at hsum
  rw [← hsum]
  unfold panels
  rw [← Finset.sum_sub_distrib]
  calc |∑ i ∈ Finset.range n, (b/n * (f (i*(b/n)) + f ((i+1)*(b/n)))/2 - ∫ x in ((i:ℝ)*(b/n))..(((i+1:ℕ):ℝ)*(b/n)), f x)|
      ≤ ∑ i ∈ Finset.range n, (b/n)^3 * ζ/12 := by
        refine (Finset.abs_sum_le_sum_abs _ _).trans (Finset.sum_le_sum fun i hi => ?_)
        have hi' := Finset.mem_range.mp hi
        have := panel_error (hle i) (fun x hx => h1 x (hsub i hi' hx)) (fun x hx => h2 x (hsub i hi' hx)) (hc.mono (hsub i hi'))
          (fun x hx => hζ x (hsub i hi' hx))
        rw [show ((i:ℝ)+1)*(b/n) - i*(b/n) = b/n by ring] at this
        push_cast
        exact this
    _ = b^3 * ζ/(12 * n^2) := by
        rw [Finset.sum_const, Finset.card_range, nsmul_eq_mul]
        field_simp

theorem panels_tendsto_on {b : ℝ} (hb : 0 < b) (g : ℝ → ℝ) (hg : ContinuousOn g (Icc 0 b)) :
    Tendsto (fun n : ℕ => panels b n g) atTop (𝓝 (∫ t in (0:ℝ)..b, g t)) := by
  obtain ⟨G, hG⟩ : ∃ G, G = fun t => g (max 0 (min b t)) := ⟨_, rfl⟩
  have hmem : ∀ t, max 0 (min b t) ∈ Icc 0 b := fun t => ⟨le_max_left _ _, max_le hb.le (min_le_left _ _)⟩
  have hGc : Continuous G := by
    rw [hG]
    exact hg.comp_continuous (by fun_prop) hmem
  have he : ∀ t ∈ Icc 0 b, G t = g t := by
    intro t ht; rw [hG]; simp only [min_eq_right ht.2, max_eq_right ht.1]
  have h := panels_tendsto hb G hGc
  have hi : ∫ t in (0:ℝ)..b, G t = ∫ t in (0:ℝ)..b, g t := by
    apply integral_congr; rw [uIcc_of_le hb.le]; exact he
  rw [hi] at h
  refine h.congr' ?_
  filter_upwards [eventually_gt_atTop 0] with n hn
  have hn' : (0:ℝ) < n := by exact_mod_cast hn
  unfold panels
  apply Finset.sum_congr rfl
  intro i hi
  have hi' : (i:ℝ) + 1 ≤ n := by exact_mod_cast Finset.mem_range.mp hi
  have hh : 0 ≤ b/n := by positivity
  have m2 : ((i:ℝ)+1)*(b/n) ≤ b := by
    calc ((i:ℝ)+1)*(b/n) ≤ n*(b/n) := by gcongr
      _ = b := by field_simp
  rw [he _ ⟨by positivity, by nlinarith⟩, he _ ⟨by positivity, m2⟩]

theorem trapz_panels {b : ℝ} (hb : 0 ≤ b) {n : ℕ} (hn : 0 < n) (F : ℝ → Num) (g : ℝ → ℝ) (hF : ∀ t ∈ Icc 0 b, F t = .fin (g t)) :
    trapz ((linspace 0 b (n+1)).map F) (linspace 0 b (n+1)) = .fin (panels b n g) := by
  have hn' : (0:ℝ) < n := by exact_mod_cast hn
  have e : (linspace 0 b (n+1)).map F = (linspace 0 b (n+1)).map fun t => Num.fin (g t) := by
    apply List.map_congr_left
    intro t ht
    unfold linspace at ht
    simp only [List.mem_map, List.mem_range] at ht
    obtain ⟨i, hi, rfl⟩ := ht
    have hi' : (i:ℝ) ≤ n := by exact_mod_cast Nat.lt_succ_iff.mp hi
    apply hF
    push_cast
    simp only [zero_add, sub_zero, add_sub_cancel_right]
    refine ⟨by positivity, ?_⟩
    calc (i:ℝ)*(b/n) ≤ n*(b/n) := by gcongr
      _ = b := by field_simp
  rw [e]
  exact trapzOf_panels b n (fun t => Num.fin (g t)) g (fun _ => rfl)

end Wiz
