import Verif.Props.Refinement
/-! # C158, with wake rotation -/
set_option autoImplicit false
namespace Wiz
open Spec Classical Real
noncomputable section

/-- what the solver removes of the thrust of station `k` for the rotation of the wake, against the integral from `ρ` to the last station -/
theorem loss_limit (n : ℕ) (hn : 2 ≤ n) (x c : ℕ → ℝ) (d : ℝ) (hd0 : 0 < d) (hxs : ∀ j, x (j+1) = x j + d) (hc : ∀ j < n, c j = x j + d/2)
    (K φ ψ : ℝ → ℝ) (ρ C S M : ℝ) (hρ : 0 < ρ) (k : ℕ) (k0 : 0 < k) (k1 : k < n) (hk0 : x (k-1) < ρ) (hk1 : ρ < x k)
    (hK : ∀ y, ρ ≤ y → y ≤ x (n-1) → 0 ≤ K y ∧ K y ≤ C) (hS : ∀ y z, ρ ≤ y → y ≤ z → z ≤ x (n-1) → |K z - K y| ≤ S * (z - y))
    (hφ : ∀ y > 0, HasDerivAt φ (-ψ y) y) (hφ0 : ∀ y, 0 ≤ φ y) (hψ : ∀ y > 0, 0 ≤ ψ y) (hψc : ContinuousOn ψ (Set.Ioi 0)) (hM : ∀ a b, ρ ≤ a → a ≤ b → φ a - φ b ≤ M * (b - a)) :
    |((K (x k))^2/4 * (φ (x k) - φ (c k)) + ∑ j ∈ Finset.Ico (k+1) (n-1), (K (x (j+1))/2)^2 * (φ (c j) - φ (c (j+1)))) - ∫ y in ρ..(x (n-1)), (K y)^2/4 * ψ y| ≤
      d * (3 * (C^2/4 * M) + C * S/4 * φ ρ) := by
  have hxm : ∀ i j, i ≤ j → x i ≤ x j := by
    intro i j hij
    induction j, hij using Nat.le_induction with
    | base => exact le_rfl
    | succ j _ ih => rw [hxs]; linarith
  have hxk : x k = x (k-1) + d := by
    have := hxs (k-1)
    rwa [Nat.sub_add_cancel k0] at this
  have hkl : x k ≤ x (n-1) := hxm _ _ (by omega)
  have hC0 : 0 ≤ C := (hK ρ le_rfl (by linarith)).1.trans (hK ρ le_rfl (by linarith)).2
  have hM0 : 0 ≤ M := by
    have h1 : φ (ρ+1) ≤ φ ρ := by
      have hanti : AntitoneOn φ (Set.Ioi 0) := by
        apply antitoneOn_of_deriv_nonpos (convex_Ioi 0)
        · exact fun y hy => (hφ y hy).continuousAt.continuousWithinAt
        · intro y hy
          rw [interior_Ioi] at hy
          exact (hφ y hy).differentiableAt.differentiableWithinAt
        · intro y hy
          rw [interior_Ioi] at hy
          rw [(hφ y hy).deriv]
          exact neg_nonpos.2 (hψ y hy)
      exact hanti hρ (show (0:ℝ) < ρ + 1 by linarith) (by linarith)
    have := hM ρ (ρ+1) le_rfl (by linarith)
    have e : ρ + 1 - ρ = 1 := by ring
    rw [e, mul_one] at this
    linarith
  have hS0 : 0 ≤ S := by
    have h1 := hS ρ (x k) le_rfl hk1.le hkl
    by_contra hneg
    have := mul_neg_of_neg_of_pos (not_le.mp hneg) (sub_pos.2 hk1)
    linarith [abs_nonneg (K (x k) - K ρ)]
  obtain ⟨G, hG⟩ : ∃ G : ℝ → ℝ, ∀ y, G y = (K (min y (x (n-1))))^2/4 := ⟨_, fun _ => rfl⟩
  have hGle : ∀ y, y ≤ x (n-1) → G y = (K y)^2/4 := fun y hy => by rw [hG, min_eq_left hy]
  have hmem : ∀ y, ρ ≤ y → ρ ≤ min y (x (n-1)) ∧ min y (x (n-1)) ≤ x (n-1) := fun y hy => ⟨le_min hy (by linarith), min_le_right _ _⟩
  have hGb : ∀ y, ρ ≤ y → 0 ≤ G y ∧ G y ≤ C^2/4 := by
    intro y hy
    obtain ⟨m0, m1⟩ := hmem y hy
    obtain ⟨a0, a1⟩ := hK _ m0 m1
    rw [hG]
    exact ⟨by positivity, by gcongr⟩
  have hLip : ∀ y z, ρ ≤ y → ρ ≤ z → |K (min y (x (n-1))) - K (min z (x (n-1)))| ≤ S * |y - z| := by
    intro y z hy hz
    obtain ⟨m0, m1⟩ := hmem y hy
    obtain ⟨m2, m3⟩ := hmem z hz
    have h1 : |min y (x (n-1)) - min z (x (n-1))| ≤ |y - z| := by
      have := abs_min_sub_min_le_max y (x (n-1)) z (x (n-1))
      rwa [sub_self, abs_zero, max_eq_left (abs_nonneg _)] at this
    have h2 : |K (min y (x (n-1))) - K (min z (x (n-1)))| ≤ S * |min y (x (n-1)) - min z (x (n-1))| := by
      generalize min y (x (n-1)) = y' at *
      generalize min z (x (n-1)) = z' at *
      rcases le_total y' z' with hle | hle
      · rw [abs_sub_comm, abs_sub_comm y', abs_of_nonneg (sub_nonneg.2 hle)]
        exact hS y' z' m0 hle m3
      · rw [abs_of_nonneg (sub_nonneg.2 hle)]
        exact hS z' y' m2 hle m1
    exact h2.trans (mul_le_mul_of_nonneg_left h1 hS0)
  have hKc : ContinuousOn (fun y => K (min y (x (n-1)))) (Set.Ici ρ) := by
    have : LipschitzOnWith ⟨S, hS0⟩ (fun y => K (min y (x (n-1)))) (Set.Ici ρ) := by
      apply LipschitzOnWith.of_dist_le_mul
      intro y hy z hz
      rw [Real.dist_eq, Real.dist_eq]
      exact hLip y z hy hz
    exact this.continuousOn
  have hGc : ContinuousOn G (Set.Ici ρ) := by
    have := (hKc.pow 2).div_const 4
    exact this.congr fun y _ => hG y
  have hψc' : ContinuousOn ψ (Set.Ici ρ) := hψc.mono fun y (hy : ρ ≤ y) => lt_of_lt_of_le hρ hy
  have hint : ∀ a b, ρ ≤ a → a ≤ b → IntervalIntegrable (fun y => G y * ψ y) MeasureTheory.volume a b := by
    intro a b ha hab
    apply ContinuousOn.intervalIntegrable
    rw [Set.uIcc_of_le hab]
    exact (hGc.mul hψc').mono fun y hy => ha.trans hy.1
  have hψi : ∀ a b, ρ ≤ a → a ≤ b → IntervalIntegrable ψ MeasureTheory.volume a b := by
    intro a b ha hab
    apply ContinuousOn.intervalIntegrable
    rw [Set.uIcc_of_le hab]
    exact hψc'.mono fun y hy => ha.trans hy.1
  have hψint : ∀ a b, ρ ≤ a → a ≤ b → ∫ y in a..b, ψ y = φ a - φ b := by
    intro a b ha hab
    have : ∫ y in a..b, ψ y = (-φ b) - (-φ a) := by
      apply intervalIntegral.integral_eq_sub_of_hasDerivAt (f := fun y => -φ y) _ (hψi a b ha hab)
      intro y hy
      rw [Set.uIcc_of_le hab] at hy
      exact (hφ y (by linarith [hy.1])).neg.congr_deriv (neg_neg _)
    rw [this]; ring
  have hpiece : ∀ a b, ρ ≤ a → a ≤ b → 0 ≤ ∫ y in a..b, G y * ψ y ∧ ∫ y in a..b, G y * ψ y ≤ C^2/4 * (φ a - φ b) := by
    intro a b ha hab
    constructor
    · exact intervalIntegral.integral_nonneg hab fun y hy => mul_nonneg (hGb y (ha.trans hy.1)).1 (hψ y (by linarith [hy.1]))
    · rw [← hψint a b ha hab, ← intervalIntegral.integral_const_mul]
      apply intervalIntegral.integral_mono_on hab (hint a b ha hab) ((hψi a b ha hab).const_mul _)
      intro y hy
      exact mul_le_mul_of_nonneg_right (hGb y (ha.trans hy.1)).2 (hψ y (by linarith [hy.1]))
  have hφm : ∀ a b, ρ ≤ a → a ≤ b → φ b ≤ φ a := by
    intro a b ha hab
    have := hψint a b ha hab
    have h0 := intervalIntegral.integral_nonneg (μ := MeasureTheory.volume) hab fun y hy => hψ y (by linarith [hy.1, ha])
    linarith
  have htarget : ∫ y in ρ..(x (n-1)), (K y)^2/4 * ψ y = ∫ y in ρ..(x (n-1)), G y * ψ y := by
    apply intervalIntegral.integral_congr
    intro y hy
    rw [Set.uIcc_of_le (by linarith)] at hy
    change _ = G y * ψ y
    rw [hGle y hy.2]
  have hC4 : 0 ≤ C^2/4 := by positivity
  -- the first term
  have hck := hc k k1
  obtain ⟨F, hF⟩ : ∃ F, F = (K (x k))^2/4 * (φ (x k) - φ (c k)) := ⟨_, rfl⟩
  have hF0 : 0 ≤ F ∧ F ≤ C^2/4 * (φ (x k) - φ (c k)) := by
    have h1 := hφm (x k) (c k) hk1.le (by linarith)
    have h2 := hGb (x k) hk1.le
    rw [hGle _ hkl] at h2
    rw [hF]
    exact ⟨mul_nonneg h2.1 (by linarith), mul_le_mul_of_nonneg_right h2.2 (by linarith)⟩
  rw [← hF, htarget]
  have hextra : 0 ≤ C * S/4 * φ ρ := by have := hφ0 ρ; positivity
  rcases Nat.lt_or_ge k (n-1) with hlt | hge
  · -- inner stations
    have hc1 : c (k+1) = x (k-1) + 2 * d + d/2 := by rw [hc (k+1) (by omega), hxs, hxk]; ring
    have hcl : c (n-1) = x (n-1) + d/2 := hc _ (by omega)
    have hcm : ∀ j, j + 1 < n → c j ≤ c (j+1) := fun j hj => by rw [hc j (by omega), hc (j+1) hj, hxs]; linarith
    have hcm' : c (k+1) ≤ c (n-1) := by
      rw [hc (k+1) (by omega), hcl]
      have := hxm (k+1) (n-1) (by omega)
      linarith
    have hρc : ρ ≤ c (k+1) := by linarith
    have hsplit : ∫ y in ρ..(x (n-1)), G y * ψ y = (∫ y in ρ..(c (k+1)), G y * ψ y) + (∫ y in (c (k+1))..(c (n-1)), G y * ψ y) - ∫ y in (x (n-1))..(c (n-1)), G y * ψ y := by
      rw [intervalIntegral.integral_add_adjacent_intervals (hint _ _ le_rfl hρc) (hint _ _ hρc hcm'),
        ← intervalIntegral.integral_add_adjacent_intervals (hint _ _ le_rfl (by linarith : ρ ≤ x (n-1))) (hint (x (n-1)) (c (n-1)) (by linarith) (by linarith))]
      ring
    obtain ⟨p0, p1⟩ := hpiece ρ (c (k+1)) le_rfl hρc
    obtain ⟨q0, q1⟩ := hpiece (x (n-1)) (c (n-1)) (by linarith) (by linarith)
    have hsum := step_quadrature (n-1-(k+1)) (fun i => c (k+1+i)) (fun i => (K (x (k+1+i))/2)^2) G (fun y => -φ y) ψ (C * S * d / 4)
      (fun j hj => hcm _ (by omega)) (by
        intro y hy
        have : ρ ≤ y := hρc.trans hy.1
        exact (hφ y (by linarith)).neg.congr_deriv (neg_neg _)) (Or.inl (by
        intro y hy
        have : ρ ≤ y := hρc.trans hy.1
        exact hψ y (by linarith))) (hψc'.mono fun y hy => hρc.trans hy.1) (hGc.mono fun y hy => hρc.trans hy.1) (by
        intro j hj y hy0 hy1
        have hjn : k + 1 + j + 1 < n := by omega
        have e0 : c (k+1+j) = x (k+1+j) + d/2 := hc _ (by omega)
        have e1 : c (k+1+(j+1)) = x (k+1+j+1) + d/2 := hc _ (by omega)
        have e2 := hxs (k+1+j)
        have hxj : x (k+1) ≤ x (k+1+j) := hxm _ _ (by omega)
        have hxj' := hxs k
        have hy' : ρ ≤ y := by linarith
        have hxl : x (k+1+(j+1)) ≤ x (n-1) := hxm _ _ (by omega)
        have hxr : ρ ≤ x (k+1+(j+1)) := by
          change ρ ≤ x (k+1+j+1)
          linarith
        have hl := hLip (x (k+1+(j+1))) y hxr hy'
        rw [min_eq_left hxl] at hl
        obtain ⟨m0, m1⟩ := hmem y hy'
        obtain ⟨a0, a1⟩ := hK _ m0 m1
        obtain ⟨b0, b1⟩ := hK _ hxr hxl
        have hdist : |x (k+1+(j+1)) - y| ≤ d/2 := by
          change |x (k+1+j+1) - y| ≤ d/2
          rw [abs_le]; constructor <;> linarith
        have hl2 : |K (x (k+1+(j+1))) - K (min y (x (n-1)))| ≤ S * (d/2) := hl.trans (mul_le_mul_of_nonneg_left hdist hS0)
        rw [hG]
        generalize K (x (k+1+(j+1))) = A at *
        generalize K (min y (x (n-1))) = B at *
        have : (A/2)^2 - B^2/4 = (A - B) * (A + B) / 4 := by ring
        rw [this, abs_div, abs_mul, abs_of_nonneg (show 0 ≤ A + B by linarith), abs_of_pos (by norm_num : (0:ℝ) < 4)]
        have h3 : |A - B| * (A + B) ≤ S * (d/2) * (2 * C) := mul_le_mul hl2 (by linarith) (by linarith) (by positivity)
        rw [div_le_div_iff_of_pos_right (by norm_num : (0:ℝ) < 4)]
        linarith)
    simp only [Nat.add_zero] at hsum
    rw [show k + 1 + (n - 1 - (k+1)) = n - 1 by omega] at hsum
    have esum : ∑ j ∈ Finset.Ico (k+1) (n-1), (K (x (j+1))/2)^2 * (φ (c j) - φ (c (j+1))) =
        ∑ j ∈ Finset.range (n-1-(k+1)), (K (x (k+1+(j+1)))/2)^2 * (-φ (c (k+1+(j+1))) - -φ (c (k+1+j))) := by
      rw [Finset.sum_Ico_eq_sum_range]
      apply Finset.sum_congr rfl
      intro j _
      rw [Nat.add_assoc (k+1) j 1]
      ring
    rw [esum, hsplit]
    generalize ∑ j ∈ Finset.range (n-1-(k+1)), (K (x (k+1+(j+1)))/2)^2 * (-φ (c (k+1+(j+1))) - -φ (c (k+1+j))) = Sg at *
    generalize ∫ y in (c (k+1))..(c (n-1)), G y * ψ y = Q at *
    generalize ∫ y in ρ..(c (k+1)), G y * ψ y = P at *
    generalize ∫ y in (x (n-1))..(c (n-1)), G y * ψ y = W at *
    have hmm := hφm (c (k+1)) (c (n-1)) hρc hcm'
    have hmρ := hφm ρ (c (k+1)) le_rfl hρc
    have hsum2 : |Sg - Q| ≤ C * S * d / 4 * φ ρ := by
      refine hsum.trans (mul_le_mul_of_nonneg_left ?_ (by positivity))
      rw [abs_le]
      have := hφ0 (c (n-1))
      constructor <;> linarith
    have hFP : |F - P| ≤ C^2/4 * (M * (2.5 * d)) := by
      have h1 : φ ρ - φ (c (k+1)) ≤ M * (2.5 * d) := by
        refine (hM ρ _ le_rfl hρc).trans (mul_le_mul_of_nonneg_left ?_ hM0)
        linarith
      have h2 : φ (x k) - φ (c k) ≤ φ ρ - φ (c (k+1)) := by
        have g1 := hφm ρ (x k) le_rfl hk1.le
        have g2 := hφm (c k) (c (k+1)) (by linarith) (hcm k (by omega))
        linarith
      have h3 : F ≤ C^2/4 * (M * (2.5 * d)) := hF0.2.trans (mul_le_mul_of_nonneg_left (h2.trans h1) hC4)
      have h4 : P ≤ C^2/4 * (M * (2.5 * d)) := p1.trans (mul_le_mul_of_nonneg_left h1 hC4)
      rw [abs_le]
      have := hF0.1
      constructor <;> linarith
    have hW : |W| ≤ C^2/4 * (M * (d/2)) := by
      rw [abs_of_nonneg q0]
      refine q1.trans (mul_le_mul_of_nonneg_left ?_ hC4)
      refine (hM _ _ (by linarith) (by linarith)).trans (le_of_eq ?_)
      rw [hcl]; ring
    have e : F + Sg - (P + Q - W) = (F - P) + (Sg - Q) + W := by ring
    rw [e]
    refine (abs_add_le _ _).trans ((add_le_add ((abs_add_le _ _).trans (add_le_add hFP hsum2)) hW).trans (le_of_eq ?_))
    ring
  · have hkn : k = n - 1 := by omega
    rw [Finset.Ico_eq_empty (by omega), Finset.sum_empty, add_zero]
    obtain ⟨p0, p1⟩ := hpiece ρ (x (n-1)) le_rfl (by linarith)
    generalize ∫ y in ρ..(x (n-1)), G y * ψ y = P at *
    have h1 : φ ρ - φ (x (n-1)) ≤ M * (3 * d) := by
      refine (hM ρ _ le_rfl (by linarith)).trans (mul_le_mul_of_nonneg_left ?_ hM0)
      rw [← hkn]; linarith
    have h2 : φ (x k) - φ (c k) ≤ M * (3 * d) := by
      refine (hM _ _ hk1.le (by linarith)).trans (mul_le_mul_of_nonneg_left ?_ hM0)
      linarith
    have h3 := hF0.2.trans (mul_le_mul_of_nonneg_left h2 hC4)
    have h4 := p1.trans (mul_le_mul_of_nonneg_left h1 hC4)
    have h5 := hF0.1
    have h6 : |F - P| ≤ C^2/4 * (M * (3 * d)) := by
      rw [abs_le]; constructor <;> linarith
    refine h6.trans ?_
    have : 0 ≤ d * (C * S/4 * φ ρ) := mul_nonneg hd0.le hextra
    linarith

/-- the dimensionless circulation of a Lipschitz thrust is Lipschitz away from the shaft -/
theorem circulation_lipschitz (T K φ : ℝ → ℝ) (C S M ρ r1 : ℝ) (hφ : ∀ y ≥ ρ, 0 ≤ φ y) (hanti : ∀ a b, ρ ≤ a → a ≤ b → φ b ≤ φ a) (hM : ∀ a b, ρ ≤ a → a ≤ b → φ a - φ b ≤ M * (b - a))
    (hK : ∀ y, ρ ≤ y → y ≤ r1 → 0 ≤ K y ∧ K y ≤ C ∧ K y + (K y)^2/4 * φ y = T y) (hS : ∀ y z, ρ ≤ y → y ≤ z → z ≤ r1 → |T z - T y| ≤ S * (z - y)) :
    ∀ y z, ρ ≤ y → y ≤ z → z ≤ r1 → |K z - K y| ≤ (S + C^2/4 * M) * (z - y) := by
  intro y z hy hyz hz
  obtain ⟨a0, a1, a2⟩ := hK y hy (hyz.trans hz)
  obtain ⟨b0, b1, b2⟩ := hK z (hy.trans hyz) hz
  have h1 := hS y z hy hyz hz
  have h2 := hM y z hy hyz
  have h3 := hanti y z hy hyz
  have h4 := hφ z (hy.trans hyz)
  have e : (K z - K y) * (1 + (K z + K y)/4 * φ z) = (T z - T y) + (K y)^2/4 * (φ y - φ z) := by rw [← a2, ← b2]; ring
  have hg : 1 ≤ 1 + (K z + K y)/4 * φ z := by
    have : 0 ≤ (K z + K y)/4 * φ z := by positivity
    linarith
  have h5 : |K z - K y| ≤ |(K z - K y) * (1 + (K z + K y)/4 * φ z)| := by
    rw [abs_mul, abs_of_nonneg (by linarith : 0 ≤ 1 + (K z + K y)/4 * φ z)]
    exact le_mul_of_one_le_right (abs_nonneg _) hg
  have h6 : |(K y)^2/4 * (φ y - φ z)| ≤ C^2/4 * (M * (z - y)) := by
    rw [abs_of_nonneg (mul_nonneg (by positivity) (by linarith))]
    have : (K y)^2 ≤ C^2 := by gcongr
    apply mul_le_mul (by linarith) h2 (by linarith) (by positivity)
  rw [e] at h5
  have := abs_add_le (T z - T y) ((K y)^2/4 * (φ y - φ z))
  linarith

/-- C158, tip-speed ratio below 20: a turbine loaded with thrust coefficients given at any radii (piecewise-linear function `T` through them, `0 < T ≤ C ≤ Ctc`, Lipschitz constant `S`), spread by the program
over `nCyl=n≥2` stations, exact minimiser.  At any radius `ρ` of the rotor plane the thrust coefficient `4A(1-A)` of the slow-down is the prescribed one less the pressure that the rotation of the wake takes
outside of `ρ` (radial equilibrium: with the circulation `π V² K/Ω`, i.e. the tangential velocity `u_θ = V R K/(2 Λ y)`, the integral of `2u_θ²/(V² y)`), within a bound that decreases like `1/(n-1)`. -/
theorem C158_swirl (mini : (ℝ → Num) → ℝ) (R : ℝ) (hub shaft vert U0 : V3 ℝ) (L : Option Num) (gr : Bool)
    (M : String) (ho : Orthonormal shaft vert) (hR : 0 < R) (h : List Op) (pts : List (V3 ℝ)) (hp : pts ≠ []) (o : Opts) (hnw : o.no_wake = false)
    (hlo : o.longi = false) (hro : o.root = false) (hta : o.tang = true)
    (n : ℕ) (hn : 2 ≤ n) (r Ct : List ℝ) (hr : r ≠ []) (hincr : r.Pairwise (· < ·)) (hlen : Ct.length = r.length) (T K : ℝ → ℝ) (hT : Interpolates r Ct T)
    (C S : ℝ) (hC : C ≤ Ctc) (hTC : ∀ y, 0.005 * R ≤ y → y ≤ 0.995 * R → 0 < T y ∧ T y ≤ C)
    (hS : ∀ y z, 0.005 * R ≤ y → y ≤ z → z ≤ 0.995 * R → |T z - T y| ≤ S * (z - y)) (lam : ℝ) (hl : 0 < lam) (hl20 : lam < 20)
    (hmin : ∀ y, 0.005 * R ≤ y → y ≤ 0.995 * R → mini (fun k => .fin |k * (1 + k / (4 * (lam * y / R)^2)) - T y|) = K y ∧ 0 ≤ K y ∧ K y * (1 + K y / (4 * (lam * y / R)^2)) = T y) :
    let a : LoadArgs := { r := some r, Ct := some (Ct.map .fin), Lambda := some (.fin lam), nCyl := some n }
    let w := (WT.new R hub shaft vert U0 L gr M).run mini (h ++ [.loading a])
    let s := w.e_shaft_g
    ∀ V, V = V3.norm w.U0_g → 0 < V →
    o.ground.getD w.Ground = false → o.Model.getD w.Model = "VC" →
    ∀ chi, (w.computeU pts o).2.chi = some chi → ¬ (Num.fin 1e-7 < Num.abs chi) →
    ∃ u, (w.computeU pts o).1 = .ok u ∧ ∀ (i : ℕ) (p : V3 ℝ), pts[i]? = some p → ∃ v, u[i]? = some (V3.fin v) ∧
      ∀ ρ, V3.dot (p - w.r_hub) s = 0 → ρ = axisDist s w.r_hub p → 0.005 * R < ρ → ρ < 0.995 * R → (∀ j < n, 1e-8 * R ≤ |ρ - (0.005 + j * (0.99 / ((n:ℝ) - 1))) * R|) →
        ∃ A ≤ 1/2, V3.dot (v - if o.only_ind then 0 else w.U0_g) s = -(V * A) ∧
          |4 * A * (1 - A) - (T ρ - ∫ y in ρ..(0.995*R), 2 * (V * R * K y/(2 * lam * y))^2/(V^2 * y))| ≤
            0.99 * R / ((n:ℝ) - 1) * (S + 3 * (C^2 * R^2/(2 * lam^2 * ρ^3)) + C * R^2/(4 * lam^2 * ρ^2) * (S + C^2 * R^2/(2 * lam^2 * ρ^3))) := by
  intro a w s V hV hV0 hg hM chi hchi hsk
  have hn1 : (0:ℝ) < (n:ℝ) - 1 := by
    have : (2:ℝ) ≤ n := by exact_mod_cast hn
    linarith
  obtain ⟨x, hx⟩ : ∃ x : ℕ → ℝ, ∀ i, x i = (0.005 + i * (0.99 / ((n:ℝ) - 1))) * R := ⟨_, fun _ => rfl⟩
  obtain ⟨hx0, hinc, hxe, hxl, hxm, hxs⟩ := spread_stations n hn R hR x hx
  have hpos : ∀ i < n, 0 < x i := fun i hi => lt_of_lt_of_le (by positivity) (hxm i hi).1
  obtain ⟨d, hd⟩ : ∃ d, d = 0.99 * R / ((n:ℝ) - 1) := ⟨_, rfl⟩
  have hd0 : 0 < d := by rw [hd]; positivity
  have hxs' : ∀ j, x (j+1) = x j + d := by
    intro j
    have := hxs (j+1) (by omega)
    rw [Nat.add_sub_cancel, ← hd] at this
    linarith
  have hcy : ∀ j < n, rcyl n x R j = x j + d/2 := by
    intro j hj
    unfold rcyl
    rw [if_neg (by omega)]
    by_cases hjl : j = n - 1
    · have e := hxs' (n-2)
      rw [show n - 2 + 1 = n - 1 by omega] at e
      rw [if_pos hjl, hjl, e]; ring
    · rw [if_neg hjl, hxs']; ring
  have hKm : ∀ i < n, 0 ≤ K (x i) ∧ K (x i) * (1 + K (x i) / (4 * (lam * x i / R)^2)) = T (x i) := by
    intro i hi
    exact (hmin (x i) (hxm i hi).1 (hxm i hi).2).2
  obtain ⟨Km, hKmm⟩ : ∃ Km : ℕ → ℝ, ∀ i, Km i = mini (fun k => .fin |k * (1 + k / (4 * (lam * x i / R)^2)) - T (x i)|) := ⟨_, fun _ => rfl⟩
  have hKe : ∀ i < n, Km i = K (x i) := fun i hi => by rw [hKmm]; exact (hmin (x i) (hxm i hi).1 (hxm i hi).2).1
  obtain ⟨E, hE⟩ : ∃ E : ℕ → ℝ, ∀ k, E k = T (x k) - (Km k)^2/4 * (1/(lam * x k / R)^2 - 1/(lam * rcyl n x R k / R)^2) -
      ∑ j ∈ Finset.Ico (k+1) (n-1), (Km (j+1)/2)^2 * (1/(lam * rcyl n x R j / R)^2 - 1/(lam * rcyl n x R (j+1) / R)^2) := ⟨_, fun _ => rfl⟩
  obtain ⟨u, hu, H⟩ := C143_spread mini R hub shaft vert U0 L gr M ho hR h pts hp o hnw hlo hro hta n r Ct hr hincr hlen T hT x hx Km E lam hl hl20 hn
    (fun i hi => (hTC _ (hxm i hi).1 (hxm i hi).2).1) hKmm (fun i hi => by rw [hKe i hi]; exact hKm i hi) (fun k _ => hE k) V hV hV0 hg hM chi hchi hsk
  refine ⟨u, hu, fun i p hpi' => ?_⟩
  obtain ⟨v, v1, v2⟩ := H i p hpi'
  refine ⟨v, v1, fun ρ hpl hρ hρ0 hρ1 hoff => ?_⟩
  have hoff' : ∀ j < n, 1e-8 * x j ≤ |ρ - x j| := by
    intro j hj
    have h1 := hoff j hj
    rw [← hx] at h1
    have := (hxm j hj).2
    refine le_trans ?_ h1
    have : x j ≤ R := by linarith
    gcongr
  obtain ⟨k, k0, k1, k2, k3⟩ := find_station n x ρ hn hinc (by rw [hxe]; exact hρ0) (by rw [hxl]; exact hρ1) (by
    intro j hj e
    have h1 := hoff' j hj
    rw [e, sub_self, abs_zero] at h1
    have := hpos j hj
    nlinarith)
  obtain ⟨hv, hlt⟩ := v2 k k1.le hpl (by rw [← hρ]; exact hoff') (by rw [← hρ]; exact k2) (by rw [← hρ]; exact k3)
  rw [if_pos k1] at hv
  have hlt := (hlt k1).1
  obtain ⟨t0, t1⟩ := hTC _ (hxm k k1).1 (hxm k k1).2
  have hEc : E k ≤ Ctc := by linarith
  have hEC : E k ≤ 1 := hEc.trans Ctc_lt_one.le
  have ha : aOfCt (E k) = (1 - √(1 - E k))/2 := by unfold aOfCt; rw [if_pos hEc]
  have hsq := sq_sqrt (sub_nonneg.mpr hEC)
  have h4 : 4 * aOfCt (E k) * (1 - aOfCt (E k)) = E k := by rw [ha]; nlinarith
  refine ⟨aOfCt (E k), by rw [ha]; linarith [sqrt_nonneg (1 - E k)], hv, ?_⟩
  rw [h4]
  have hρp : 0 < ρ := lt_trans (by positivity) hρ0
  have hρx := k3 k k1 le_rfl
  have hρy := k2 (k-1) (by omega)
  -- the pressure term
  obtain ⟨φ, hφe⟩ : ∃ φ : ℝ → ℝ, ∀ y, φ y = 1/(lam * y / R)^2 := ⟨_, fun _ => rfl⟩
  obtain ⟨ψ, hψe⟩ : ∃ ψ : ℝ → ℝ, ∀ y, ψ y = 2 * R^2/(lam^2 * y^3) := ⟨_, fun _ => rfl⟩
  obtain ⟨B, hB⟩ : ∃ B, B = 2 * R^2/(lam^2 * ρ^3) := ⟨_, rfl⟩
  have hφd : ∀ y > 0, HasDerivAt φ (-ψ y) y := by
    intro y hy
    have hy0 : (lam * y / R)^2 ≠ 0 := by positivity
    have h1 : HasDerivAt (fun y : ℝ => (lam * y / R)^2) (2 * (lam * y / R) * (lam / R)) y := by
      have := (((hasDerivAt_id y).const_mul lam).div_const R).pow 2
      refine this.congr_deriv ?_
      simp
    have h2 := ((hasDerivAt_const y (1:ℝ)).fun_div h1 hy0)
    have h3 : φ = fun y => 1/(lam * y / R)^2 := funext hφe
    rw [h3, hψe]
    refine h2.congr_deriv ?_
    field_simp
    ring
  have hφ0 : ∀ y, 0 ≤ φ y := fun y => by rw [hφe]; positivity
  have hψ0 : ∀ y > 0, 0 ≤ ψ y := fun y hy => by rw [hψe]; positivity
  have hψc : ContinuousOn ψ (Set.Ioi 0) := by
    have : ψ = fun y => 2 * R^2/(lam^2 * y^3) := funext hψe
    rw [this]
    apply ContinuousOn.div
    · fun_prop
    · fun_prop
    · intro y hy
      have : 0 < y := hy
      positivity
  have hψB : ∀ y ≥ ρ, ψ y ≤ B := by
    intro y hy
    rw [hψe, hB]
    gcongr
  have hanti : ∀ a b, ρ ≤ a → a ≤ b → φ b ≤ φ a := by
    intro a b ha hab
    rw [hφe, hφe]
    have : 0 < a := by linarith
    gcongr
  have hMB : ∀ a b, ρ ≤ a → a ≤ b → φ a - φ b ≤ B * (b - a) := by
    intro a b ha hab
    have hmv : ∀ y ∈ Set.Icc a b, HasDerivWithinAt φ (-ψ y) (Set.Icc a b) y := fun y hy => (hφd y (by linarith [hy.1])).hasDerivWithinAt
    have := (convex_Icc a b).norm_image_sub_le_of_norm_hasDerivWithin_le (f := φ) (f' := fun y => -ψ y) (C := B) hmv (fun y hy => by
      rw [norm_neg, Real.norm_eq_abs, abs_of_nonneg (hψ0 y (by linarith [hy.1]))]
      exact hψB y (ha.trans hy.1)) (Set.left_mem_Icc.2 hab) (Set.right_mem_Icc.2 hab)
    rw [Real.norm_eq_abs, Real.norm_eq_abs, abs_of_nonneg (sub_nonneg.2 hab)] at this
    have h2 := neg_abs_le (φ b - φ a)
    linarith
  have hKy : ∀ y, ρ ≤ y → y ≤ 0.995 * R → 0 ≤ K y ∧ K y ≤ C ∧ K y + (K y)^2/4 * φ y = T y := by
    intro y hy0 hy1
    obtain ⟨-, m1, m2⟩ := hmin y (hρ0.le.trans hy0) hy1
    have hyp : 0 < y := by linarith
    have e : K y + (K y)^2/4 * φ y = T y := by
      rw [← m2, hφe]
      field_simp
    refine ⟨m1, ?_, e⟩
    have h1 := (hTC y (hρ0.le.trans hy0) hy1).2
    have h2 : 0 ≤ (K y)^2/4 * φ y := mul_nonneg (by positivity) (hφ0 y)
    linarith
  have hKL := circulation_lipschitz T K φ C S B ρ (0.995*R) (fun y _ => hφ0 y) hanti hMB hKy (fun y z hy => hS y z (hρ0.le.trans hy))
  have key := loss_limit n hn x (fun j => x j + d/2) d hd0 hxs' (fun _ _ => rfl) K φ ψ ρ C (S + C^2/4 * B) B hρp k k0 k1 hρy hρx
    (fun y hy0 hy1 => by rw [hxl] at hy1; exact ⟨(hKy y hy0 hy1).1, (hKy y hy0 hy1).2.1⟩) (fun y z hy hyz hz => by rw [hxl] at hz; exact hKL y z hy hyz hz)
    hφd hφ0 hψ0 hψc hMB
  have eE : E k = T (x k) - ((K (x k))^2/4 * (φ (x k) - φ (x k + d/2)) + ∑ j ∈ Finset.Ico (k+1) (n-1), (K (x (j+1))/2)^2 * (φ (x j + d/2) - φ (x (j+1) + d/2))) := by
    rw [hE, hKe k k1, hcy k k1, ← hφe, ← hφe, sub_sub]
    congr 2
    apply Finset.sum_congr rfl
    intro j hj
    have := Finset.mem_Ico.1 hj
    rw [hKe (j+1) (by omega), hcy j (by omega), hcy (j+1) (by omega), ← hφe, ← hφe]
  have eI : ∫ y in ρ..(0.995*R), 2 * (V * R * K y/(2 * lam * y))^2/(V^2 * y) = ∫ y in ρ..(0.995*R), (K y)^2/4 * ψ y := by
    apply intervalIntegral.integral_congr
    intro y hy
    rw [Set.uIcc_of_le hρ1.le] at hy
    have hyp : 0 < y := hρp.trans_le hy.1
    beta_reduce
    rw [hψe]
    field_simp
    ring
  rw [hxl] at key
  rw [eI, eE]
  generalize (K (x k))^2/4 * (φ (x k) - φ (x k + d/2)) + ∑ j ∈ Finset.Ico (k+1) (n-1), (K (x (j+1))/2)^2 * (φ (x j + d/2) - φ (x (j+1) + d/2)) = loss at *
  generalize ∫ y in ρ..(0.995*R), (K y)^2/4 * ψ y = I at *
  have hTl := hS ρ (x k) hρ0.le hρx.le (hxm k k1).2
  have hS0 : 0 ≤ S := by
    by_contra hneg
    have := mul_neg_of_neg_of_pos (not_le.mp hneg) (sub_pos.mpr hρx)
    linarith [abs_nonneg (T (x k) - T ρ)]
  have hxk : x k = x (k-1) + d := by
    have := hxs' (k-1)
    rwa [Nat.sub_add_cancel k0] at this
  have hTd : |T (x k) - T ρ| ≤ S * d := hTl.trans (mul_le_mul_of_nonneg_left (by linarith) hS0)
  have e : T (x k) - loss - (T ρ - I) = (T (x k) - T ρ) - (loss - I) := by ring
  rw [e, ← hd]
  refine (abs_sub _ _).trans ((add_le_add hTd key).trans (le_of_eq ?_))
  rw [hφe, hB]
  field_simp
  ring

/-- the weight `1/λ²` of the rotation at the local speed ratio `λ = Λy/R` -/
theorem swirl_weight (lam R ρ : ℝ) (hl : 0 < lam) (hR : 0 < R) (hρ : 0 < ρ) (φ : ℝ → ℝ) (hφ : ∀ y, φ y = 1/(lam * y / R)^2) :
    (∀ a b, ρ ≤ a → a ≤ b → φ b ≤ φ a) ∧ ∀ a b, ρ ≤ a → a ≤ b → φ a - φ b ≤ 2 * R^2/(lam^2 * ρ^3) * (b - a) := by
  constructor
  · intro a b ha hab
    rw [hφ, hφ]
    have : 0 < a := by linarith
    gcongr
  · intro a b ha hab
    have ha0 : 0 < a := by linarith
    have hb0 : 0 < b := by linarith
    have e : φ a - φ b = R^2/lam^2 * ((b - a) * (1/(a * b^2) + 1/(a^2 * b))) := by
      rw [hφ, hφ]
      field_simp
      ring
    have h1 : 1/(a * b^2) ≤ 1/ρ^3 := by
      have : ρ^3 ≤ a * b^2 := by
        have : ρ^2 ≤ b^2 := by gcongr; linarith
        calc ρ^3 = ρ * ρ^2 := by ring
          _ ≤ a * b^2 := by gcongr
      exact one_div_le_one_div_of_le (by positivity) this
    have h2 : 1/(a^2 * b) ≤ 1/ρ^3 := by
      have : ρ^3 ≤ a^2 * b := by
        have h3 : ρ^2 ≤ a^2 := by gcongr
        have h4 : ρ ≤ b := by linarith
        calc ρ^3 = ρ^2 * ρ := by ring
          _ ≤ a^2 * b := by gcongr
      exact one_div_le_one_div_of_le (by positivity) this
    have hba : 0 ≤ b - a := by linarith
    rw [e]
    have h5 : (b - a) * (1/(a * b^2) + 1/(a^2 * b)) ≤ (b - a) * (2/ρ^3) := by
      apply mul_le_mul_of_nonneg_left _ hba
      have : 2/ρ^3 = 1/ρ^3 + 1/ρ^3 := by ring
      rw [this]; linarith
    have h6 : R^2/lam^2 * ((b - a) * (1/(a * b^2) + 1/(a^2 * b))) ≤ R^2/lam^2 * ((b - a) * (2/ρ^3)) := mul_le_mul_of_nonneg_left h5 (by positivity)
    refine h6.trans (le_of_eq ?_)
    field_simp

/-- C158, the swirl: with the root vortex and the longitudinal vorticity, at any radius `ρ` of the rotor plane the angular momentum of the air is that of the circulation prescribed at that radius (half of the swirl
of the wake, `Γ/(4π) = V R K(ρ)/(4 Λ)`), within a bound that decreases like `1/(n-1)`. -/
theorem C158_rotation (mini : (ℝ → Num) → ℝ) (R : ℝ) (hub shaft vert U0 : V3 ℝ) (L : Option Num) (gr : Bool)
    (M : String) (ho : Orthonormal shaft vert) (hR : 0 < R) (h : List Op) (pts : List (V3 ℝ)) (hp : pts ≠ []) (o : Opts) (hnw : o.no_wake = false)
    (hlo : o.longi = true) (hro : o.root = true)
    (n : ℕ) (hn : 2 ≤ n) (r Ct : List ℝ) (hr : r ≠ []) (hincr : r.Pairwise (· < ·)) (hlen : Ct.length = r.length) (T K : ℝ → ℝ) (hT : Interpolates r Ct T)
    (C S : ℝ) (hTC : ∀ y, 0.005 * R ≤ y → y ≤ 0.995 * R → 0 < T y ∧ T y ≤ C)
    (hS : ∀ y z, 0.005 * R ≤ y → y ≤ z → z ≤ 0.995 * R → |T z - T y| ≤ S * (z - y)) (lam : ℝ) (hl : 0 < lam) (hl20 : lam < 20)
    (hmin : ∀ y, 0.005 * R ≤ y → y ≤ 0.995 * R → mini (fun k => .fin |k * (1 + k / (4 * (lam * y / R)^2)) - T y|) = K y ∧ 0 ≤ K y ∧ K y * (1 + K y / (4 * (lam * y / R)^2)) = T y) :
    let a : LoadArgs := { r := some r, Ct := some (Ct.map .fin), Lambda := some (.fin lam), nCyl := some n }
    let w := (WT.new R hub shaft vert U0 L gr M).run mini (h ++ [.loading a])
    let s := w.e_shaft_g
    ∀ V, V = V3.norm w.U0_g → 0 < V →
    o.ground.getD w.Ground = false → o.Model.getD w.Model = "VC" →
    ∀ chi, (w.computeU pts o).2.chi = some chi → ¬ (Num.fin 1e-7 < Num.abs chi) →
    ∃ u, (w.computeU pts o).1 = .ok u ∧ ∀ (i : ℕ) (p : V3 ℝ) (ρ : ℝ), pts[i]? = some p → V3.dot (p - w.r_hub) s = 0 → ρ = axisDist s w.r_hub p →
      0.005 * R < ρ → ρ < 0.995 * R → (∀ j < n, ρ ≠ (0.005 + j * (0.99 / ((n:ℝ) - 1))) * R) →
      ∃ v, u[i]? = some (V3.fin v) ∧
        |ρ * swirlAbout s w.r_hub p (v - if o.only_ind then 0 else w.U0_g) + V * R * K ρ/(4 * lam)| ≤
          V * R/(4 * lam) * ((S + C^2 * R^2/(2 * lam^2 * ρ^3)) * (0.99 * R / ((n:ℝ) - 1))) := by
  intro a w s V hV hV0 hg hM chi hchi hsk
  have hn1 : (0:ℝ) < (n:ℝ) - 1 := by
    have : (2:ℝ) ≤ n := by exact_mod_cast hn
    linarith
  obtain ⟨x, hx⟩ : ∃ x : ℕ → ℝ, ∀ i, x i = (0.005 + i * (0.99 / ((n:ℝ) - 1))) * R := ⟨_, fun _ => rfl⟩
  obtain ⟨hx0, hinc, hxe, hxl, hxm, hxs⟩ := spread_stations n hn R hR x hx
  obtain ⟨u, hu, H⟩ := C142_spread mini R hub shaft vert U0 L gr M ho hR h pts hp o hnw hlo hro n r Ct hr hincr hlen T hT x hx lam 0 hl hl20 hn
    (fun i hi => (hTC _ (hxm i hi).1 (hxm i hi).2).1) (fun i hi => by
      obtain ⟨m0, m1, m2⟩ := hmin (x i) (hxm i hi).1 (hxm i hi).2
      exact ⟨_, m0, m1, by rw [m2, sub_self, abs_zero]⟩) (by rw [← hV]; exact hV0) hg hM chi hchi hsk
  rw [← hV] at H
  refine ⟨u, hu, fun i p ρ hpi hpl hρ hρ0 hρ1 hoff => ?_⟩
  have hρp : 0 < ρ := lt_trans (by positivity) hρ0
  obtain ⟨k, k0, k1, k2, k3⟩ := find_station n x ρ hn hinc (by rw [hxe]; exact hρ0) (by rw [hxl]; exact hρ1) (by
    intro j hj; rw [hx]; exact hoff j hj)
  obtain ⟨v, v1, v2, -⟩ := H i p ρ k hpi hpl hρ hρp k1.le k2 k3
  refine ⟨v, v1, ?_⟩
  have hρx := k3 k k1 le_rfl
  have hρy := k2 (k-1) (by omega)
  have hxk0 : 0 < x k := by linarith
  obtain ⟨-, m1, m2⟩ := hmin (x k) (hxm k k1).1 (hxm k k1).2
  have key := v2 k1 (K (x k)/(4 * (lam * x k/R)^2)) (by positivity) (by rw [← m2]; field_simp)
  rw [zero_mul, zero_mul, zero_div] at key
  have e1 : K (x k)/(4 * (lam * x k/R)^2) * (lam * V / R) * x k^2 = V * R * K (x k)/(4 * lam) := by field_simp
  have e2 := abs_eq_zero.1 (le_antisymm key (abs_nonneg _))
  rw [e1] at e2
  obtain ⟨φ, hφe⟩ : ∃ φ : ℝ → ℝ, ∀ y, φ y = 1/(lam * y / R)^2 := ⟨_, fun _ => rfl⟩
  obtain ⟨w1, w2⟩ := swirl_weight lam R ρ hl hR hρp φ hφe
  have hφ0 : ∀ y, 0 ≤ φ y := fun y => by rw [hφe]; positivity
  have hKL := circulation_lipschitz T K φ C S (2 * R^2/(lam^2 * ρ^3)) ρ (0.995*R) (fun y _ => hφ0 y) w1 w2 (by
    intro y hy0 hy1
    obtain ⟨-, m1, m2⟩ := hmin y (hρ0.le.trans hy0) hy1
    have hyp : 0 < y := by linarith
    have e : K y + (K y)^2/4 * φ y = T y := by
      rw [← m2, hφe]
      field_simp
    refine ⟨m1, ?_, e⟩
    have h1 := (hTC y (hρ0.le.trans hy0) hy1).2
    have h2 : 0 ≤ (K y)^2/4 * φ y := mul_nonneg (by positivity) (hφ0 y)
    linarith) (fun y z hy => hS y z (hρ0.le.trans hy)) ρ (x k) le_rfl hρx.le (hxm k k1).2
  have hstep := hxs k k0
  have hS0 : 0 ≤ S + C^2/4 * (2 * R^2/(lam^2 * ρ^3)) := by
    by_contra hneg
    have := mul_neg_of_neg_of_pos (not_le.mp hneg) (sub_pos.mpr hρx)
    linarith [abs_nonneg (K (x k) - K ρ)]
  have h1 : |K (x k) - K ρ| ≤ (S + C^2/4 * (2 * R^2/(lam^2 * ρ^3))) * (0.99 * R / ((n:ℝ) - 1)) :=
    hKL.trans (mul_le_mul_of_nonneg_left (by linarith) hS0)
  have e3 : ρ * swirlAbout s w.r_hub p (v - if o.only_ind then 0 else w.U0_g) + V * R * K ρ/(4 * lam) = -(V * R/(4 * lam) * (K (x k) - K ρ)) := by
    have : ρ * swirlAbout s w.r_hub p (v - if o.only_ind then 0 else w.U0_g) = -(V * R * K (x k)/(4 * lam)) := by linarith
    rw [this]; ring
  rw [e3, abs_neg, abs_mul, abs_of_pos (by positivity : 0 < V * R/(4 * lam))]
  have e4 : C^2 * R^2/(2 * lam^2 * ρ^3) = C^2/4 * (2 * R^2/(lam^2 * ρ^3)) := by
    field_simp
    ring
  rw [e4]
  exact mul_le_mul_of_nonneg_left h1 (by positivity)

/-- a concrete case with wake rotation: thrust coefficient 1/2 over a 50 m rotor, tip-speed ratio 5, 1001 stations: 30 m from the shaft the thrust coefficient of the slow-down is 1/2 less the pressure of the
rotation within 1e-4, and with root vortex and longitudinal vorticity the angular momentum of the induced velocity there is that of the circulation within 0.02 -/
example : ∃ (mini : (ℝ → Num) → ℝ) (K : ℝ → ℝ), (∀ y, 0.005 * 50 ≤ y → y ≤ 0.995 * 50 → 0 ≤ K y ∧ K y * (1 + K y / (4 * (5 * y / 50)^2)) = 1/2) ∧
    let w := (WT.new 50 ⟨1,2,3⟩ ⟨0,0,1⟩ ⟨0,1,0⟩ ⟨0,0,10⟩ none false "VC").run mini
      ([.chi (some 0)] ++ [.loading { r := some [0, 50], Ct := some ([1/2, 1/2].map Num.fin), Lambda := some (.fin 5), nCyl := some 1001 }])
    ∃ u, (w.computeU [⟨31,2,3⟩] {}).1 = .ok u ∧ ∃ v, u[0]? = some (V3.fin v) ∧
      ∃ A ≤ 1/2, V3.dot (v - ⟨0,0,10⟩) ⟨0,0,1⟩ = -(10 * A) ∧ |4 * A * (1 - A) - (1/2 - ∫ y in (30:ℝ)..(0.995*50), 2 * (10 * 50 * K y/(2 * 5 * y))^2/(10^2 * y))| ≤ 1e-4 ∧
    ∃ u, (w.computeU [⟨31,2,3⟩] { longi := true, root := true }).1 = .ok u ∧ ∃ v, u[0]? = some (V3.fin v) ∧
      |30 * swirlAbout ⟨0,0,1⟩ ⟨1,2,3⟩ ⟨31,2,3⟩ (v - ⟨0,0,10⟩) + 10 * 50 * K 30/(4 * 5)| ≤ 0.02 := by
  obtain ⟨mini, hmini⟩ : ∃ mini : (ℝ → Num) → ℝ, mini = fun f => if h : ∃ K, 0 ≤ K ∧ f K = .fin 0 then h.choose else 0 := ⟨_, rfl⟩
  obtain ⟨K, hKd⟩ : ∃ K : ℝ → ℝ, ∀ y, K y = mini (fun k => .fin |k * (1 + k / (4 * (5 * y / 50)^2)) - 1/2|) := ⟨_, fun _ => rfl⟩
  have hm : ∀ y : ℝ, 0.005 * 50 ≤ y → y ≤ 0.995 * 50 → ∃ K, mini (fun k => .fin |k * (1 + k / (4 * (5 * y / 50)^2)) - 1/2|) = K ∧ 0 ≤ K ∧
      K * (1 + K / (4 * (5 * y / 50)^2)) = 1/2 := by
    intro y hy _
    have hl : 0 < 5 * y / 50 := by linarith
    generalize 5 * y / 50 = l at *
    obtain ⟨K, ⟨k1, _, k2⟩, _⟩ := C26_unique_root l (1/2) hl (by norm_num)
    have hex : ∃ K, 0 ≤ K ∧ (fun k => Num.fin |k * (1 + k / (4 * l^2)) - 1/2|) K = .fin 0 := ⟨K, k1.le, by simp only [k2]; simp⟩
    refine ⟨hex.choose, by rw [hmini]; simp only; rw [dif_pos hex], hex.choose_spec.1, ?_⟩
    have := Num.fin.inj hex.choose_spec.2
    exact sub_eq_zero.mp (abs_eq_zero.mp this)
  have hm' : ∀ y : ℝ, 0.005 * 50 ≤ y → y ≤ 0.995 * 50 → mini (fun k => .fin |k * (1 + k / (4 * (5 * y / 50)^2)) - 1/2|) = K y ∧ 0 ≤ K y ∧
      K y * (1 + K y / (4 * (5 * y / 50)^2)) = 1/2 := by
    intro y h0 h1
    obtain ⟨K', e, e1, e2⟩ := hm y h0 h1
    have : K y = K' := by rw [hKd, e]
    rw [this]
    exact ⟨e, e1, e2⟩
  refine ⟨mini, K, fun y h0 h1 => (hm' y h0 h1).2, ?_⟩
  intro w
  have hn : V3.norm (⟨0,0,10⟩ : V3 ℝ) = 10 := by unfold V3.norm; simp
  obtain ⟨a, ha⟩ : ∃ a : LoadArgs, a = { r := some [0, 50], Ct := some ([1/2, 1/2].map Num.fin), Lambda := some (.fin 5), nCyl := some 1001 } := ⟨_, rfl⟩
  have hw : w = (WT.new 50 ⟨1,2,3⟩ ⟨0,0,1⟩ ⟨0,1,0⟩ ⟨0,0,10⟩ none false "VC").run mini ([.chi (some 0)] ++ [.loading a]) := by rw [ha]
  clear_value w
  clear hmini
  obtain ⟨e1, e2, -, -, e5, -, -, -, -, -, e11, e12, e13, e14⟩ := loading_frame mini
    ((WT.new 50 ⟨1,2,3⟩ ⟨0,0,1⟩ ⟨0,1,0⟩ ⟨0,0,10⟩ none false "VC").run mini [.chi (some 0)]) a
  have f2 : w.r_hub = ⟨1,2,3⟩ := by rw [hw]; exact e2
  have f5 : w.e_shaft_g = ⟨0,0,1⟩ := by
    rw [hw]
    refine e5.trans ?_
    have := (frame_run mini ⟨0,0,1⟩ ⟨0,1,0⟩ 50 [.chi (some 0)] _ (frame_new 50 ⟨1,2,3⟩ ⟨0,0,1⟩ ⟨0,1,0⟩ ⟨0,0,10⟩ none false "VC")).e_shaft_g
    rw [turn_eq] at this
    refine this.trans ?_
    change turn _ 0 _ = _
    unfold turn
    ext <;> simp
  have f11 : w.U0_g = ⟨0,0,10⟩ := by rw [hw]; exact e11
  have f12 : w.Ground = false := by rw [hw]; exact e12
  have f13 : w.chi = some 0 := by rw [hw]; exact e13
  have f14 : w.Model = "VC" := by rw [hw]; exact e14
  have H := C158_swirl mini 50 ⟨1,2,3⟩ ⟨0,0,1⟩ ⟨0,1,0⟩ ⟨0,0,10⟩ none false "VC" ⟨by simp [V3.dot], by simp [V3.dot], by simp [V3.dot]⟩ (by norm_num)
    [.chi (some 0)] [⟨31,2,3⟩] (by simp) {} rfl rfl rfl rfl 1001 (by norm_num) [0, 50] [1/2, 1/2] (by simp) (by simp) rfl _ K (interpolates_const 0 50 (1/2))
    (1/2) 0 (by norm_num [Ctc, ac]) (fun y _ _ => by norm_num) (fun y z _ _ _ => by simp) 5 (by norm_num) (by norm_num) hm'
  rw [← ha] at H
  simp only [← hw] at H
  obtain ⟨u, hu, H⟩ := H 10 (by rw [f11, hn]) (by norm_num) (by rw [f12]; rfl) (by rw [f14]; rfl) 0
    (by rw [computeU_state]; change some (match w.chi with | some c => c | none => w.chiAuto) = _; rw [f13])
    (by simp [Num.abs_fin, Num.zero_def, Num.lt_fin]; norm_num)
  rw [f2, f5, f11] at H
  obtain ⟨v, v1, v2⟩ := H 0 ⟨31,2,3⟩ rfl
  have h30 : (30:ℝ) = axisDist ⟨0,0,1⟩ ⟨1,2,3⟩ ⟨31,2,3⟩ := by
    unfold axisDist V3.norm V3.cross
    norm_num [show √(900:ℝ) = 30 by rw [show (900:ℝ) = 30^2 by norm_num]; exact sqrt_sq (by norm_num)]
  obtain ⟨A, A1, A2, A3⟩ := v2 30 (by simp [V3.dot]) h30 (by norm_num) (by norm_num) (by
    intro j hj
    have : (j:ℝ) ≤ 601 ∨ (602:ℝ) ≤ j := by
      rcases Nat.lt_or_ge j 602 with h | h
      · left; exact_mod_cast Nat.lt_succ_iff.mp h
      · right; exact_mod_cast h
    rw [le_abs]
    rcases this with h | h
    · left; norm_num; linarith
    · right; norm_num; linarith)
  refine ⟨u, hu, v, v1, A, A1, A2, A3.trans (by norm_num), ?_⟩
  have H := C158_rotation mini 50 ⟨1,2,3⟩ ⟨0,0,1⟩ ⟨0,1,0⟩ ⟨0,0,10⟩ none false "VC" ⟨by simp [V3.dot], by simp [V3.dot], by simp [V3.dot]⟩ (by norm_num)
    [.chi (some 0)] [⟨31,2,3⟩] (by simp) { longi := true, root := true } rfl rfl rfl 1001 (by norm_num) [0, 50] [1/2, 1/2] (by simp) (by simp) rfl _ K (interpolates_const 0 50 (1/2))
    (1/2) 0 (fun y _ _ => by norm_num) (fun y z _ _ _ => by simp) 5 (by norm_num) (by norm_num) hm'
  rw [← ha] at H
  simp only [← hw] at H
  obtain ⟨u, hu, H⟩ := H 10 (by rw [f11, hn]) (by norm_num) (by rw [f12]; rfl) (by rw [f14]; rfl) 0
    (by rw [computeU_state]; change some (match w.chi with | some c => c | none => w.chiAuto) = _; rw [f13])
    (by simp [Num.abs_fin, Num.zero_def, Num.lt_fin]; norm_num)
  rw [f2, f5, f11] at H
  obtain ⟨v, v1, v2⟩ := H 0 ⟨31,2,3⟩ 30 rfl (by simp [V3.dot]) h30 (by norm_num) (by norm_num) (by
    intro j hj e
    have : (j:ℝ) ≤ 601 ∨ (602:ℝ) ≤ j := by
      rcases Nat.lt_or_ge j 602 with h | h
      · left; exact_mod_cast Nat.lt_succ_iff.mp h
      · right; exact_mod_cast h
    norm_num at e
    rcases this with h | h <;> linarith)
  exact ⟨u, hu, v, v1, v2.trans (by norm_num)⟩

end
end Wiz
