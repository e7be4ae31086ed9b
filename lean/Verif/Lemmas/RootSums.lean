import Mathlib.RingTheory.RootsOfUnity.Complex
import Mathlib.Analysis.SpecialFunctions.Trigonometric.Basic
import Mathlib.Analysis.SpecialFunctions.Complex.Circle
import Mathlib.Algebra.Field.GeomSum
import Mathlib.Algebra.BigOperators.Field

/-! # Sums over equidistant azimuths -/
namespace Wiz
open Complex

theorem roots_sum (N : ℕ) (hN : 0 < N) (k : ℕ) :
    ∑ j ∈ Finset.range N, (Complex.exp (2 * Real.pi * I / N))^(j * k) = if N ∣ k then (N : ℂ) else 0 := by
  have hp := Complex.isPrimitiveRoot_exp N hN.ne'
  set ζ := Complex.exp (2 * Real.pi * I / N) with hζ
  have e : ∀ j, ζ^(j * k) = (ζ^k)^j := fun j => by rw [← pow_mul, mul_comm]
  simp only [e]
  split_ifs with h
  · rw [(hp.pow_eq_one_iff_dvd k).mpr h]
    simp
  · have h1 : ζ^k ≠ 1 := fun h1 => h ((hp.pow_eq_one_iff_dvd k).mp h1)
    rw [geom_sum_eq h1, ← pow_mul, mul_comm, pow_mul, hp.pow_eq_one]
    simp

theorem pole_sum (N : ℕ) (hN : 0 < N) (x : ℂ) (hx : ‖x‖ < 1) :
    ∑ j ∈ Finset.range N, 1 / (1 - x * (Complex.exp (2 * Real.pi * I / N))^j) = N / (1 - x^N) ∧
    ∑ j ∈ Finset.range N, (Complex.exp (2 * Real.pi * I / N))^j / (1 - x * (Complex.exp (2 * Real.pi * I / N))^j) = N * x^(N-1) / (1 - x^N) := by
  have hp := Complex.isPrimitiveRoot_exp N hN.ne'
  have hz : ‖Complex.exp (2 * Real.pi * I / N)‖ = 1 := hp.norm'_eq_one hN.ne'
  have hrs := roots_sum N hN
  generalize Complex.exp (2 * Real.pi * I / N) = ζ at *
  have hxN : 1 - x^N ≠ 0 := by
    intro h
    have : ‖x^N‖ = 1 := by rw [show x^N = 1 by linear_combination -h]; simp
    rw [norm_pow] at this
    have := pow_lt_one₀ (norm_nonneg x) hx hN.ne'
    linarith
  have hne : ∀ j, 1 - x * ζ^j ≠ 0 := by
    intro j h
    have : ‖x * ζ^j‖ = 1 := by rw [show x * ζ^j = 1 by linear_combination -h]; simp
    rw [norm_mul, norm_pow, hz, one_pow, mul_one] at this
    linarith
  have hg : ∀ j, 1 / (1 - x * ζ^j) = (∑ k ∈ Finset.range N, x^k * ζ^(j*k)) / (1 - x^N) := by
    intro j
    rw [div_eq_div_iff (hne j) hxN]
    have h1 : ∑ k ∈ Finset.range N, x^k * ζ^(j*k) = ∑ k ∈ Finset.range N, (x * ζ^j)^k := by
      apply Finset.sum_congr rfl
      intro k _
      rw [mul_pow, pow_mul]
    have h2 := mul_neg_geom_sum (x * ζ^j) N
    rw [h1, mul_comm _ (1 - x * ζ^j), h2, mul_pow, ← pow_mul, mul_comm j N, pow_mul, hp.pow_eq_one]
    ring
  constructor
  · simp only [hg]
    rw [← Finset.sum_div, Finset.sum_comm]
    congr 1
    have : ∀ k ∈ Finset.range N, ∑ j ∈ Finset.range N, x^k * ζ^(j*k) = if k = 0 then (N:ℂ) else 0 := by
      intro k hk
      rw [← Finset.mul_sum, hrs k]
      by_cases h0 : k = 0
      · simp [h0]
      · rw [if_neg, if_neg h0, mul_zero]
        intro hd
        have := Nat.le_of_dvd (Nat.pos_of_ne_zero h0) hd
        have := Finset.mem_range.mp hk
        omega
    rw [Finset.sum_congr rfl this, Finset.sum_ite_eq' , if_pos (Finset.mem_range.mpr hN)]
  · have hg' : ∀ j, ζ^j / (1 - x * ζ^j) = (∑ k ∈ Finset.range N, x^k * ζ^(j*(k+1))) / (1 - x^N) := by
      intro j
      rw [show ζ^j / (1 - x * ζ^j) = ζ^j * (1 / (1 - x * ζ^j)) by ring, hg, ← mul_div_assoc, Finset.mul_sum]
      congr 1
      apply Finset.sum_congr rfl
      intro k _
      rw [mul_add, pow_add]; ring
    simp only [hg']
    rw [← Finset.sum_div, Finset.sum_comm]
    congr 1
    have : ∀ k ∈ Finset.range N, ∑ j ∈ Finset.range N, x^k * ζ^(j*(k+1)) = if k = N - 1 then (N:ℂ) * x^(N-1) else 0 := by
      intro k hk
      rw [← Finset.mul_sum, hrs (k+1)]
      by_cases h0 : k = N - 1
      · rw [if_pos h0, if_pos (by rw [h0, Nat.sub_add_cancel hN]), h0]; ring
      · rw [if_neg, if_neg h0, mul_zero]
        intro hd
        have := Nat.le_of_dvd (Nat.succ_pos k) hd
        have := Finset.mem_range.mp hk
        omega
    rw [Finset.sum_congr rfl this, Finset.sum_ite_eq', if_pos (Finset.mem_range.mpr (by omega))]

/-- the mean over `N` equidistant azimuths, starting at `φ`, of `cos θ/(1+q²-2q cos θ)` and of `sin θ/(1+q²-2q cos θ)` -/
theorem azimuth_sums (N : ℕ) (hN : 0 < N) (q φ : ℝ) (hq : |q| < 1) :
    let w : ℂ := (q : ℂ)^(N-1) * Complex.exp (N * φ * I) / (1 - (q : ℂ)^N * Complex.exp (N * φ * I))
    (1 - q^2) * ∑ j ∈ Finset.range N, Real.cos (φ + j * (2 * Real.pi / N)) / (1 + q^2 - 2 * q * Real.cos (φ + j * (2 * Real.pi / N))) =
      N * (q + (1 + q^2) * w.re) ∧
    ∑ j ∈ Finset.range N, Real.sin (φ + j * (2 * Real.pi / N)) / (1 + q^2 - 2 * q * Real.cos (φ + j * (2 * Real.pi / N))) = N * w.im := by
  intro w
  have hN0 : (N:ℂ) ≠ 0 := by exact_mod_cast hN.ne'
  set ε := Complex.exp (φ * I) with hε
  have hεn : ‖ε‖ = 1 := Complex.norm_exp_ofReal_mul_I φ
  have hxn : ‖(q:ℂ) * ε‖ < 1 := by rw [norm_mul, hεn, mul_one, Complex.norm_real]; exact hq
  obtain ⟨s1, s2⟩ := pole_sum N hN (q * ε) hxn
  have hpow : Complex.exp (N * φ * I) = ε^N := by rw [hε, ← Complex.exp_nat_mul]; congr 1; ring
  have hω : ∀ j : ℕ, ε * (Complex.exp (2 * Real.pi * I / N))^j =
      Complex.exp (((φ + j * (2 * Real.pi / N) : ℝ) : ℂ) * I) := by
    intro j
    rw [hε, ← Complex.exp_nat_mul, ← Complex.exp_add]
    congr 1
    push_cast
    field_simp
  have hD : (1 - (q * ε)^N) ≠ 0 := by
    intro h
    have : ‖(q * ε)^N‖ = 1 := by rw [show (q * ε)^N = 1 by linear_combination -h]; simp
    rw [norm_pow] at this
    have := pow_lt_one₀ (norm_nonneg _) hxn hN.ne'
    linarith
  -- the second sum, multiplied by ε
  have t1 : ∑ j ∈ Finset.range N, 1 / (1 - q * Complex.exp (((φ + j * (2 * Real.pi / N) : ℝ) : ℂ) * I)) = N * (1 + q * w) := by
    have : ∀ j ∈ Finset.range N, 1 / (1 - q * Complex.exp (((φ + j * (2 * Real.pi / N) : ℝ) : ℂ) * I)) =
        1 / (1 - q * ε * (Complex.exp (2 * Real.pi * I / N))^j) := by
      intro j _; rw [← hω j, mul_assoc (q:ℂ) ε]
    rw [Finset.sum_congr rfl this, s1]
    show _ = (N:ℂ) * (1 + q * ((q : ℂ)^(N-1) * Complex.exp (N * φ * I) / (1 - (q : ℂ)^N * Complex.exp (N * φ * I))))
    rw [hpow, ← mul_pow]
    have hqN : (q:ℂ) * (q^(N-1) * ε^N / (1 - (q*ε)^N)) = (q*ε)^N / (1 - (q*ε)^N) := by
      rw [mul_div_assoc', ← mul_assoc, ← pow_succ', Nat.sub_add_cancel hN, mul_pow]
    rw [hqN]
    field_simp
    ring
  have t2 : ∑ j ∈ Finset.range N, Complex.exp (((φ + j * (2 * Real.pi / N) : ℝ) : ℂ) * I) / (1 - q * Complex.exp (((φ + j * (2 * Real.pi / N) : ℝ) : ℂ) * I)) = N * w := by
    have : ∀ j ∈ Finset.range N, Complex.exp (((φ + j * (2 * Real.pi / N) : ℝ) : ℂ) * I) / (1 - q * Complex.exp (((φ + j * (2 * Real.pi / N) : ℝ) : ℂ) * I)) =
        ε * ((Complex.exp (2 * Real.pi * I / N))^j / (1 - q * ε * (Complex.exp (2 * Real.pi * I / N))^j)) := by
      intro j _; rw [← hω j, mul_assoc (q:ℂ) ε, mul_div_assoc]
    rw [Finset.sum_congr rfl this, ← Finset.mul_sum, s2]
    show _ = (N:ℂ) * ((q : ℂ)^(N-1) * Complex.exp (N * φ * I) / (1 - (q : ℂ)^N * Complex.exp (N * φ * I)))
    rw [hpow, ← mul_pow, mul_pow (q:ℂ) ε (N-1)]
    have : ε^N = ε * ε^(N-1) := by rw [← pow_succ', Nat.sub_add_cancel hN]
    rw [this]
    ring
  -- real and imaginary parts of the terms
  have hpos : ∀ t : ℝ, 0 < 1 + q^2 - 2*q*Real.cos t := by
    intro t
    have h1 := Real.cos_le_one t
    have h2 := Real.neg_one_le_cos t
    obtain ⟨h3, h4⟩ := abs_lt.mp hq
    nlinarith [mul_nonneg (show 0 ≤ 1 - Real.cos t by linarith) (show 0 ≤ 1 + Real.cos t by linarith), sq_nonneg (q - Real.cos t), Real.sin_sq_add_cos_sq t,
      mul_pos (show 0 < 1 - q by linarith) (show 0 < 1 - q by linarith), mul_pos (show 0 < 1 + q by linarith) (show 0 < 1 + q by linarith)]
  have hinv : ∀ t : ℝ, (1 / (1 - (q:ℂ) * Complex.exp ((t:ℂ) * I))) = ⟨(1 - q * Real.cos t) / (1 + q^2 - 2*q*Real.cos t), q * Real.sin t / (1 + q^2 - 2*q*Real.cos t)⟩ := by
    intro t
    have hp := hpos t
    have hexp : Complex.exp ((t:ℂ) * I) = ⟨Real.cos t, Real.sin t⟩ := by
      apply Complex.ext
      · rw [Complex.exp_ofReal_mul_I_re]
      · rw [Complex.exp_ofReal_mul_I_im]
    have h1 := Real.sin_sq_add_cos_sq t
    rw [hexp]
    obtain ⟨D, hD⟩ : ∃ D, D = 1 + q^2 - 2*q*Real.cos t := ⟨_, rfl⟩
    rw [← hD] at hp ⊢
    have hp := hp.ne'
    have hmul : (1 - (q:ℂ) * (⟨Real.cos t, Real.sin t⟩ : ℂ)) * ⟨(1 - q * Real.cos t) / D, q * Real.sin t / D⟩ = 1 := by
      apply Complex.ext
      · simp only [Complex.mul_re, Complex.sub_re, Complex.sub_im, Complex.one_re, Complex.one_im, Complex.ofReal_re, Complex.ofReal_im, Complex.mul_im]
        field_simp
        linear_combination q^2 * h1 - hD
      · simp only [Complex.mul_re, Complex.sub_re, Complex.sub_im, Complex.one_re, Complex.one_im, Complex.ofReal_re, Complex.ofReal_im, Complex.mul_im]
        field_simp
        ring
    exact (eq_one_div_of_mul_eq_one_right hmul).symm
  have hinv2 : ∀ t : ℝ, Complex.exp ((t:ℂ) * I) / (1 - (q:ℂ) * Complex.exp ((t:ℂ) * I)) =
      ⟨(Real.cos t - q) / (1 + q^2 - 2*q*Real.cos t), Real.sin t / (1 + q^2 - 2*q*Real.cos t)⟩ := by
    intro t
    have hp := hpos t
    have h1 := Real.sin_sq_add_cos_sq t
    rw [div_eq_mul_one_div, hinv t]
    obtain ⟨D, hD⟩ : ∃ D, D = 1 + q^2 - 2*q*Real.cos t := ⟨_, rfl⟩
    rw [← hD] at hp ⊢
    have hp := hp.ne'
    apply Complex.ext
    · rw [Complex.mul_re, Complex.exp_ofReal_mul_I_re, Complex.exp_ofReal_mul_I_im]
      simp only
      field_simp
      linear_combination -q * h1
    · rw [Complex.mul_im, Complex.exp_ofReal_mul_I_re, Complex.exp_ofReal_mul_I_im]
      simp only
      field_simp
      ring
  have r1 := congrArg Complex.re t1
  have r2 := congrArg Complex.re t2
  have i2 := congrArg Complex.im t2
  simp only [hinv, hinv2, Complex.re_sum, Complex.im_sum] at r1 r2 i2
  have eN1 : ((N:ℂ) * (1 + q * w)).re = N * (1 + q * w.re) := by simp
  have eN2 : ((N:ℂ) * w).re = N * w.re := by simp
  have eN3 : ((N:ℂ) * w).im = N * w.im := by simp
  rw [eN1] at r1
  rw [eN2] at r2
  rw [eN3] at i2
  refine ⟨?_, i2⟩
  have : ∀ j ∈ Finset.range N, (1 - q^2) * (Real.cos (φ + j * (2 * Real.pi / N)) / (1 + q^2 - 2 * q * Real.cos (φ + j * (2 * Real.pi / N)))) =
      q * ((1 - q * Real.cos (φ + j * (2 * Real.pi / N))) / (1 + q^2 - 2 * q * Real.cos (φ + j * (2 * Real.pi / N)))) +
      (Real.cos (φ + j * (2 * Real.pi / N)) - q) / (1 + q^2 - 2 * q * Real.cos (φ + j * (2 * Real.pi / N))) := by
    intro j _
    have hp := hpos (φ + j * (2 * Real.pi / N))
    generalize Real.cos (φ + j * (2 * Real.pi / N)) = c at *
    field_simp
    ring
  rw [Finset.mul_sum, Finset.sum_congr rfl this, Finset.sum_add_distrib, ← Finset.mul_sum, r1, r2]
  ring

end Wiz
