import Verif.Lemmas.RootSums
import Verif.Lemmas.RotorDisk2
import Verif.Props.VortexCylinderSkewed
import Verif.Props.SkewAccuracy

/-! # C118: the velocity at the rotor centre of a skewed cylinder, for any number of quadrature points

The trailed-vorticity script (wiz/article_skew/test_Skew_TrailedVorticity.py:48-49) scales by
`u_{y,0} = γ_l/2 tan(χ/2)`, the value at the rotor centre. -/
namespace Wiz
open Spec Real

/-- the trapezoidal rule over a turn of a periodic function is its mean over equidistant azimuths -/
theorem turn_mean (θ0 : ℝ) (N : ℕ) (hN : 0 < N) (f : ℝ → ℝ) (hf : ∀ x, f (x + 2*π) = f x) :
    turnRule θ0 N f = 2*π/N * ∑ i ∈ Finset.range N, f (θ0 + i * (2*π/N)) := by
  have hN' : (N:ℝ) ≠ 0 := by exact_mod_cast hN.ne'
  have ht := Finset.sum_range_sub (fun i : ℕ => f (θ0 + i * (2*π/N))) N
  have e0 : f (θ0 + ((0:ℕ):ℝ) * (2*π/N)) = f θ0 := by simp
  have eN : f (θ0 + (N:ℝ) * (2*π/N)) = f θ0 := by rw [← hf θ0]; congr 1; field_simp
  rw [e0, eN, sub_self] at ht
  have : turnRule θ0 N f = ∑ i ∈ Finset.range N, (2*π/N * f (θ0 + i * (2*π/N)) + 2*π/N/2 * (f (θ0 + ((i+1 : ℕ):ℝ) * (2*π/N)) - f (θ0 + i * (2*π/N)))) := by
    unfold turnRule
    apply Finset.sum_congr rfl
    intro i _
    push_cast
    ring
  rw [this, Finset.sum_add_distrib, ← Finset.mul_sum, ← Finset.mul_sum, ht]
  ring

theorem tan_half_lt {χ : ℝ} (hχ : 0 < cos χ) : |tan (χ/2)| < 1 := by
  have h1 := sin_sq_add_cos_sq χ
  have hd : 1 + cos χ ≠ 0 := by linarith
  have ht2 : 1 - tan (χ/2)^2 = cos χ * (1 + tan (χ/2)^2) := by rw [tan_half_cos hχ]; field_simp; nlinarith
  rw [← sq_lt_one_iff_abs_lt_one]
  nlinarith [sq_nonneg (tan (χ/2))]

/-- the mean of the two densities at the rotor centre -/
theorem centre_sums (χ φ : ℝ) (hχ : 0 < cos χ) (N : ℕ) (hN : 0 < N) :
    let t := tan (χ/2)
    ∃ a b : ℝ, (1/N) * ∑ i ∈ Finset.range N, cos χ * cos (φ + i * (2*π/N)) / (1 + sin χ * cos (φ + i * (2*π/N))) = -t + (1 + t^2) * a ∧
      (1/N) * ∑ i ∈ Finset.range N, cos χ * sin (φ + i * (2*π/N)) / (1 + sin χ * cos (φ + i * (2*π/N))) = (1 - t^2) * b ∧
      |a| ≤ |t|^(N-1) / (1 - |t|^N) ∧ |b| ≤ |t|^(N-1) / (1 - |t|^N) ∧ (sin (N * φ) = 0 → b = 0) := by
  intro t
  have hN' : (N:ℝ) ≠ 0 := by exact_mod_cast hN.ne'
  have h1 := sin_sq_add_cos_sq χ
  have hd : 1 + cos χ ≠ 0 := by linarith
  have ht : t = sin χ / (1 + cos χ) := tan_half_cos hχ
  have ht2 : 1 - t^2 = cos χ * (1 + t^2) := by rw [ht]; field_simp; nlinarith
  have hs : 2 * t = sin χ * (1 + t^2) := by rw [ht]; field_simp; linear_combination -sin χ * h1
  have htl : |t| < 1 := by
    rw [← sq_lt_one_iff_abs_lt_one]
    nlinarith [sq_nonneg t]
  have hpos : 0 < 1 + t^2 := by positivity
  have key := azimuth_sums N hN (-t) φ (by rw [abs_neg]; exact htl)
  simp only at key
  generalize hw : (((-t : ℝ) : ℂ)^(N-1) * Complex.exp (N * φ * Complex.I) / (1 - ((-t : ℝ) : ℂ)^N * Complex.exp (N * φ * Complex.I))) = w at key
  obtain ⟨k1, k2⟩ := key
  have hterm : ∀ θ : ℝ, 1 + (-t)^2 - 2 * (-t) * cos θ = (1 + t^2) * (1 + sin χ * cos θ) := by
    intro θ; linear_combination cos θ * hs
  have hn : ‖Complex.exp (N * φ * Complex.I)‖ = 1 := by
    have := Complex.norm_exp_ofReal_mul_I (N * φ)
    push_cast at this; exact this
  have hwn : ‖w‖ ≤ |t|^(N-1) / (1 - |t|^N) := by
    rw [← hw, norm_div, norm_mul, hn, mul_one, norm_pow, Complex.norm_real, norm_eq_abs, abs_neg]
    have hp := pow_lt_one₀ (abs_nonneg t) htl hN.ne'
    apply div_le_div_of_nonneg_left (by positivity) (by linarith)
    have := norm_sub_norm_le (1:ℂ) (((-t : ℝ) : ℂ)^N * Complex.exp (N * φ * Complex.I))
    rw [norm_mul, hn, mul_one, norm_pow, Complex.norm_real, norm_eq_abs, abs_neg, norm_one] at this
    exact this
  refine ⟨w.re, w.im, ?_, ?_, (Complex.abs_re_le_norm w).trans hwn, (Complex.abs_im_le_norm w).trans hwn, ?_⟩
  · have : ∀ i ∈ Finset.range N, cos χ * cos (φ + i * (2*π/N)) / (1 + sin χ * cos (φ + i * (2*π/N))) =
        (1 - (-t)^2) * (cos (φ + i * (2*π/N)) / (1 + (-t)^2 - 2 * (-t) * cos (φ + i * (2*π/N)))) := by
      intro i _
      rw [hterm, neg_sq, ht2]
      field_simp
    rw [Finset.sum_congr rfl this, ← Finset.mul_sum, k1, neg_sq]
    field_simp
  · have : ∀ i ∈ Finset.range N, cos χ * sin (φ + i * (2*π/N)) / (1 + sin χ * cos (φ + i * (2*π/N))) =
        (1 - t^2) * (sin (φ + i * (2*π/N)) / (1 + (-t)^2 - 2 * (-t) * cos (φ + i * (2*π/N)))) := by
      intro i _
      rw [hterm, ht2]
      field_simp
    rw [Finset.sum_congr rfl this, ← Finset.mul_sum, k2]
    field_simp
  · intro h0
    have he : Complex.exp (N * φ * Complex.I) = ((cos (N * φ) : ℝ) : ℂ) := by
      have := Complex.exp_mul_I (N * φ : ℂ)
      rw [this]
      have e1 : Complex.cos (N * φ : ℂ) = ((cos (N * φ) : ℝ) : ℂ) := by push_cast; rfl
      have e2 : Complex.sin (N * φ : ℂ) = ((sin (N * φ) : ℝ) : ℂ) := by push_cast; rfl
      rw [e1, e2, h0]
      simp
    rw [← hw, he]
    have : (((-t : ℝ) : ℂ)^(N-1) * ((cos (N * φ) : ℝ) : ℂ) / (1 - ((-t : ℝ) : ℂ)^N * ((cos (N * φ) : ℝ) : ℂ))) =
        (((-t)^(N-1) * cos (N * φ) / (1 - (-t)^N * cos (N * φ)) : ℝ) : ℂ) := by push_cast; rfl
    rw [this]
    exact Complex.ofReal_im _

/-- the densities at the rotor centre -/
theorem centre_density (χ γ R ψ θ : ℝ) (hR : 0 < R) (hχ : 0 < cos χ) :
    tangGenerator γ R (tan χ) (polarPoint 0 ψ 0) θ = ⟨-(γ/(4*π)) * (cos χ * cos θ / (1 + sin χ * cos θ)),
      -(γ/(4*π)) * (cos χ * sin θ / (1 + sin χ * cos θ)), γ/(4*π)⟩ ∧
    longiGenerator γ R (tan χ) (polarPoint 0 ψ 0) θ = ⟨γ/(4*π) * (cos χ * sin θ / (1 + sin χ * cos θ)),
      -(γ/(4*π)) * (cos χ * cos θ / (1 + sin χ * cos θ)), -(γ/(4*π)) * (sin χ * sin θ / (1 + sin χ * cos θ))⟩ := by
  have hP : polarPoint 0 ψ 0 = ⟨tan χ*0, 0, 0⟩ := by simp [polarPoint]
  have hoff : OffWake R (tan χ) (polarPoint 0 ψ 0) := by rw [hP]; exact offWake_axis R (tan χ) 0 hR
  obtain ⟨hn, hd⟩ := offWake_pos hoff θ
  have hnn : V3.norm (polarPoint 0 ψ 0 - rim R θ) = R := by
    have h2 := rim_dist ⟨0, ψ, 0⟩ R θ
    simp only at h2
    have : V3.norm (polarPoint 0 ψ 0 - rim R θ)^2 = R^2 := by rw [← h2]; ring
    exact (sq_eq_sq₀ hn.le hR.le).mp this
  have hdd : R - V3.dot (polarPoint 0 ψ 0 - rim R θ) (skewDir (tan χ)) = R * (1 + sin χ * cos θ) := by
    rw [skewDir_tan hχ]
    simp [V3.dot, polarPoint, rim]
    ring
  rw [tangGenerator_eval hn hd, longiGenerator_eval hn hd, hnn, hdd]
  rw [hnn, hdd] at hd
  have hD : 0 < 1 + sin χ * cos θ := by
    by_contra h
    nlinarith [mul_nonneg hR.le (sub_nonneg.mpr (not_lt.mp h))]
  have h1 := sin_sq_add_cos_sq θ
  have hπ := pi_pos
  rw [skewDir_tan hχ]
  obtain ⟨D, hDe⟩ : ∃ D, D = 1 + sin χ * cos θ := ⟨_, rfl⟩
  rw [← hDe] at hD ⊢
  have hD0 := hD.ne'
  have hR0 := hR.ne'
  constructor
  · ext
    · simp only [V3.smul_x, V3.sub_x, V3.cross, rimTangent, polarPoint, rim, V3.sub_y, V3.sub_z]
      field_simp
      ring
    · simp only [V3.smul_y, V3.sub_x, V3.cross, rimTangent, polarPoint, rim, V3.sub_y, V3.sub_z]
      field_simp
      ring
    · simp only [V3.smul_z, V3.sub_x, V3.cross, rimTangent, polarPoint, rim, V3.sub_y, V3.sub_z]
      field_simp
      linear_combination γ * R * h1 - γ * R * hDe
  · ext
    · simp only [V3.smul_x, V3.sub_x, V3.cross, polarPoint, rim, V3.sub_y, V3.sub_z]
      field_simp
      ring
    · simp only [V3.smul_y, V3.sub_x, V3.cross, polarPoint, rim, V3.sub_y, V3.sub_z]
      field_simp
      ring
    · simp only [V3.smul_z, V3.sub_x, V3.cross, polarPoint, rim, V3.sub_y, V3.sub_z]
      field_simp
      ring

theorem centre_turn (φ : ℝ) (N : ℕ) (hN : 0 < N) (k : ℝ) (f : ℝ → ℝ) (hf : ∀ x, f (x + 2*π) = f x) :
    turnRule φ N (fun θ => k/(4*π) * f θ) = k/2 * ((1/N) * ∑ i ∈ Finset.range N, f (φ + i * (2*π/N))) := by
  have hN' : (N:ℝ) ≠ 0 := by exact_mod_cast hN.ne'
  have hπ := pi_pos.ne'
  rw [turn_mean φ N hN _ (fun x => by rw [hf x]), ← Finset.mul_sum]
  field_simp
  ring

/-- C118 (tangential): at the rotor centre `svc_tang_u_polar` with `N+1` azimuths returns exactly `γ_t/2` axially and
`(γ_t/2)tan(χ/2)` along the skew, up to an error that decays like the `N`-th power of `tan(χ/2)`; the component across the skew
is of the same order, and zero for even `N`. -/
theorem C118_tang_centre (χ γ R ψ : ℝ) (hR : 0 < R) (hχ : -(π/2) < χ ∧ χ < π/2) (N : ℕ) (hN : 0 < N) :
    let t := tan (χ/2)
    let ε := |γ|/2 * (|t|^(N-1) / (1 - |t|^N))
    |t| < 1 ∧ ∃ u : V3 ℝ, svcTangPolar ⟨0, ψ, 0⟩ (.fin γ) R (.fin (tan χ)) (N+1) false = V3.fin u ∧
      u.z = γ/2 ∧ |u.x - γ/2 * t| ≤ (1 + t^2) * ε ∧ |u.y| ≤ (1 - t^2) * ε ∧ (Even N → u.y = 0) := by
  intro t ε
  have hc := cos_pos_of_mem_Ioo (⟨hχ.1, hχ.2⟩ : χ ∈ Set.Ioo (-(π/2)) (π/2))
  have hN' : (N:ℝ) ≠ 0 := by exact_mod_cast hN.ne'
  have hP : polarPoint 0 ψ 0 = ⟨tan χ*0, 0, 0⟩ := by simp [polarPoint]
  have hoff : OffWake R (tan χ) (polarPoint 0 ψ 0) := by rw [hP]; exact offWake_axis R (tan χ) 0 hR
  obtain ⟨a, b, s1, s2, ha, hb, hb0⟩ := centre_sums χ (π/2) hc N hN
  have htl := tan_half_lt hc
  refine ⟨htl, _, svcTang_cart ⟨0, ψ, 0⟩ γ R (tan χ) N hoff, ?_, ?_, ?_, ?_⟩
  · show turnRule _ _ (fun θ => (tangGenerator γ R (tan χ) (polarPoint 0 ψ 0) θ).z) = _
    simp only [(centre_density χ γ R ψ _ hR hc).1]
    have := centre_turn (π/2) N hN γ (fun _ => 1) (fun _ => rfl)
    simp only [mul_one, Finset.sum_const, Finset.card_range, nsmul_eq_mul] at this
    rw [this]; field_simp
  · have : turnRule (π/2) N (fun θ => (tangGenerator γ R (tan χ) (polarPoint 0 ψ 0) θ).x) = -γ/2 * (-t + (1 + t^2) * a) := by
      simp only [(centre_density χ γ R ψ _ hR hc).1]
      rw [← s1, ← centre_turn (π/2) N hN (-γ) (fun θ => cos χ * cos θ / (1 + sin χ * cos θ)) (fun x => by rw [cos_add_two_pi])]
      congr 1; funext θ; ring
    show |turnRule (π/2) N (fun θ => (tangGenerator γ R (tan χ) (polarPoint 0 ψ 0) θ).x) - _| ≤ _
    rw [this, show -γ/2 * (-t + (1 + t^2) * a) - γ/2 * t = -((1 + t^2) * (γ/2 * a)) by ring, abs_neg, abs_mul, abs_mul, abs_of_pos (show 0 < 1 + t^2 by positivity), abs_div, abs_two]
    show _ ≤ (1 + t^2) * (|γ|/2 * (|t|^(N-1) / (1 - |t|^N)))
    gcongr
  all_goals
    have : turnRule (π/2) N (fun θ => (tangGenerator γ R (tan χ) (polarPoint 0 ψ 0) θ).y) = -γ/2 * ((1 - t^2) * b) := by
      simp only [(centre_density χ γ R ψ _ hR hc).1]
      rw [← s2, ← centre_turn (π/2) N hN (-γ) (fun θ => cos χ * sin θ / (1 + sin χ * cos θ)) (fun x => by rw [cos_add_two_pi, sin_add_two_pi])]
      congr 1; funext θ; ring
  · show |turnRule (π/2) N (fun θ => (tangGenerator γ R (tan χ) (polarPoint 0 ψ 0) θ).y)| ≤ _
    have ht2 : 0 < 1 - t^2 := by rw [← sq_lt_one_iff_abs_lt_one] at htl; linarith
    rw [this, show -γ/2 * ((1 - t^2) * b) = -((1 - t^2) * (γ/2 * b)) by ring, abs_neg, abs_mul, abs_mul, abs_of_pos ht2, abs_div, abs_two]
    show _ ≤ (1 - t^2) * (|γ|/2 * (|t|^(N-1) / (1 - |t|^N)))
    gcongr
  · intro he
    show turnRule (π/2) N (fun θ => (tangGenerator γ R (tan χ) (polarPoint 0 ψ 0) θ).y) = 0
    obtain ⟨k, hk⟩ := he
    rw [this, hb0, mul_zero, mul_zero]
    rw [show (N:ℝ) * (π/2) = k * π by rw [hk]; push_cast; ring]
    exact sin_nat_mul_pi k

/-- C118 (longitudinal): at the rotor centre `svc_longi_u_polar` with `N+1` azimuths returns `(γ_l/2)tan(χ/2)` in the direction
across the skew, and nothing else, up to an error that decays like the `N`-th power of `tan(χ/2)`. -/
theorem C118_longi_centre (χ γ R ψ : ℝ) (hR : 0 < R) (hχ : -(π/2) < χ ∧ χ < π/2) (N : ℕ) (hN : 0 < N) :
    let t := tan (χ/2)
    let ε := |γ|/2 * (|t|^(N-1) / (1 - |t|^N))
    ∃ u : V3 ℝ, svcLongiPolar ⟨0, ψ, 0⟩ (.fin γ) R (.fin (tan χ)) (N+1) false = V3.fin u ∧
      |u.y - γ/2 * t| ≤ (1 + t^2) * ε ∧ |u.x| ≤ (1 - t^2) * ε ∧ |u.z| ≤ 2 * |t| * ε := by
  intro t ε
  have hc := cos_pos_of_mem_Ioo (⟨hχ.1, hχ.2⟩ : χ ∈ Set.Ioo (-(π/2)) (π/2))
  have hN' : (N:ℝ) ≠ 0 := by exact_mod_cast hN.ne'
  have hP : polarPoint 0 ψ 0 = ⟨tan χ*0, 0, 0⟩ := by simp [polarPoint]
  have hoff : OffWake R (tan χ) (polarPoint 0 ψ 0) := by rw [hP]; exact offWake_axis R (tan χ) 0 hR
  obtain ⟨a, b, s1, s2, ha, hb, -⟩ := centre_sums χ (π/((N:ℝ)+1)) hc N hN
  have htl := tan_half_lt hc
  have ht2 : 0 < 1 - t^2 := by rw [← sq_lt_one_iff_abs_lt_one] at htl; linarith
  have hx : turnRule (π/((N:ℝ)+1)) N (fun θ => (longiGenerator γ R (tan χ) (polarPoint 0 ψ 0) θ).x) = γ/2 * ((1 - t^2) * b) := by
    simp only [(centre_density χ γ R ψ _ hR hc).2]
    rw [← s2, ← centre_turn _ N hN γ (fun θ => cos χ * sin θ / (1 + sin χ * cos θ)) (fun x => by rw [cos_add_two_pi, sin_add_two_pi])]
  have hy : turnRule (π/((N:ℝ)+1)) N (fun θ => (longiGenerator γ R (tan χ) (polarPoint 0 ψ 0) θ).y) = -γ/2 * (-t + (1 + t^2) * a) := by
    simp only [(centre_density χ γ R ψ _ hR hc).2]
    rw [← s1, ← centre_turn _ N hN (-γ) (fun θ => cos χ * cos θ / (1 + sin χ * cos θ)) (fun x => by rw [cos_add_two_pi])]
    congr 1; funext θ; ring
  have hz : turnRule (π/((N:ℝ)+1)) N (fun θ => (longiGenerator γ R (tan χ) (polarPoint 0 ψ 0) θ).z) = -(tan χ * (γ/2 * ((1 - t^2) * b))) := by
    rw [← hx]
    simp only [(centre_density χ γ R ψ _ hR hc).2]
    have : ∀ θ, -(γ/(4*π)) * (sin χ * sin θ / (1 + sin χ * cos θ)) = -tan χ * (γ/(4*π) * (cos χ * sin θ / (1 + sin χ * cos θ))) := by
      intro θ; rw [tan_eq_sin_div_cos]; field_simp
    simp only [this]
    unfold turnRule
    rw [Finset.mul_sum, ← Finset.sum_neg_distrib]
    apply Finset.sum_congr rfl
    intro i _
    ring
  refine ⟨_, svcLongi_cart ⟨0, ψ, 0⟩ γ R (tan χ) N hR hoff, ?_, ?_, ?_⟩
  · show |turnRule (π/((N:ℝ)+1)) N (fun θ => (longiGenerator γ R (tan χ) (polarPoint 0 ψ 0) θ).y) - _| ≤ _
    rw [hy, show -γ/2 * (-t + (1 + t^2) * a) - γ/2 * t = -((1 + t^2) * (γ/2 * a)) by ring, abs_neg, abs_mul, abs_mul, abs_of_pos (show 0 < 1 + t^2 by positivity), abs_div, abs_two]
    show _ ≤ (1 + t^2) * (|γ|/2 * (|t|^(N-1) / (1 - |t|^N)))
    gcongr
  · show |turnRule (π/((N:ℝ)+1)) N (fun θ => (longiGenerator γ R (tan χ) (polarPoint 0 ψ 0) θ).x)| ≤ _
    rw [hx, show γ/2 * ((1 - t^2) * b) = (1 - t^2) * (γ/2 * b) by ring, abs_mul, abs_mul, abs_of_pos ht2, abs_div, abs_two]
    show _ ≤ (1 - t^2) * (|γ|/2 * (|t|^(N-1) / (1 - |t|^N)))
    gcongr
  · show |turnRule (π/((N:ℝ)+1)) N (fun θ => (longiGenerator γ R (tan χ) (polarPoint 0 ψ 0) θ).z)| ≤ _
    have e : tan χ * (1 - t^2) = 2 * t := by
      have hd : 1 + cos χ ≠ 0 := by linarith
      have h1 := sin_sq_add_cos_sq χ
      show tan χ * (1 - tan (χ/2)^2) = 2 * tan (χ/2)
      rw [tan_half_cos hc, tan_eq_sin_div_cos]
      field_simp
      linear_combination -sin χ * h1
    rw [hz, abs_neg, show tan χ * (γ/2 * ((1 - t^2) * b)) = (tan χ * (1 - t^2)) * (γ/2 * b) by ring, e, abs_mul, abs_mul, abs_mul, abs_two, abs_div, abs_two]
    show _ ≤ 2 * |t| * (|γ|/2 * (|t|^(N-1) / (1 - |t|^N)))
    gcongr

theorem centre_default (χ γ : ℝ) (hχ : |χ| ≤ π/3) (N : ℕ) (hN : 179 ≤ N) :
    (1 + tan (χ/2)^2) * (|γ|/2 * (|tan (χ/2)|^(N-1) / (1 - |tan (χ/2)|^N))) ≤ 1e-42 * |γ| ∧ tan (χ/2)^2 ≤ 1/3 := by
  have hπ := pi_pos
  have hc2 : (1:ℝ)/2 ≤ cos χ := by
    rw [← cos_pi_div_three, ← cos_abs χ]
    exact cos_le_cos_of_nonneg_of_le_pi (abs_nonneg χ) (by linarith) hχ
  have hc : 0 < cos χ := by linarith
  have h1 := sin_sq_add_cos_sq χ
  have hd : 1 + cos χ ≠ 0 := by linarith
  have ht : tan (χ/2)^2 * (1 + cos χ) = 1 - cos χ := by
    rw [tan_half_cos hc]; field_simp; nlinarith
  have ht3 : tan (χ/2)^2 ≤ 1/3 := by nlinarith [sq_nonneg (tan (χ/2))]
  refine ⟨?_, ht3⟩
  have htl := tan_half_lt hc
  generalize tan (χ/2) = t at *
  have hp : |t|^(N-1) ≤ (1/3)^89 := by
    calc |t|^(N-1) ≤ |t|^178 := pow_le_pow_of_le_one (abs_nonneg t) htl.le (by omega)
      _ = (t^2)^89 := by rw [← sq_abs t, ← pow_mul]
      _ ≤ (1/3)^89 := by gcongr
  have hq : |t|^N ≤ 1/3 := by
    calc |t|^N ≤ |t|^2 := pow_le_pow_of_le_one (abs_nonneg t) htl.le (by omega)
      _ ≤ 1/3 := by rw [sq_abs]; exact ht3
  have : |t|^(N-1) / (1 - |t|^N) ≤ 3/2 * (1/3)^89 := by
    rw [div_le_iff₀ (by linarith)]
    nlinarith [show (0:ℝ) < (1/3)^89 by positivity]
  calc (1 + t^2) * (|γ|/2 * (|t|^(N-1) / (1 - |t|^N))) ≤ (4/3) * (|γ|/2 * (3/2 * (1/3)^89)) := by
        have : 0 ≤ |t|^(N-1) / (1 - |t|^N) := div_nonneg (by positivity) (by linarith)
        gcongr
        linarith
    _ = (1/3)^89 * |γ| := by ring
    _ ≤ 1e-42 * |γ| := by gcongr; norm_num

theorem centre_comp (t e : ℝ) (he : 0 ≤ e) : (1 - t^2) * e ≤ (1 + t^2) * e ∧ 2 * |t| * e ≤ (1 + t^2) * e := by
  have := sq_nonneg t
  exact ⟨mul_le_mul_of_nonneg_right (by linarith) he,
    mul_le_mul_of_nonneg_right (by nlinarith [sq_nonneg (1 - |t|), sq_abs t]) he⟩

/-- C118: with the default 180 azimuths or more and a skew of at most 60 degrees, the two values at the rotor centre are exact to
`10⁻⁴²` of the strength. -/
theorem C118_default (χ γ R ψ : ℝ) (hR : 0 < R) (hχ : |χ| ≤ π/3) (N : ℕ) (hN : 180 ≤ N) :
    ∃ u v : V3 ℝ, svcTangPolar ⟨0, ψ, 0⟩ (.fin γ) R (.fin (tan χ)) N false = V3.fin u ∧
      svcLongiPolar ⟨0, ψ, 0⟩ (.fin γ) R (.fin (tan χ)) N false = V3.fin v ∧
      (|u.x - γ/2 * tan (χ/2)| ≤ 1e-42 * |γ| ∧ |u.y| ≤ 1e-42 * |γ| ∧ u.z = γ/2) ∧
      (|v.x| ≤ 1e-42 * |γ| ∧ |v.y - γ/2 * tan (χ/2)| ≤ 1e-42 * |γ| ∧ |v.z| ≤ 1e-42 * |γ|) := by
  obtain ⟨n, rfl⟩ : ∃ n, N = n + 1 := ⟨N - 1, by omega⟩
  have hπ := pi_pos
  have h2 : -(π/2) < χ ∧ χ < π/2 := by
    have := abs_le.mp hχ
    constructor <;> linarith [this.1, this.2]
  obtain ⟨hE, ht⟩ := centre_default χ γ hχ n (by omega)
  obtain ⟨htl, u, hu, uz, ux, uy, -⟩ := C118_tang_centre χ γ R ψ hR h2 n (by omega)
  obtain ⟨v, hv, vy, vx, vz⟩ := C118_longi_centre χ γ R ψ hR h2 n (by omega)
  have hp := pow_lt_one₀ (abs_nonneg (tan (χ/2))) htl (show n ≠ 0 by omega)
  have h0 : 0 ≤ |γ|/2 * (|tan (χ/2)|^(n-1) / (1 - |tan (χ/2)|^n)) :=
    mul_nonneg (by positivity) (div_nonneg (by positivity) (by linarith))
  generalize |γ|/2 * (|tan (χ/2)|^(n-1) / (1 - |tan (χ/2)|^n)) = ε at *
  have hs := sq_nonneg (tan (χ/2))
  have e1 := (centre_comp (tan (χ/2)) ε h0).1.trans hE
  have e2 := (centre_comp (tan (χ/2)) ε h0).2.trans hE
  exact ⟨u, v, hu, hv, ⟨ux.trans hE, uy.trans e1, uz⟩, vx.trans e1, vy.trans hE, vz.trans e2⟩

/-- C118 for turbines: at the hub of a turbine skewed by at most 60 degrees the velocity is the wind plus `γ_t/2` along the shaft
plus `(γ_t/2)tan(χ/2)` along the skew, to `10⁻⁴²` of the strength, and the shaft component is exact; every history. -/
theorem C118_hub (mini : (ℝ → Num) → ℝ) (R : ℝ) (hub shaft vert U0 : V3 ℝ) (L : Option Num) (G : Bool)
    (M : String) (ho : Orthonormal shaft vert) (hR : 0 < R) (h : List Op) (pts : List (V3 ℝ)) (o : Opts) (γ χ : ℝ) :
    let w := (WT.new R hub shaft vert U0 L G M).run mini h
    let s := w.e_shaft_g
    let a := V3.cross vert s
    o.tang = true → o.longi = false → o.root = false → o.no_wake = false → o.Model.getD w.Model = "VC" → o.ground.getD w.Ground = false →
    w.gamma_t = some [.fin γ] → (w.computeU pts o).2.chi = some (.fin χ) → 1e-7 < |χ| → |χ| ≤ π/3 →
    ∃ u, (w.computeU pts o).1 = .ok u ∧ ∀ i : ℕ, pts[i]? = some w.r_hub →
      ∃ v : V3 ℝ, u[i]? = some (V3.fin v) ∧ ∀ U : V3 ℝ, U = (if o.only_ind then 0 else w.U0_g) →
        V3.dot v s = V3.dot U s + γ/2 ∧ |V3.dot v a - (V3.dot U a + γ/2 * tan (χ/2))| ≤ 1e-42 * |γ| ∧
        |V3.dot v vert - V3.dot U vert| ≤ 1e-42 * |γ| := by
  intro w s a h1 h2 h3 h4 h6 h7 hg hchi hsk hlim
  have hπ := pi_pos
  have hb : -(π/2) < χ ∧ χ < π/2 := by
    have := abs_le.mp hlim
    constructor <;> linarith [this.1, this.2]
  have hcos := (cos_pos_of_mem_Ioo (⟨hb.1, hb.2⟩ : χ ∈ Set.Ioo (-(π/2)) (π/2))).ne'
  obtain ⟨u, hu, -, hall⟩ := skew_value mini R hub shaft vert U0 L G M ho hR h pts o γ χ
    (by constructor <;> assumption) hg hchi hsk hcos
  refine ⟨u, hu, fun i hi => ?_⟩
  have hoff : ∀ θ t, 0 ≤ t → (⟨0, 0, 0⟩ : V3 ℝ) ≠ wakePoint R (tan χ) θ t := by
    have := offWake_axis R (tan χ) 0 hR
    rw [mul_zero] at this
    exact this
  have hz : ∀ x v : V3 ℝ, 0 = V3.dot (x - x) v := by intro x v; simp [V3.dot]
  have hv := hall i w.r_hub ⟨0, 0, 0⟩ hi (by ext; exacts [hz w.r_hub _, hz w.r_hub _, hz w.r_hub _]) hoff _ rfl
  obtain ⟨c', -, hc', -, ⟨cx, cy, cz⟩, -⟩ := C118_default χ γ R 0 hR hlim 180 (le_refl _)
  have hc : turnRuleV (π/2) 179 (tangGenerator γ R (tan χ) ⟨0, 0, 0⟩) = c' := by
    have hP : polarPoint 0 0 0 = ⟨0, 0, 0⟩ := by simp [polarPoint]
    rw [svcTang_cart ⟨0, 0, 0⟩ γ R (tan χ) 179 (by show OffWake _ _ (polarPoint 0 0 0); rw [hP]; exact hoff)] at hc'
    change V3.fin (turnRuleV (π/2) 179 (tangGenerator γ R (tan χ) (polarPoint 0 0 0))) = _ at hc'
    rw [hP] at hc'
    exact fin_inj3 _ _ hc'
  rw [hc] at hv
  refine ⟨_, hv, fun U hU => ?_⟩
  obtain ⟨aa, av, as, vv, vs, ss⟩ := rotorAxes_run mini R hub shaft vert U0 L G M ho h
  change V3.dot a a = 1 at aa
  change V3.dot a vert = 0 at av
  change V3.dot a s = 0 at as
  change V3.dot vert s = 0 at vs
  change V3.dot s s = 1 at ss
  rw [← hU]
  change V3.dot (V3.smul c'.x a + V3.smul c'.y vert + V3.smul c'.z s + U) s = _ ∧
    |V3.dot (V3.smul c'.x a + V3.smul c'.y vert + V3.smul c'.z s + U) a - _| ≤ _ ∧
    |V3.dot (V3.smul c'.x a + V3.smul c'.y vert + V3.smul c'.z s + U) vert - _| ≤ _
  clear hv hall hi hU hz hc hc' hu
  generalize a = a' at *
  generalize s = s' at *
  have e1 : V3.dot (V3.smul c'.x a' + V3.smul c'.y vert + V3.smul c'.z s' + U) s' = V3.dot U s' + c'.z := by
    simp only [V3.dot, V3.add_x, V3.add_y, V3.add_z, V3.smul_x, V3.smul_y, V3.smul_z] at *
    linear_combination c'.x * as + c'.y * vs + c'.z * ss
  have e2 : V3.dot (V3.smul c'.x a' + V3.smul c'.y vert + V3.smul c'.z s' + U) a' = V3.dot U a' + c'.x := by
    simp only [V3.dot, V3.add_x, V3.add_y, V3.add_z, V3.smul_x, V3.smul_y, V3.smul_z] at *
    linear_combination c'.x * aa + c'.y * av + c'.z * as
  have e3 : V3.dot (V3.smul c'.x a' + V3.smul c'.y vert + V3.smul c'.z s' + U) vert = V3.dot U vert + c'.y := by
    simp only [V3.dot, V3.add_x, V3.add_y, V3.add_z, V3.smul_x, V3.smul_y, V3.smul_z] at *
    linear_combination c'.x * av + c'.y * vv + c'.z * vs
  rw [e1, e2, e3, cz]
  refine ⟨rfl, ?_, ?_⟩
  · rw [add_sub_add_left_eq_sub]; exact cx
  · rw [add_sub_cancel_left]; exact cy

/-- C118: the scale `u_{y,0}` of the trailed-vorticity script is this value. -/
theorem C118_scale (χ γ : ℝ) (hχ : -(π/2) < χ ∧ χ < π/2) (h0 : χ ≠ 0) :
    γ * (√(1 + tan χ^2) - 1) / (2 * tan χ) = γ/2 * tan (χ/2) := by
  have hc := cos_pos_of_mem_Ioo (⟨hχ.1, hχ.2⟩ : χ ∈ Set.Ioo (-(π/2)) (π/2))
  have hπ := pi_pos
  have hs : sin χ ≠ 0 := by
    intro h
    exact h0 ((sin_eq_zero_iff_of_lt_of_lt (by linarith [hχ.1]) (by linarith [hχ.2])).mp h)
  have hd : 1 + cos χ ≠ 0 := by linarith
  have hq : √(1 + tan χ^2) = 1 / cos χ := by
    have h1 := sin_sq_add_cos_sq χ
    rw [show 1 + tan χ^2 = (1 / cos χ)^2 by rw [tan_eq_sin_div_cos]; field_simp; linarith, sqrt_sq (by positivity)]
  rw [hq, tan_half_cos hc, tan_eq_sin_div_cos]
  have h1 := sin_sq_add_cos_sq χ
  have hc' := hc.ne'
  field_simp
  linear_combination -γ * h1

/-- the hypotheses are met: a rotor of radius 50 m skewed by 30 degrees, 180 azimuths -/
example : |π/6| ≤ π/3 ∧ (-(π/2) < π/6 ∧ π/6 < π/2) ∧ (1e-7:ℝ) < |π/6| := by
  have := pi_gt_three
  rw [abs_of_pos (by linarith)]
  refine ⟨by linarith, ⟨by linarith, by linarith⟩, by norm_num; linarith⟩

end Wiz
