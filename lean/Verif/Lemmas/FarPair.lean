import Verif.Lemmas.RadialDecay

/-! # The kernels of a disk seen from six radii away -/
set_option autoImplicit false
namespace Wiz
open Spec Real intervalIntegral
noncomputable section

theorem inv_cube_lower {w : ℝ} (hw : 0 < w) : 5/2 - 3/2*w^2 ≤ 1/w^3 := by
  rw [le_div_iff₀ (by positivity)]
  have : 0 ≤ (w-1)^2 * (3*w^3 + 6*w^2 + 4*w + 2) := by positivity
  nlinarith

theorem inv_cube_upper {w : ℝ} (hw : 0 < w) : 1/w^3 ≤ (1 + w^2)/(2*w^4) := by
  rw [div_le_div_iff₀ (by positivity) (by positivity)]
  have : 0 ≤ w^3 * (w-1)^2 := by positivity
  nlinarith

/-- the mean of the kernel at two opposite points of a circle, at unit distance -/
theorem pair_unit {T B : ℝ} (hT : 0 ≤ T) (hT1 : T ≤ 1/36) (hB : B^2 ≤ 4*T) :
    0 < 1 + T - B ∧ 0 < 1 + T + B ∧
    1 - 3/2*T ≤ (1/√(1+T-B)^3 + 1/√(1+T+B)^3)/2 ∧ (1/√(1+T-B)^3 + 1/√(1+T+B)^3)/2 ≤ 1 - 7/5*T + 11/5*B^2 := by
  have hb : |B| ≤ 1/3 := by
    apply abs_le_of_sq_le_sq _ (by norm_num)
    nlinarith
  obtain ⟨b1, b2⟩ := abs_le.1 hb
  have p1 : 0 < 1 + T - B := by linarith
  have p2 : 0 < 1 + T + B := by linarith
  refine ⟨p1, p2, ?_, ?_⟩
  · have h1 := inv_cube_lower (sqrt_pos.2 p1)
    have h2 := inv_cube_lower (sqrt_pos.2 p2)
    rw [sq_sqrt p1.le] at h1
    rw [sq_sqrt p2.le] at h2
    linarith
  · have h1 := inv_cube_upper (sqrt_pos.2 p1)
    have h2 := inv_cube_upper (sqrt_pos.2 p2)
    rw [show √(1+T-B)^4 = (√(1+T-B)^2)^2 by ring, sq_sqrt p1.le] at h1
    rw [show √(1+T+B)^4 = (√(1+T+B)^2)^2 by ring, sq_sqrt p2.le] at h2
    have e : ((1 + (1+T-B))/(2*(1+T-B)^2) + (1 + (1+T+B))/(2*(1+T+B)^2))/2 = ((2+T)*(1+T)^2 - T*B^2)/(2*((1+T)^2 - B^2)^2) := by
      have hp : (1+T)^2 - B^2 = (1+T-B)*(1+T+B) := by ring
      rw [hp]
      field_simp
      ring
    have hS := sq_nonneg B
    have key : ((2+T)*(1+T)^2 - T*B^2)/(2*((1+T)^2 - B^2)^2) ≤ 1 - 7/5*T + 11/5*B^2 := by
      generalize B^2 = S at *
      have hS1 : S ≤ 1/9 := by linarith
      have hpos : 0 < (1+T)^2 - S := by nlinarith
      rw [div_le_iff₀ (by positivity)]
      nlinarith [mul_nonneg hT hS, mul_nonneg (mul_nonneg hT hS) hS, mul_nonneg (mul_nonneg hT hS) hT, mul_nonneg hS (sub_nonneg.2 hB),
        mul_nonneg hS (sub_nonneg.2 hS1), mul_nonneg hT (sub_nonneg.2 hT1), mul_nonneg hS (sub_nonneg.2 hT1),
        mul_nonneg (mul_nonneg hS hS) (sub_nonneg.2 hS1), mul_nonneg (mul_nonneg hS hT) (sub_nonneg.2 hS1), mul_nonneg (mul_nonneg hT hT) hT,
        mul_nonneg (mul_nonneg hT hT) (sub_nonneg.2 hT1), mul_nonneg (mul_nonneg hS hT) (sub_nonneg.2 hT1),
        mul_nonneg (mul_nonneg hT hT) (mul_nonneg hT hT), mul_nonneg (mul_nonneg hT hT) (mul_nonneg hT hS), mul_nonneg (mul_nonneg hT hT) (mul_nonneg hS hS)]
    linarith

/-- the same at distance `d` -/
theorem pair_bounds {r z ρ d : ℝ} (hd : 0 < d) (hd2 : d^2 = r^2 + z^2) (hρ : 0 ≤ ρ) (h6 : 6*ρ ≤ d) (θ : ℝ) :
    0 < dist2 r z ρ θ ∧
    (1 - 3/2*(ρ/d)^2)/d^3 ≤ (1/√(dist2 r z ρ θ)^3 + 1/√(dist2 r z ρ (θ - π))^3)/2 ∧
    (1/√(dist2 r z ρ θ)^3 + 1/√(dist2 r z ρ (θ - π))^3)/2 ≤ (1 - 7/5*(ρ/d)^2 + 44/5*(ρ/d)^2*cos θ^2)/d^3 := by
  obtain ⟨T, hT⟩ : ∃ T, T = (ρ/d)^2 := ⟨_, rfl⟩
  obtain ⟨B, hB⟩ : ∃ B, B = 2*(r/d)*(ρ/d)*cos θ := ⟨_, rfl⟩
  have hT0 : 0 ≤ T := by rw [hT]; positivity
  have hq : ρ/d ≤ 1/6 := by rw [div_le_iff₀ hd]; linarith
  have hq0 : 0 ≤ ρ/d := by positivity
  have hT1 : T ≤ 1/36 := by rw [hT]; nlinarith
  have hr1 : (r/d)^2 ≤ 1 := by rw [div_pow, div_le_one (by positivity), hd2]; nlinarith [sq_nonneg z]
  have hBB : B^2 ≤ 4*T*cos θ^2 := by
    have : B^2 = 4*T*cos θ^2 * (r/d)^2 := by rw [hB, hT]; ring
    rw [this]
    exact mul_le_of_le_one_right (by positivity) hr1
  have hB4 : B^2 ≤ 4*T := hBB.trans (mul_le_of_le_one_right (by positivity) (cos_sq_le_one θ))
  have e1 : dist2 r z ρ θ = d^2*(1 + T - B) := by
    have : d^2*(1 + T - B) = d^2 + ρ^2 - 2*r*ρ*cos θ := by rw [hT, hB]; field_simp
    rw [this]; unfold dist2; linarith
  have e2 : dist2 r z ρ (θ - π) = d^2*(1 + T + B) := by
    have : d^2*(1 + T + B) = d^2 + ρ^2 + 2*r*ρ*cos θ := by rw [hT, hB]; field_simp
    rw [this]; unfold dist2; rw [cos_sub_pi]; linarith
  obtain ⟨p1, p2, k1, k2⟩ := pair_unit hT0 hT1 hB4
  rw [e1, e2, sqrt_mul (by positivity), sqrt_mul (by positivity), sqrt_sq hd.le, ← hT]
  have hs1 := sqrt_pos.2 p1
  have hs2 := sqrt_pos.2 p2
  have e3 : (1/(d*√(1+T-B))^3 + 1/(d*√(1+T+B))^3)/2 = (1/√(1+T-B)^3 + 1/√(1+T+B)^3)/2 / d^3 := by
    field_simp
  rw [e3]
  refine ⟨by positivity, ?_, ?_⟩
  · gcongr
  · gcongr
    linarith

theorem half_turn_mean (f N : ℝ → ℝ) (hf : Continuous f) (hN : Continuous N) (h1 : ∀ θ, f (θ - π) = f θ) (h2 : Function.Periodic N (2*π)) :
    (∫ θ in (0:ℝ)..(2*π), f θ * N θ) = ∫ θ in (0:ℝ)..(2*π), f θ * ((N θ + N (θ - π))/2) := by
  have h3 : Function.Periodic f (2*π) := by
    intro θ
    rw [← h1 (θ + 2*π), ← h1 (θ + 2*π - π)]
    congr 1; ring
  have hs := shift_integral (fun θ => f θ * N θ) (fun θ => by simp only [h3 θ, h2 θ]) π
  simp only [h1] at hs
  have e : ∀ θ, f θ * ((N θ + N (θ - π))/2) = 1/2 * (f θ * N θ) + 1/2 * (f θ * N (θ - π)) := fun θ => by ring
  simp only [e]
  rw [integral_add (by apply Continuous.intervalIntegrable; fun_prop) (by apply Continuous.intervalIntegrable; fun_prop), integral_const_mul, integral_const_mul, hs]
  ring

/-- the mean of the kernel over a circle -/
theorem ring_mean {r z ρ d : ℝ} (hd : 0 < d) (hd2 : d^2 = r^2 + z^2) (hρ : 0 ≤ ρ) (h6 : 6*ρ ≤ d) :
    |(∫ θ in (0:ℝ)..(2*π), 1/√(dist2 r z ρ θ)^3) - 2*π/d^3| ≤ 6*π*(ρ/d)^2/d^3 := by
  have hb := pair_bounds hd hd2 hρ h6
  have hc : Continuous fun θ => 1/√(dist2 r z ρ θ)^3 :=
    Continuous.div (by fun_prop) (by unfold dist2; fun_prop) fun θ => (pow_pos (sqrt_pos.2 (hb θ).1) 3).ne'
  have hm := half_turn_mean (fun _ => 1) (fun θ => 1/√(dist2 r z ρ θ)^3) continuous_const hc (fun _ => rfl) (fun θ => by simp [dist2])
  simp only [one_mul] at hm
  have hcm : Continuous fun θ => (1/√(dist2 r z ρ θ)^3 + 1/√(dist2 r z ρ (θ - π))^3)/2 := by
    have : Continuous fun θ => 1/√(dist2 r z ρ (θ - π))^3 := hc.comp (continuous_id.sub continuous_const)
    fun_prop
  rw [hm]
  have hpi := pi_pos
  have lo : (∫ θ in (0:ℝ)..(2*π), (1 - 3/2*(ρ/d)^2)/d^3) ≤ ∫ θ in (0:ℝ)..(2*π), (1/√(dist2 r z ρ θ)^3 + 1/√(dist2 r z ρ (θ - π))^3)/2 :=
    integral_mono_on (by positivity) (by apply Continuous.intervalIntegrable; fun_prop) (hcm.intervalIntegrable _ _) fun θ _ => (hb θ).2.1
  have up : (∫ θ in (0:ℝ)..(2*π), (1/√(dist2 r z ρ θ)^3 + 1/√(dist2 r z ρ (θ - π))^3)/2) ≤ ∫ θ in (0:ℝ)..(2*π), (1 - 7/5*(ρ/d)^2 + 44/5*(ρ/d)^2*cos θ^2)/d^3 :=
    integral_mono_on (by positivity) (hcm.intervalIntegrable _ _) (by apply Continuous.intervalIntegrable; fun_prop) fun θ _ => (hb θ).2.2
  have e1 : (∫ θ in (0:ℝ)..(2*π), (1 - 3/2*(ρ/d)^2)/d^3) = 2*π*((1 - 3/2*(ρ/d)^2)/d^3) := by
    rw [integral_const, smul_eq_mul, sub_zero]
  have e2 : (∫ θ in (0:ℝ)..(2*π), (1 - 7/5*(ρ/d)^2 + 44/5*(ρ/d)^2*cos θ^2)/d^3) = 2*π*((1 + 3*(ρ/d)^2)/d^3) := by
    rw [integral_div, integral_add (by apply Continuous.intervalIntegrable; fun_prop) (by apply Continuous.intervalIntegrable; fun_prop), integral_const_mul,
      integral_cos_sq, integral_const, smul_eq_mul]
    simp only [cos_two_pi, sin_two_pi, sin_zero, mul_zero, sub_zero]
    ring
  rw [e1] at lo
  rw [e2] at up
  have q0 : 0 ≤ π*(ρ/d)^2/d^3 := by positivity
  have t1 : 2*π*((1 - 3/2*(ρ/d)^2)/d^3) = 2*π/d^3 - 3*(π*(ρ/d)^2/d^3) := by ring
  have t2 : 2*π*((1 + 3*(ρ/d)^2)/d^3) = 2*π/d^3 + 6*(π*(ρ/d)^2/d^3) := by ring
  have t3 : 6*π*(ρ/d)^2/d^3 = 6*(π*(ρ/d)^2/d^3) := by ring
  rw [t3, abs_le]
  constructor <;> linarith

/-- the mean of the kernel over a circle, weighted by `sin²` -/
theorem ring_sin2 {r z ρ d : ℝ} (hd : 0 < d) (hd2 : d^2 = r^2 + z^2) (hρ : 0 ≤ ρ) (h6 : 6*ρ ≤ d) :
    |(∫ θ in (0:ℝ)..(2*π), sin θ^2 * (1/√(dist2 r z ρ θ)^3)) - π/d^3| ≤ 3/2*π*(ρ/d)^2/d^3 := by
  have hb := pair_bounds hd hd2 hρ h6
  have hc : Continuous fun θ => 1/√(dist2 r z ρ θ)^3 :=
    Continuous.div (by fun_prop) (by unfold dist2; fun_prop) fun θ => (pow_pos (sqrt_pos.2 (hb θ).1) 3).ne'
  have hm := half_turn_mean (fun θ => sin θ^2) (fun θ => 1/√(dist2 r z ρ θ)^3) (by fun_prop) hc (fun θ => by simp only [sin_sub_pi]; ring) (fun θ => by simp [dist2])
  have hcm : Continuous fun θ => sin θ^2 * ((1/√(dist2 r z ρ θ)^3 + 1/√(dist2 r z ρ (θ - π))^3)/2) := by
    have : Continuous fun θ => 1/√(dist2 r z ρ (θ - π))^3 := hc.comp (continuous_id.sub continuous_const)
    fun_prop
  rw [hm]
  have hpi := pi_pos
  have lo : (∫ θ in (0:ℝ)..(2*π), sin θ^2 * ((1 - 3/2*(ρ/d)^2)/d^3)) ≤ ∫ θ in (0:ℝ)..(2*π), sin θ^2 * ((1/√(dist2 r z ρ θ)^3 + 1/√(dist2 r z ρ (θ - π))^3)/2) :=
    integral_mono_on (by positivity) (by apply Continuous.intervalIntegrable; fun_prop) (hcm.intervalIntegrable _ _)
      fun θ _ => mul_le_mul_of_nonneg_left (hb θ).2.1 (sq_nonneg _)
  have up : (∫ θ in (0:ℝ)..(2*π), sin θ^2 * ((1/√(dist2 r z ρ θ)^3 + 1/√(dist2 r z ρ (θ - π))^3)/2)) ≤ ∫ θ in (0:ℝ)..(2*π), sin θ^2 * ((1 - 7/5*(ρ/d)^2 + 44/5*(ρ/d)^2*cos θ^2)/d^3) :=
    integral_mono_on (by positivity) (hcm.intervalIntegrable _ _) (by apply Continuous.intervalIntegrable; fun_prop)
      fun θ _ => mul_le_mul_of_nonneg_left (hb θ).2.2 (sq_nonneg _)
  have hs2 : (∫ θ in (0:ℝ)..(2*π), sin θ^2) = π := by
    rw [integral_sin_sq]; simp
  have hs4 : (∫ θ in (0:ℝ)..(2*π), sin θ^2*cos θ^2) = π/4 := by
    rw [integral_sin_sq_mul_cos_sq]
    have : sin (4*(2*π)) = 0 := by rw [show 4*(2*π) = ((8:ℕ):ℝ)*π by push_cast; ring]; exact sin_nat_mul_pi 8
    rw [this, mul_zero, sin_zero]; ring
  have e1 : (∫ θ in (0:ℝ)..(2*π), sin θ^2 * ((1 - 3/2*(ρ/d)^2)/d^3)) = π*((1 - 3/2*(ρ/d)^2)/d^3) := by
    rw [integral_mul_const, hs2]
  have e2 : (∫ θ in (0:ℝ)..(2*π), sin θ^2 * ((1 - 7/5*(ρ/d)^2 + 44/5*(ρ/d)^2*cos θ^2)/d^3)) = π*((1 + 4/5*(ρ/d)^2)/d^3) := by
    have : ∀ θ, sin θ^2 * ((1 - 7/5*(ρ/d)^2 + 44/5*(ρ/d)^2*cos θ^2)/d^3) = (1 - 7/5*(ρ/d)^2)/d^3 * sin θ^2 + 44/5*(ρ/d)^2/d^3*(sin θ^2*cos θ^2) := fun θ => by ring
    simp only [this]
    rw [integral_add (by apply Continuous.intervalIntegrable; fun_prop) (by apply Continuous.intervalIntegrable; fun_prop), integral_const_mul, integral_const_mul, hs2, hs4]
    ring
  rw [e1] at lo
  rw [e2] at up
  have q0 : 0 ≤ π*(ρ/d)^2/d^3 := by positivity
  have t1 : π*((1 - 3/2*(ρ/d)^2)/d^3) = π/d^3 - 3/2*(π*(ρ/d)^2/d^3) := by ring
  have t2 : π*((1 + 4/5*(ρ/d)^2)/d^3) = π/d^3 + 4/5*(π*(ρ/d)^2/d^3) := by ring
  have t3 : 3/2*π*(ρ/d)^2/d^3 = 3/2*(π*(ρ/d)^2/d^3) := by ring
  rw [t3, abs_le]
  constructor <;> linarith

/-- the solid angle of a disk seen from six radii or more -/
theorem saK_far {r h R d : ℝ} (hh : 0 < h) (hR : 0 ≤ R) (hd : 0 < d) (hd2 : d^2 = r^2 + h^2) (h6 : 6*R ≤ d) :
    |saK r h R - π*R^2*h/d^3| ≤ 3/2*(R/d)^2*(π*R^2*h/d^3) := by
  rw [saK_eq hh hR]
  have hc := sa_inner_cont (r := r) hh
  have e1 : (∫ ρ in (0:ℝ)..R, ρ*h*(2*π/d^3)) = π*R^2*h/d^3 := by
    have : ∀ ρ : ℝ, ρ*h*(2*π/d^3) = (h*(2*π/d^3))*ρ := fun ρ => by ring
    simp only [this]
    rw [integral_const_mul, integral_id]
    ring
  have e2 : (∫ ρ in (0:ℝ)..R, ρ*h*(6*π*(ρ/d)^2/d^3)) = 3/2*(R/d)^2*(π*R^2*h/d^3) := by
    have : ∀ ρ : ℝ, ρ*h*(6*π*(ρ/d)^2/d^3) = (h*(6*π/d^2/d^3))*ρ^3 := fun ρ => by ring
    simp only [this]
    rw [integral_const_mul, integral_pow]
    norm_num
    ring
  rw [← e2, ← e1, ← integral_sub (hc.intervalIntegrable _ _) (by apply Continuous.intervalIntegrable; fun_prop)]
  refine abs_integral_le_integral_abs hR |>.trans ?_
  refine integral_mono_on hR ?_ (by apply Continuous.intervalIntegrable; fun_prop) fun ρ hρ => ?_
  · apply Continuous.intervalIntegrable
    exact (hc.sub (by fun_prop)).abs
  · have hm := ring_mean hd hd2 hρ.1 (by linarith [hρ.2])
    have : ∀ θ, ρ*h/√(dist2 r h ρ θ)^3 = ρ*h*(1/√(dist2 r h ρ θ)^3) := fun θ => by ring
    simp only [this]
    rw [integral_const_mul, ← mul_sub, abs_mul, abs_of_nonneg (mul_nonneg hρ.1 hh.le)]
    exact mul_le_mul_of_nonneg_left hm (mul_nonneg hρ.1 hh.le)

end
end Wiz
