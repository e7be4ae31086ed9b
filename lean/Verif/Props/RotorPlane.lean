import Verif.Lemmas.RotorPlaneEval
import Verif.Props.VortexCylinderSkewed

/-! # Rotor-plane skew expansions (C86) -/
namespace Wiz
open Spec Real Classical Filter Topology

theorem skewAmplitude_neg (ρ m : ℝ) : skewAmplitude (-ρ) m = - skewAmplitude ρ m := by
  unfold skewAmplitude
  have h := intervalIntegral.integral_comp_sub_left (fun θ => sin θ ^ 2 / (√(1 + ρ^2 - 2*ρ*cos θ) * (1 + ρ^2 - 2*ρ*cos θ + m^2 * sin θ ^ 2))) π
    (a := 0) (b := π)
  simp only [sub_self, sub_zero, sin_pi_sub, cos_pi_sub] at h
  rw [← h]
  have e : ∀ θ : ℝ, sin θ ^ 2 / (√(1 + (-ρ)^2 - 2*-ρ*cos θ) * (1 + (-ρ)^2 - 2*-ρ*cos θ + m^2 * sin θ ^ 2))
      = sin θ ^ 2 / (√(1 + ρ^2 - 2*ρ*-cos θ) * (1 + ρ^2 - 2*ρ*-cos θ + m^2 * sin θ ^ 2)) := by
    intro θ
    rw [show 1 + (-ρ)^2 - 2*-ρ*cos θ = 1 + ρ^2 - 2*ρ*-cos θ by ring]
  rw [intervalIntegral.integral_congr (fun θ _ => e θ)]
  ring

/-- C86 (meaning of `Kzt`): in the rotor plane, on the two sides of the diameter along the skew, the
axial velocity of the tangential vorticity of the skewed wake returned by the library converges, as
the number of quadrature points grows, to `γ/2 (1 ± K_z(r/R, tan χ))`. -/
theorem C86_rotor_plane (r γ R m : ℝ) (hr : 0 ≤ r) (hrR : r < R) :
    ∃ u v : ℕ → ℝ,
      (∀ n, (svcTangPolar ⟨r, 0, 0⟩ (.fin γ) R (.fin m) (n+1) false).z = .fin (u n)) ∧
      (∀ n, (svcTangPolar ⟨r, π, 0⟩ (.fin γ) R (.fin m) (n+1) false).z = .fin (v n)) ∧
      Tendsto u atTop (𝓝 (γ/2 * (1 + skewAmplitude (r/R) m))) ∧
      Tendsto v atTop (𝓝 (γ/2 * (1 - skewAmplitude (r/R) m))) := by
  have hR : 0 < R := lt_of_le_of_lt hr hrR
  have hoff : ∀ x : ℝ, |x| < R → ∀ θ s, 0 ≤ s → (⟨x, 0, 0⟩ : V3 ℝ) ≠ wakePoint R m θ s := by
    intro x hx θ s hs h
    have hk : 0 < √(1+m^2) := sqrt_pos.mpr (by positivity)
    have hz : (0:ℝ) = 0 + s * (1 / √(1 + m^2)) := congrArg V3.z h
    have hs0 : s = 0 := by
      have : s * (1/√(1+m^2)) = 0 := by linarith
      rcases mul_eq_zero.mp this with h | h
      · exact h
      · exact absurd h (by positivity)
    subst hs0
    have h1 : x = R*cos θ := by
      have : x = R*cos θ + 0 * _ := congrArg V3.x h
      rw [this]; ring
    have h2 : 0 = R*sin θ := by
      have : 0 = R*sin θ + 0 * _ := congrArg V3.y h
      rw [this]; ring
    have h3 : x^2 = R^2 := by
      rw [h1]; linear_combination R^2 * sin_sq_add_cos_sq θ + (R*sin θ)*h2
    have h4 := abs_lt.mp hx
    nlinarith
  have hp0 : polarPoint r 0 0 = ⟨r/R*R, 0, 0⟩ := by
    unfold polarPoint; rw [div_mul_cancel₀ _ hR.ne']; simp
  have hpp : polarPoint r π 0 = ⟨-(r/R)*R, 0, 0⟩ := by
    unfold polarPoint; rw [neg_mul, div_mul_cancel₀ _ hR.ne']; simp
  have hx : |r/R*R| < R := by rw [div_mul_cancel₀ _ hR.ne', abs_of_nonneg hr]; exact hrR
  have hx' : |-(r/R)*R| < R := by rw [neg_mul, abs_neg]; exact hx
  have hρ : r/R < 1 := (div_lt_one hR).mpr hrR
  have hρ0 : 0 ≤ r/R := div_nonneg hr hR.le
  obtain ⟨u, hu, _, _, tu⟩ := (C65_converges ⟨r, 0, 0⟩ γ R m hR (by rw [hp0]; exact hoff _ hx)).1
  obtain ⟨v, hv, _, _, tv⟩ := (C65_converges ⟨r, π, 0⟩ γ R m hR (by rw [hpp]; exact hoff _ hx')).1
  refine ⟨fun n => (u n).z, fun n => (v n).z, fun n => by rw [hu n]; rfl, fun n => by rw [hv n]; rfl, ?_, ?_⟩
  · have : (skewTangField γ R m (polarPoint r 0 0)).z = γ/2 * (1 + skewAmplitude (r/R) m) := by
      rw [hp0]; exact rotor_plane_axial hR (by linarith) hρ
    rw [← this]; exact tu
  · have : (skewTangField γ R m (polarPoint r π 0)).z = γ/2 * (1 - skewAmplitude (r/R) m) := by
      rw [hpp, rotor_plane_axial hR (by linarith) (by linarith), skewAmplitude_neg]; ring
    rw [← this]; exact tv

example : (0:ℝ) ≤ 1/2 ∧ (1/2:ℝ) < 1 := by norm_num

theorem entries_map (k : ℝ → Num → Num → Num) (p1 p2 : ℝ → Num) (vr : List ℝ) :
    List.zipWith (fun r (p : Num × Num) => k r p.1 p.2) vr ((vr.map p1).zip (vr.map p2)) = vr.map fun r => k r (p1 r) (p2 r) := by
  rw [List.zip, List.zipWith_map, List.zipWith_self, List.zipWith_map_right, List.zipWith_self]

/-- C86 (closed form): with exact elliptic integrals the closed form of `fKzt` is the amplitude
`K_z` at every radius of `[0,1)` and every non-zero skew. -/
theorem C86_closed_form (vr : List ℝ) (m : ℝ) (hm : m ≠ 0) (hvr : ∀ r ∈ vr, 0 ≤ r ∧ r < 1) :
    fKztWith exactPi vr m 1 = .ok [vr.map fun r => .fin (skewAmplitude r m)] := by
  unfold fKztWith
  rw [if_neg hm]
  simp only [if_true]
  congr 2
  unfold exactPi
  rw [List.map_map, List.map_map, entries_map (fun r a b => kztEntry r m a b)]
  apply List.map_congr_left
  intro r hr
  obtain ⟨h0, h1⟩ := hvr r hr
  simp only [Function.comp_apply]
  rw [rpB1_eval h0, rpB2_eval h0, rpJ2_eval h0, Num.fin_neg]
  simp only []
  rw [kztEntry_eval h0 h1 hm, kzt_closed h0 h1 hm]

example : ∀ r ∈ [(0:ℝ), 1/2, 9/10], 0 ≤ r ∧ r < 1 := by
  intro r hr; simp at hr; rcases hr with rfl | rfl | rfl <;> norm_num

/-- the closed form with the library's own routine for the elliptic integral of the third kind: its distance to the amplitude,
in terms of the errors of the two elliptic integrals -/
theorem kzt_shipped (vr : List ℝ) (m : ℝ) (hm : m ≠ 0) (hvr : ∀ r ∈ vr, 0 ≤ r ∧ r < 1) :
    ∃ P1 P2 v : ℝ → ℝ,
      ellipticPiCarlson (vr.map fun r => (.fin (-rB1 r m), .fin (rJ r))) = vr.map (fun r => .fin (P1 r)) ∧
      ellipticPiCarlson (vr.map fun r => (.fin (rB2 r m), .fin (rJ r))) = vr.map (fun r => .fin (P2 r)) ∧
      fKzt vr m 1 = .ok [vr.map fun r => .fin (v r)] ∧
      ∀ r ∈ vr, v r - skewAmplitude r m = -(r*(r+1)/(2*m*π*√(m^2+r^2)) *
        ((rB1 r m + rJ r) * (P1 r - ellPi (-rB1 r m) (rJ r)) + (rB2 r m - rJ r) * (P2 r - ellPi (rB2 r m) (rJ r)))) := by
  have e1 : (vr.map fun r => ((-rpB1 r m, rpJ2 r) : Num × Num)) = vr.map fun r => (.fin (-rB1 r m), .fin (rJ r)) := by
    apply List.map_congr_left
    intro r hr
    rw [rpB1_eval (hvr r hr).1, rpJ2_eval (hvr r hr).1, Num.fin_neg]
  have e2 : (vr.map fun r => ((rpB2 r m, rpJ2 r) : Num × Num)) = vr.map fun r => (.fin (rB2 r m), .fin (rJ r)) := by
    apply List.map_congr_left
    intro r hr
    rw [rpB2_eval (hvr r hr).1, rpJ2_eval (hvr r hr).1]
  obtain ⟨P1, q1⟩ : ∃ P1 : ℝ → ℝ, ellipticPiCarlson (vr.map fun r => (.fin (-rB1 r m), .fin (rJ r))) = vr.map (fun r => .fin (P1 r)) := by
    refine ⟨fun r => piReal (vr.map fun r => (.fin (-rB1 r m), .fin (rJ r))) (-rB1 r m) (rJ r), ?_⟩
    have h := piOf_map (vr.map fun r => ((.fin (-rB1 r m), .fin (rJ r)) : Num × Num))
    rw [List.map_map] at h
    rw [h]
    apply List.map_congr_left
    intro r hr
    obtain ⟨h0, h1⟩ := hvr r hr
    exact piReal_spec _ (by have := rB1_nonneg (m := m) h0; linarith) (rJ_lt h0 h1.ne).le
  obtain ⟨P2, q2⟩ : ∃ P2 : ℝ → ℝ, ellipticPiCarlson (vr.map fun r => (.fin (rB2 r m), .fin (rJ r))) = vr.map (fun r => .fin (P2 r)) := by
    refine ⟨fun r => piReal (vr.map fun r => (.fin (rB2 r m), .fin (rJ r))) (rB2 r m) (rJ r), ?_⟩
    have h := piOf_map (vr.map fun r => ((.fin (rB2 r m), .fin (rJ r)) : Num × Num))
    rw [List.map_map] at h
    rw [h]
    apply List.map_congr_left
    intro r hr
    obtain ⟨h0, h1⟩ := hvr r hr
    exact piReal_spec _ (rB2_lt h0 h1) (rJ_lt h0 h1.ne).le
  refine ⟨P1, P2, fun r => 2*√(1+m^2)*r/(m*π) * ellK (r^2) - r*(r+1)/(2*m*π*√(m^2+r^2)) *
      ((rB1 r m + rJ r) * P1 r + (rB2 r m - rJ r) * P2 r), q1, q2, ?_, ?_⟩
  · unfold fKzt fKztWith
    rw [if_neg hm]
    simp only [if_true]
    rw [e1, e2, q1, q2, entries_map (fun r a b => kztEntry r m a b)]
    congr 2
    apply List.map_congr_left
    intro r hr
    obtain ⟨h0, h1⟩ := hvr r hr
    rw [kztEntry_eval h0 h1 hm]
  · intro r hr
    obtain ⟨h0, h1⟩ := hvr r hr
    rw [← kzt_closed h0 h1 hm]
    simp only []
    generalize P1 r = a1
    generalize P2 r = a2
    generalize ellPi (-rB1 r m) (rJ r) = p1
    generalize ellPi (rB2 r m) (rJ r) = p2
    ring

/-- C86 (quadratures): on `n+1` nodes the four quadratures of `fKzt` (the last one with the missing
`chi = arctan m` supplied) return exactly the same finite number, `sin χ` times the quadrature of `fKxit`;
it converges to the amplitude `K_z` as `n` grows, and the quadrature of `fKxit` to `K_ξ`. -/
theorem C86_quadratures (r m : ℝ) (hr : 0 ≤ r) (hr1 : r < 1) (hm : m ≠ 0) :
    ∃ q x : ℕ → ℝ, (∀ n, kztNum (n+1) r m = .fin (q n) ∧ kztNum2 (n+1) r m = .fin (q n) ∧ kztNum3 (n+1) r m = .fin (q n) ∧
        kztNum4 (n+1) r (arctan m) = .fin (q n) ∧ kxitNum (n+1) r m = .fin (x n) ∧ q n = sin (arctan m) * x n) ∧
      Tendsto q atTop (𝓝 (skewAmplitude r m)) ∧ Tendsto x atTop (𝓝 (xiAmplitude r (arctan m))) := by
  have h0 : -1 < r := by linarith
  have T := panels_tendsto pi_pos (ampl r m) (ampl_cont h0 hr1 m)
  refine ⟨_, _, fun n => ⟨kztNum_eval h0 hr1 hm n, kztNum2_eval h0 hr1 n, kztNum3_eval h0 hr1 n, kztNum4_eval h0 hr1 n,
    kxitNum_eval h0 hr1 n, ?_⟩, T.const_mul _, ?_⟩
  · have hk : 0 < √(1+m^2) := sqrt_pos.mpr (by positivity)
    have hk2 := sq_sqrt (show 0 ≤ 1+m^2 by positivity)
    rw [sin_arctan]
    generalize √(1+m^2) = k at *
    rw [← hk2]
    field_simp
  · rw [xiAmplitude_eq]; exact T.const_mul _

/-- C86 (no skew): the quadrature of `fKxit` converges to `K_ξ` for `m=0` too. -/
theorem C86_quadrature_xi (r m : ℝ) (hr : 0 ≤ r) (hr1 : r < 1) :
    ∃ x : ℕ → ℝ, (∀ n, kxitNum (n+1) r m = .fin (x n)) ∧ Tendsto x atTop (𝓝 (xiAmplitude r (arctan m))) := by
  refine ⟨_, fun n => kxitNum_eval (by linarith) hr1 n, ?_⟩
  rw [xiAmplitude_eq]
  exact (panels_tendsto pi_pos (ampl r m) (ampl_cont (by linarith) hr1 m)).const_mul _

/-- C86: the two amplitudes differ by the factor `sin χ`. -/
theorem C86_amplitudes (r m : ℝ) : sin (arctan m) * xiAmplitude r (arctan m) = skewAmplitude r m := xi_skew

/-- C86 (outputs of `fKzt`): it raises without skew; with skew it returns as many arrays as asked for up to 3
— the closed form, the quadrature on 1000 nodes and Øye's polynomial `(r + 0.4 r³ + 0.4 r⁵)/2` — and raises
(undefined name) when more are asked for, whatever the radii (at least one). -/
theorem C86_outputs (vr : List ℝ) (m : ℝ) :
    (∀ nout, fKzt vr 0 nout = .error "Not intended for m==0") ∧
    (m ≠ 0 → ∃ Kzt : List Num, Kzt.length = vr.length ∧
      (∀ nout, 1 ≤ nout → nout ≤ 3 → fKzt vr m nout =
        .ok ([Kzt, vr.map (kztNum 1000 · m), vr.map fun r => .fin ((r + 0.4*r^3 + 0.4*r^5)/2)].take nout)) ∧
      ∀ nout, 3 < nout → vr ≠ [] → fKzt vr m nout = .error "NameError: name 'chi' is not defined") := by
  constructor
  · intro nout; unfold fKzt fKztWith; rw [if_pos rfl]
  · intro hm
    have hlen : ∀ nm, (ellipticPiCarlson nm).length = nm.length := by
      intro nm; rw [piOf_map]; simp
    have ho : vr.map rpOye = vr.map fun r => Num.fin ((r + 0.4*r^3 + 0.4*r^5)/2) := by
      apply List.map_congr_left
      intro r _
      unfold rpOye
      simp only [Num.fin_pow, Num.fin_mul, Num.fin_add]
      congr 1; ring
    refine ⟨List.zipWith (fun r p => kztEntry r m p.1 p.2) vr ((ellipticPiCarlson (vr.map fun r => (- rpB1 r m, rpJ2 r))).zip
      (ellipticPiCarlson (vr.map fun r => (rpB2 r m, rpJ2 r)))), ?_, ?_, ?_⟩
    · simp [hlen]
    · intro nout h1 h3
      unfold fKzt fKztWith
      rw [if_neg hm, ← ho]
      simp only []
      by_cases h : nout = 1
      · subst h; rw [if_pos rfl]; rfl
      · rw [if_neg h, if_pos h3]
    · intro nout h3 hv
      unfold fKzt fKztWith
      rw [if_neg hm]
      simp only []
      rw [if_neg (by omega), if_neg (by omega), if_neg hv]

example : ([0, 1/2] : List ℝ) ≠ [] := by simp

/-- C86 (`fKxit` without skew): the closed form is exactly `K_ξ` at every radius of `]1e-7,1[`; below
`1e-7` it is `0`, which is within `2e-7` of `K_ξ`. -/
theorem C86_xi_no_skew (vr : List ℝ) (hvr : ∀ r ∈ vr, 0 ≤ r ∧ r < 1) :
    ∃ v : ℝ → ℝ, (fKxit vr 0).1 = vr.map (fun r => .fin (v r)) ∧
      ∀ r ∈ vr, (1e-7 < r → v r = xiAmplitude r 0) ∧ (r ≤ 1e-7 → v r = 0 ∧ |xiAmplitude r 0| ≤ 2e-7) := by
  refine ⟨fun r => if (1e-7:ℝ) < r then xiAmplitude r 0 else 0, ?_, ?_⟩
  · unfold fKxit fKxitWith
    simp only [if_true]
    apply List.map_congr_left
    intro r hr
    by_cases h : (1e-7:ℝ) < r
    · rw [if_pos h, kxitZero_eval h (hvr r hr).2]
    · rw [if_neg h]
      unfold kxitZero
      simp only [if_neg h]
      rfl
  · intro r hr
    refine ⟨fun h => if_pos h, fun h => ⟨if_neg (not_lt.mpr h), ?_⟩⟩
    have h0 := (hvr r hr).1
    have hx := xiAmplitude_eq (r := r) (m := 0)
    rw [arctan_zero] at hx
    have hb : |∫ θ in (0:ℝ)..π, ampl r 0 θ| ≤ 2 * |π - 0| := by
      rw [← Real.norm_eq_abs]
      apply intervalIntegral.norm_integral_le_of_norm_le_const
      intro θ _
      have hd1 : (1-r)^2 ≤ 1 + r^2 - 2*r*cos θ := by nlinarith [cos_le_one θ]
      have hr2 : (9/10:ℝ) ≤ 1 - r := by norm_num at h ⊢; linarith
      have hd2 : (4/5:ℝ) ≤ 1 + r^2 - 2*r*cos θ := by nlinarith
      have hq : (4/5:ℝ) ≤ √(1 + r^2 - 2*r*cos θ) := le_sqrt_of_sq_le (by nlinarith)
      have hs := sin_sq_le θ
      unfold ampl
      rw [Real.norm_eq_abs, abs_of_nonneg (by have := hs.1; positivity)]
      rw [div_le_iff₀ (by have := hs.1; positivity)]
      have : (16/25:ℝ) ≤ √(1 + r^2 - 2*r*cos θ) * (1 + r^2 - 2*r*cos θ + 0^2 * sin θ^2) := by nlinarith
      linarith [hs.2]
    rw [hx, abs_mul]
    rw [sub_zero, abs_of_pos pi_pos] at hb
    have e : |r*(1+0^2)/π| = r/π := by rw [abs_of_nonneg (by have := pi_pos; positivity)]; ring
    rw [e]
    calc r/π * |∫ θ in (0:ℝ)..π, ampl r 0 θ| ≤ r/π * (2*π) := by
          apply mul_le_mul_of_nonneg_left hb (by have := pi_pos; positivity)
      _ = 2*r := by have := pi_ne_zero; field_simp
      _ ≤ 2e-7 := by norm_num at h ⊢; linarith

example : ∀ r ∈ [(0:ℝ), 1e-8, 1/2], 0 ≤ r ∧ r < 1 := by
  intro r hr; simp at hr; rcases hr with rfl | rfl | rfl <;> norm_num

theorem xi_difference {r m : ℝ} (hr : 0 < r) (hm : m ≠ 0) (K P1 P2 B1 B2 J : ℝ) :
    sin (arctan m) * (2*(1+m^2)*r/(m^2*π) * K - r*(r+1)*√(m^2+1)/(2*m^2*π*√(m^2+r^2)) * ((1 + J) * P1 + (B2 - J) * P2))
      - (2*√(1+m^2)*r/(m*π) * K - r*(r+1)/(2*m*π*√(m^2+r^2)) * ((B1 + J) * P1 + (B2 - J) * P2))
      = r*(r+1)/(2*m*π*√(m^2+r^2)) * (B1 - 1) * P1 := by
  have hk : 0 < √(1+m^2) := sqrt_pos.mpr (by positivity)
  have hk2 := sq_sqrt (show 0 ≤ 1+m^2 by positivity)
  have hs : 0 < √(m^2+r^2) := sqrt_pos.mpr (by positivity)
  rw [sin_arctan, add_comm (m^2) 1]
  generalize √(1+m^2) = k at *
  generalize √(m^2+r^2) = s at *
  rw [← hk2]
  have hpi := pi_ne_zero
  field_simp
  ring

theorem ellPi_pos' {n q : ℝ} (hn : n < 1) (hq : q < 1) : 0 < ellPi n q := by
  unfold ellPi
  apply intervalIntegral.intervalIntegral_pos_of_pos_on
  · apply Continuous.intervalIntegrable
    refine continuous_const.div (by fun_prop) fun t => ?_
    exact mul_ne_zero (delta_pos hn t).ne' (sqrt_pos.mpr (delta_pos hq t)).ne'
  · intro t _
    have h1 := delta_pos hn t
    have h2 := sqrt_pos.mpr (delta_pos hq t)
    positivity
  · have := pi_pos; linarith

/-- C86 (`fKxit` with skew is wrong): with exact elliptic integrals, the closed form of `fKxit` at a
radius of `]1e-7,1[` and a non-zero skew is the amplitude `K_ξ` only in the coincidental case
`((√(1+m²)+√(r²+m²))/(1+r))² = 2`, because the value of `b1` in the formula is overwritten by the mask of
the points off the axis. -/
theorem C86_xi_skew_refuted :
    (∀ r m : ℝ, 1e-7 < r → r < 1 → m ≠ 0 → ∃ v : ℝ, (fKxitWith exactPi [r] m).1 = [.fin v] ∧
      (v = xiAmplitude r (arctan m) ↔ ((√(1+m^2) + √(r^2+m^2))/(1+r))^2 = 2)) ∧
    ¬ ∀ r m : ℝ, 1e-7 < r → r < 1 → m ≠ 0 → (fKxitWith exactPi [r] m).1 = [.fin (xiAmplitude r (arctan m))] := by
  have main : ∀ r m : ℝ, 1e-7 < r → r < 1 → m ≠ 0 → ∃ v : ℝ, (fKxitWith exactPi [r] m).1 = [.fin v] ∧
      (v = xiAmplitude r (arctan m) ↔ ((√(1+m^2) + √(r^2+m^2))/(1+r))^2 = 2) := by
    intro r m hr hr1 hm
    have h0 : 0 < r := lt_trans (by norm_num) hr
    refine ⟨2*(1+m^2)*r/(m^2*π) * ellK (r^2) - r*(r+1)*√(m^2+1)/(2*m^2*π*√(m^2+r^2)) *
      ((1 + rJ r) * ellPi (-rB1 r m) (rJ r) + (rB2 r m - rJ r) * ellPi (rB2 r m) (rJ r)), ?_, ?_⟩
    · unfold fKxitWith exactPi
      simp only [if_neg hm, List.map_cons, List.map_nil]
      rw [rpB1_eval h0.le, rpB2_eval h0.le, rpJ2_eval h0.le, Num.fin_neg]
      simp only [List.zip_cons_cons, List.zip_nil_right, List.zipWith_cons_cons, List.zipWith_nil_left]
      rw [kxitEntry_eval hr hr1 hm]
    · have hd := xi_difference h0 hm (ellK (r^2)) (ellPi (-rB1 r m) (rJ r)) (ellPi (rB2 r m) (rJ r)) (rB1 r m) (rB2 r m) (rJ r)
      rw [kzt_closed h0.le hr1 hm, ← xi_skew, ← mul_sub] at hd
      have hP := ellPi_pos' (n := -rB1 r m) (by have := rB1_nonneg (m := m) h0.le; linarith) (rJ_lt h0.le hr1.ne)
      have hk : 0 < √(1+m^2) := sqrt_pos.mpr (by positivity)
      have hs : 0 < √(m^2+r^2) := sqrt_pos.mpr (by positivity)
      have hsin : sin (arctan m) ≠ 0 := by rw [sin_arctan]; exact div_ne_zero hm hk.ne'
      have hc : r*(r+1)/(2*m*π*√(m^2+r^2)) ≠ 0 := by
        have := pi_ne_zero
        positivity
      rw [← sub_eq_zero]
      constructor
      · intro h
        rw [h, mul_zero] at hd
        have : rB1 r m - 1 = 0 := by
          rcases mul_eq_zero.mp hd.symm with h | h
          · exact (mul_eq_zero.mp h).resolve_left hc
          · exact absurd h hP.ne'
        unfold rB1 at this; linarith
      · intro h
        have : rB1 r m - 1 = 0 := by unfold rB1; linarith
        rw [this, mul_zero, zero_mul] at hd
        exact (mul_eq_zero.mp hd).resolve_left hsin
  refine ⟨main, fun H => ?_⟩
  obtain ⟨v, hv, hiff⟩ := main (1/2) (1/10) (by norm_num) (by norm_num) (by norm_num)
  have h := H (1/2) (1/10) (by norm_num) (by norm_num) (by norm_num)
  rw [hv] at h
  have h2 := hiff.mp (Num.fin.inj (List.cons.inj h).1)
  have a1 : √(1+(1/10:ℝ)^2) ≤ 11/10 := by rw [sqrt_le_left (by norm_num)]; norm_num
  have a2 : √((1/2:ℝ)^2+(1/10)^2) ≤ 6/10 := by rw [sqrt_le_left (by norm_num)]; norm_num
  have a3 : 0 ≤ √(1+(1/10:ℝ)^2) := sqrt_nonneg _
  have a4 : 0 ≤ √((1/2:ℝ)^2+(1/10)^2) := sqrt_nonneg _
  generalize √(1+(1/10:ℝ)^2) = x at *
  generalize √((1/2:ℝ)^2+(1/10)^2) = y at *
  have a5 : (x+y)/(1+1/2) ≤ 17/15 := by rw [div_le_iff₀ (by norm_num)]; linarith
  have a6 : 0 ≤ (x+y)/(1+1/2) := by positivity
  nlinarith

/-- C86 (the shipped pair): the closed forms of `fKxit` and `fKzt` as shipped are both finite, and
`sin χ · Kxit` differs from `Kzt` by an explicit multiple of `b₁-1` times the elliptic integral computed at
`(-b₁,j²)`, although the quadratures the two functions return for comparison satisfy `sin χ · Kxit_num = Kztnum`
exactly. -/
theorem C86_xi_inconsistent (r m : ℝ) (hr : 1e-7 < r) (hr1 : r < 1) (hm : m ≠ 0) :
    ∃ b1 j2 P1 kx kz q : ℝ, b1 = ((√(1+m^2) + √(r^2+m^2))/(1+r))^2 - 1 ∧ j2 = 1 - (1-r)^2/(1+r)^2 ∧
      ellipticPiCarlson [(.fin (-b1), .fin j2)] = [.fin P1] ∧
      (fKxit [r] m).1 = [.fin kx] ∧ fKzt [r] m 2 = .ok [[.fin kz], [.fin (sin (arctan m) * q)]] ∧ (fKxit [r] m).2.1 = [.fin q] ∧
      sin (arctan m) * kx - kz = r*(r+1)/(2*m*π*√(m^2+r^2)) * (b1 - 1) * P1 := by
  have h0 : 0 < r := lt_trans (by norm_num) hr
  have hJ := rJ_lt h0.le hr1.ne
  obtain ⟨P1, q1⟩ : ∃ P1 : ℝ, ellipticPiCarlson [(.fin (-rB1 r m), .fin (rJ r))] = [.fin P1] := by
    have h := piOf_map [((.fin (-rB1 r m), .fin (rJ r)) : Num × Num)]
    rw [h]
    exact ⟨_, by rw [List.map_singleton, piReal_spec _ (by have := rB1_nonneg (m := m) h0.le; linarith) hJ.le]⟩
  obtain ⟨P2, q2⟩ : ∃ P2 : ℝ, ellipticPiCarlson [(.fin (rB2 r m), .fin (rJ r))] = [.fin P2] := by
    have h := piOf_map [((.fin (rB2 r m), .fin (rJ r)) : Num × Num)]
    rw [h]
    exact ⟨_, by rw [List.map_singleton, piReal_spec _ (rB2_lt h0.le hr1) hJ.le]⟩
  obtain ⟨q, x, hq, -, -⟩ := C86_quadratures r m h0.le hr1 hm
  obtain ⟨hz, -, -, -, hx, hqx⟩ := hq 999
  refine ⟨rB1 r m, rJ r, P1, _, _, x 999, rfl, rfl, q1, ?_, ?_, ?_, xi_difference h0 hm (ellK (r^2)) P1 P2 (rB1 r m) (rB2 r m) (rJ r)⟩
  · unfold fKxit fKxitWith
    simp only [if_neg hm, List.map_cons, List.map_nil]
    rw [rpB1_eval h0.le, rpB2_eval h0.le, rpJ2_eval h0.le, Num.fin_neg, q1, q2]
    simp only [List.zip_cons_cons, List.zip_nil_right, List.zipWith_cons_cons, List.zipWith_nil_left]
    rw [kxitEntry_eval hr hr1 hm]
  · unfold fKzt fKztWith
    simp only [if_neg hm, List.map_cons, List.map_nil]
    rw [rpB1_eval h0.le, rpB2_eval h0.le, rpJ2_eval h0.le, Num.fin_neg, q1, q2]
    simp only [List.zip_cons_cons, List.zip_nil_right, List.zipWith_cons_cons, List.zipWith_nil_left]
    rw [kztEntry_eval h0.le hr1 hm, if_neg (by norm_num), if_pos (by norm_num), hz, hqx]
    rfl
  · unfold fKxit fKxitWith
    simp only [List.map_cons, List.map_nil]
    rw [hx]

/-- C86 (rim): the docstrings allow `r=1`, where the amplitude is infinite: `fKzt` returns `nan` there. -/
theorem C86_rim_nan (m : ℝ) (hm : m ≠ 0) : fKzt [1] m 1 = .ok [[.nan]] := by
  have hB2 : rpB2 1 m = .fin 1 := by
    rw [rpB2_eval zero_le_one]; congr 1; unfold rB2; simp
  have hJ : rpJ2 1 = .fin 1 := by
    rw [rpJ2_eval zero_le_one]; congr 1; unfold rJ; simp
  have h2 : ellipticPiCarlson [(.fin 1, .fin 1)] = [.pinf] := by
    obtain ⟨P, h, -, h3⟩ := piOf_exists [((.fin 1, .fin 1) : Num × Num)]
    rw [h, List.map_singleton, (h3 1 1 le_rfl).2 le_rfl]
  obtain ⟨p1, h1⟩ : ∃ p1, ellipticPiCarlson [(- rpB1 1 m, rpJ2 1)] = [p1] := by
    have h := piOf_map [(- rpB1 1 m, rpJ2 1)]
    exact ⟨_, h⟩
  unfold fKzt fKztWith
  simp only [if_neg hm, if_true, List.map_cons, List.map_nil]
  rw [h1, hB2, hJ, h2]
  simp only [List.zip_cons_cons, List.zip_nil_right, List.zipWith_cons_cons, List.zipWith_nil_left]
  unfold kztEntry
  rw [hB2, hJ]
  have hz : ((Num.fin 1 - Num.fin 1) * Num.pinf : Num) = .nan := by
    rw [Num.fin_sub, sub_self]
    show Num.infSign 0 = .nan
    simp [Num.infSign]
  rw [hz]
  simp

example : (1/10:ℝ) ≠ 0 := by norm_num

end Wiz
