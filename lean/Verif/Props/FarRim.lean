import Verif.Props.FarWakeStraight
import Verif.Props.WakeBoundary

/-! C103 at points at exactly the radius of the cylinder, upstream of the rotor: the case left out by `C103_straight`
and `C103_axis`. -/

open Real Filter Topology MeasureTheory Set

namespace Wiz

open Spec

theorem far_cylinder (P : V3 ℝ) (γ R δ : ℝ) (hR : 0 < R) (hδ : 5*R ≤ δ) (hz : P.z < 0) (h : δ ≤ V3.norm P) :
    |(cylinderField γ R P).x - (V3.smul (-(γ * R^2 / 4) / √(P.x^2 + P.y^2 + P.z^2)^3) P).x| ≤ 126 * |γ| * (R/δ)^3 ∧
    |(cylinderField γ R P).y - (V3.smul (-(γ * R^2 / 4) / √(P.x^2 + P.y^2 + P.z^2)^3) P).y| ≤ 126 * |γ| * (R/δ)^3 ∧
    |(cylinderField γ R P).z - (V3.smul (-(γ * R^2 / 4) / √(P.x^2 + P.y^2 + P.z^2)^3) P).z| ≤ 126 * |γ| * (R/δ)^3 := by
  have hfar' : ∀ z, 0 ≤ z → δ ≤ V3.norm (P - ⟨0*z, 0, z⟩) := by
    intro z hz'
    refine h.trans ?_
    unfold V3.norm
    apply sqrt_le_sqrt
    simp only [V3.sub_x, V3.sub_y, V3.sub_z]
    nlinarith
  have hoff := offWake_far hR hδ hfar'
  have hc := (C78_fields γ R hR P hoff).1
  have hK : γ * √(1+0^2) * (π*R^2) = γ * (π*R^2) := by norm_num
  have hb : ∀ π', (π' = V3.x ∨ π' = V3.y ∨ π' = V3.z) → _ := fun π' hπ => sheet_far γ hR hδ hfar' π' hπ
  simp only [hK, hc, show (|γ| * √(1+0^2)) = |γ| by norm_num] at hb
  have e := doublet_line_straight P (γ * (π*R^2)) (fun h => absurd h.2.2 (not_le.mpr hz))
  rw [sink_value] at e
  rw [← e]
  exact ⟨hb V3.x (by simp), hb V3.y (by simp), hb V3.z (by simp)⟩

/-- C103 (straight, at exactly the radius of the cylinder): the same bound, without truncation term. -/
theorem C103_rim (pts : List (V3 ℝ)) (γ R rCut : ℝ) (hR : 0 < R) (i : ℕ) (p : V3 ℝ) (δ : ℝ) (hi : pts[i]? = some p)
    (hδ : 5*R ≤ δ) (hδ8 : 2e-8 ≤ δ) (hfar : ∀ z, 0 ≤ z → δ ≤ V3.norm (p - ⟨0, 0, z⟩)) (hrim : √(p.x^2 + p.y^2) = R) :
    ∃ u D : V3 ℝ, (vcTang pts (.fin γ) R 0)[i]? = some (V3.fin u) ∧
      doubletLineU p (.fin γ * .fin (π*R^2)) 0 none = V3.fin D ∧
      (rCut * R < √(p.x^2 + p.y^2 + p.z^2) → 1e-8 ≤ √(p.x^2 + p.y^2) → 1e-8 ≤ |p.z| →
        (vcTangDoublet pts (.fin γ) R rCut)[i]? = some (V3.fin D)) ∧
      |u.x - D.x| ≤ 126 * |γ| * (R/δ)^3 ∧ |u.y - D.y| ≤ 126 * |γ| * (R/δ)^3 ∧ |u.z - D.z| ≤ 126 * |γ| * (R/δ)^3 := by
  have hfar' : ∀ z, 0 ≤ z → δ ≤ V3.norm (p - ⟨0*z, 0, z⟩) := by simpa using hfar
  have hr2 : p.x^2 + p.y^2 = R^2 := by rw [← hrim, sq_sqrt (by positivity)]
  have hge : ∀ z, 0 ≤ z → δ^2 ≤ R^2 + (p.z - z)^2 := by
    intro z hz
    have h1 := hfar z hz
    have h2 : V3.norm (p - ⟨0, 0, z⟩)^2 = R^2 + (p.z - z)^2 := by
      rw [← hr2]; unfold V3.norm; rw [sq_sqrt (by positivity)]; simp only [V3.sub_x, V3.sub_y, V3.sub_z, sub_zero]
    have h3 : 0 ≤ δ := by linarith
    rw [← h2]; gcongr
  have hz : p.z < 0 := by
    by_contra hh
    push Not at hh
    have := hge p.z hh
    nlinarith
  have hz1 : R ≤ -p.z := by
    have := hge 0 le_rfl
    by_contra hh; push Not at hh
    nlinarith
  have hline := far_off_line hδ8 hfar'
  have hD : doubletLineU p (.fin γ * .fin (π*R^2)) 0 none = V3.fin (V3.smul (-(γ * R^2 / 4) / √(p.x^2 + p.y^2 + p.z^2)^3) p) := by
    rw [Num.fin_mul, (C58_semi_infinite p _ 0).1 hline, doublet_line_straight _ _ (fun h => absurd h.2.2 (not_le.mpr hz)), sink_value]
  obtain ⟨ψ, hx, hy⟩ : ∃ ψ, p.x = R * cos ψ ∧ p.y = R * sin ψ := by
    refine ⟨Complex.arg ⟨p.x, p.y⟩, ?_, ?_⟩
    · have h := Complex.norm_mul_cos_arg ⟨p.x, p.y⟩
      rw [show ‖(⟨p.x, p.y⟩ : ℂ)‖ = R by rw [← hrim, Complex.norm_eq_sqrt_sq_add_sq]] at h
      exact h.symm
    · have h := Complex.norm_mul_sin_arg ⟨p.x, p.y⟩
      rw [show ‖(⟨p.x, p.y⟩ : ℂ)‖ = R by rw [← hrim, Complex.norm_eq_sqrt_sq_add_sq]] at h
      exact h.symm
  have hpe : p = ⟨R*cos ψ, R*sin ψ, p.z⟩ := by ext <;> simp [hx, hy]
  obtain ⟨u, hu, uz, ux, uy⟩ := C120_boundary pts γ R ψ p.z hR (by rw [abs_of_neg hz]; norm_num; linarith) i (by rw [hi, ← hpe]) _ rfl
  have tz := (C120_jump γ R ψ p.z hR hz.ne _ rfl).2 hz
  rw [if_pos hz] at uz
  rw [← uz] at tz
  have hle : 𝓝[>] R ≤ 𝓝[≠] R := nhdsWithin_mono _ (fun x hx => ne_of_gt hx)
  refine ⟨u, _, hu, hD, fun g1 g2 g3 => C49_outside pts γ R rCut hR i p hi g1 g2 g3, ?_⟩
  -- the bound on every larger radius, in the limit
  set Q : ℝ → V3 ℝ := fun r => ⟨r*cos ψ, r*sin ψ, p.z⟩ with hQ
  have hb : ∀ r, R < r → _ := fun r hr => far_cylinder (Q r) γ R δ hR hδ hz (by
    unfold V3.norm
    apply le_sqrt_of_sq_le
    have h1 := hge 0 le_rfl
    have h2 := sin_sq_add_cos_sq ψ
    have h3 : R^2 ≤ r^2 := by gcongr
    have h4 : (r*cos ψ)^2 + (r*sin ψ)^2 = r^2 := by linear_combination r^2 * h2
    simp only [hQ]
    linarith)
  have hpos : √((R*cos ψ)^2 + (R*sin ψ)^2 + p.z^2) ≠ 0 := by
    have : 0 < p.z^2 := by nlinarith
    exact (sqrt_pos.mpr (by positivity)).ne'
  have hev : ∀ᶠ r in 𝓝[>] R, R < r := self_mem_nhdsWithin
  have hQR : Q R = p := by rw [hpe]
  have cont : ∀ π' : V3 ℝ → ℝ, (π' = V3.x ∨ π' = V3.y ∨ π' = V3.z) →
      Tendsto (fun r => π' (V3.smul (-(γ * R^2 / 4) / √((Q r).x^2 + (Q r).y^2 + (Q r).z^2)^3) (Q r))) (𝓝[>] R)
        (𝓝 (π' (V3.smul (-(γ * R^2 / 4) / √(p.x^2 + p.y^2 + p.z^2)^3) p))) := by
    intro π' hπ
    rw [← hQR]
    apply Tendsto.mono_left _ nhdsWithin_le_nhds
    apply ContinuousAt.tendsto (f := fun r => π' (V3.smul (-(γ * R^2 / 4) / √((Q r).x^2 + (Q r).y^2 + (Q r).z^2)^3) (Q r)))
    rcases hπ with rfl | rfl | rfl <;> simp only [hQ, V3.smul] <;> fun_prop (disch := exact pow_ne_zero 3 hpos)
  refine ⟨?_, ?_, ?_⟩
  · exact le_of_tendsto ((ux.mono_left hle).sub (cont V3.x (by simp))).abs (hev.mono fun r hr => (hb r hr).1)
  · exact le_of_tendsto ((uy.mono_left hle).sub (cont V3.y (by simp))).abs (hev.mono fun r hr => (hb r hr).2.1)
  · exact le_of_tendsto ((tz.mono_left nhdsWithin_le_nhds).sub (cont V3.z (by simp))).abs (hev.mono fun r hr => (hb r hr).2.2)

/-- the point `(1,0,-12)` upstream of a rotor of radius 1 -/
example : (∀ z, (0:ℝ) ≤ z → (12:ℝ) ≤ V3.norm ((⟨1, 0, -12⟩ : V3 ℝ) - ⟨0, 0, z⟩)) ∧ √((1:ℝ)^2 + 0^2) = 1 := by
  refine ⟨fun z hz => ?_, by norm_num⟩
  unfold V3.norm
  apply le_sqrt_of_sq_le
  simp only [V3.sub_x, V3.sub_y, V3.sub_z]
  nlinarith

/-- C106 at exactly the radius of the cylinder, five radii or more upstream or downstream: no truncation, and downstream the
mean of the two sides (half of `γ`). -/
theorem C106_rim (pts : List (V3 ℝ)) (γ R : ℝ) (hR : 0 < R) (i : ℕ) (p : V3 ℝ) (hi : pts[i]? = some p) (hz : 5*R ≤ |p.z|)
    (hrim : √(p.x^2 + p.y^2) = R) (d : ℝ) (hd : d = √(p.x^2 + p.y^2 + p.z^2)) :
    ∃ u : V3 ℝ, (vcTang pts (.fin γ) R 0)[i]? = some (V3.fin u) ∧
      |u.x - -(γ*R^2/4) * (p.x/d^3)| ≤ 126 * |γ| * (R/|p.z|)^3 ∧ |u.y - -(γ*R^2/4) * (p.y/d^3)| ≤ 126 * |γ| * (R/|p.z|)^3 ∧
      |u.z - ((if 0 < p.z then γ/2 else 0) - (γ*R^2/4) * (p.z/d^3))| ≤ 126 * |γ| * (R/|p.z|)^3 := by
  have hz0 : p.z ≠ 0 := by
    intro h; rw [h, abs_zero] at hz; linarith
  obtain ⟨ψ, hx, hy⟩ : ∃ ψ, p.x = R * cos ψ ∧ p.y = R * sin ψ := by
    refine ⟨Complex.arg ⟨p.x, p.y⟩, ?_, ?_⟩
    · have h := Complex.norm_mul_cos_arg ⟨p.x, p.y⟩
      rw [show ‖(⟨p.x, p.y⟩ : ℂ)‖ = R by rw [← hrim, Complex.norm_eq_sqrt_sq_add_sq]] at h
      exact h.symm
    · have h := Complex.norm_mul_sin_arg ⟨p.x, p.y⟩
      rw [show ‖(⟨p.x, p.y⟩ : ℂ)‖ = R by rw [← hrim, Complex.norm_eq_sqrt_sq_add_sq]] at h
      exact h.symm
  have hpe : p = ⟨R*cos ψ, R*sin ψ, p.z⟩ := by ext <;> simp [hx, hy]
  obtain ⟨u, hu, uz, ux, uy⟩ := C120_boundary pts γ R ψ p.z hR (by norm_num; linarith) i (by rw [hi, ← hpe]) _ rfl
  have hj := C120_jump γ R ψ p.z hR hz0 _ rfl
  have tz : Tendsto (fun r => (cylinderField γ R ⟨r*cos ψ, r*sin ψ, p.z⟩).z) (𝓝[>] R) (𝓝 (u.z - if 0 < p.z then γ/2 else 0)) := by
    rcases lt_or_gt_of_ne hz0 with h | h
    · rw [uz, if_pos h, if_neg (not_lt.mpr h.le), sub_zero]
      exact (hj.2 h).mono_left nhdsWithin_le_nhds
    · rw [uz, if_neg (not_lt.mpr h.le), if_pos h]
      convert (hj.1 h).2 using 2
      ring
  have hle : 𝓝[>] R ≤ 𝓝[≠] R := nhdsWithin_mono _ (fun x hx => ne_of_gt hx)
  refine ⟨u, hu, ?_⟩
  set Q : ℝ → V3 ℝ := fun r => ⟨r*cos ψ, r*sin ψ, p.z⟩ with hQ
  have hpol : ∀ r, R < r → polarR (Q r).x (Q r).y = r := by
    intro r hr
    have h2 := sin_sq_add_cos_sq ψ
    unfold polarR
    simp only [hQ]
    rw [show (r*cos ψ)^2 + (r*sin ψ)^2 = r^2 by linear_combination r^2 * h2, sqrt_sq (by linarith)]
  have hb : ∀ r, R < r → _ := fun r hr => cylinder_far γ R hR (Q r) hz (by rw [hpol r hr]; linarith) (by rw [hpol r hr]; exact hr.ne')
  have hpos : √((R*cos ψ)^2 + (R*sin ψ)^2 + p.z^2) ≠ 0 := by
    have : 0 < p.z^2 := by positivity
    exact (sqrt_pos.mpr (by positivity)).ne'
  have hev : ∀ᶠ r in 𝓝[>] R, R < r := self_mem_nhdsWithin
  have hQR : Q R = p := by rw [hpe]
  have cont : ∀ π' : V3 ℝ → ℝ, (π' = V3.x ∨ π' = V3.y ∨ π' = V3.z) →
      Tendsto (fun r => -(γ*R^2/4) * (π' (Q r)/√((Q r).x^2 + (Q r).y^2 + (Q r).z^2)^3)) (𝓝[>] R) (𝓝 (-(γ*R^2/4) * (π' p/d^3))) := by
    intro π' hπ
    rw [hd, ← hQR]
    apply Tendsto.mono_left _ nhdsWithin_le_nhds
    apply ContinuousAt.tendsto (f := fun r => -(γ*R^2/4) * (π' (Q r)/√((Q r).x^2 + (Q r).y^2 + (Q r).z^2)^3))
    rcases hπ with rfl | rfl | rfl <;> simp only [hQ] <;> fun_prop (disch := exact pow_ne_zero 3 hpos)
  refine ⟨?_, ?_, ?_⟩
  · exact le_of_tendsto ((ux.mono_left hle).sub (cont V3.x (by simp))).abs (hev.mono fun r hr => le_of_eq_of_le (congrArg abs (by simp only [hQ]; ring)) (hb r hr).1)
  · exact le_of_tendsto ((uy.mono_left hle).sub (cont V3.y (by simp))).abs (hev.mono fun r hr => le_of_eq_of_le (congrArg abs (by simp only [hQ]; ring)) (hb r hr).2.1)
  · have h := le_of_tendsto (tz.sub (cont V3.z (by simp))).abs (b := 126 * |γ| * (R/|p.z|)^3) (hev.mono fun r hr => by
      have h3 := (hb r hr).2.2
      rw [hpol r hr, if_neg (fun h => absurd h.2 (not_lt.mpr hr.le))] at h3
      refine le_of_eq_of_le (congrArg abs ?_) h3
      simp only [hQ]; ring)
    refine le_of_eq_of_le (congrArg abs ?_) h
    ring

example : 5*(1:ℝ) ≤ |(-12:ℝ)| ∧ √((0.6:ℝ)^2 + 0.8^2) = 1 := by
  refine ⟨by norm_num, ?_⟩
  rw [show (0.6:ℝ)^2 + 0.8^2 = 1 by norm_num, sqrt_one]

end Wiz
