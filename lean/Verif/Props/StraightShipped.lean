import Verif.Lemmas.CarlsonPremature2
import Verif.Props.Flow
set_option autoImplicit false

/-! # C87: the straight cylinder as shipped does not conserve mass -/
namespace Wiz
open Spec Real Filter Topology Classical

/-- `vc_tang_u` on a single regular point -/
theorem straight_single (γ R : ℝ) (hR : 0 < R) (p : V3 ℝ) (h1 : R/2 < √(p.x^2 + p.y^2)) (h2 : √(p.x^2 + p.y^2) < 99/100*R) :
    ∃ c : ℝ, ellipticPiCarlson [(.fin (4*√(p.x^2 + p.y^2)*R/(R + √(p.x^2 + p.y^2))^2), .fin (4*√(p.x^2 + p.y^2)*R/((R + √(p.x^2 + p.y^2))^2 + p.z^2)))] = [.fin c] ∧
      vcTang [p] (.fin γ) R 0 = [V3.fin (cylinderField γ R p +
        ⟨0, 0, γ/2 * (p.z * √(4*√(p.x^2 + p.y^2)*R/((R + √(p.x^2 + p.y^2))^2 + p.z^2)) / (2*π*√(√(p.x^2 + p.y^2)*R))) *
          ((R - √(p.x^2 + p.y^2))/(R + √(p.x^2 + p.y^2))) *
          (c - ellPi (4*√(p.x^2 + p.y^2)*R/(R + √(p.x^2 + p.y^2))^2) (4*√(p.x^2 + p.y^2)*R/((R + √(p.x^2 + p.y^2))^2 + p.z^2)))⟩)] := by
  change R/2 < polarR p.x p.y at h1
  change polarR p.x p.y < 99/100*R at h2
  have hax' : ¬ polarR p.x p.y < 1e-7 * R := by rw [not_lt]; norm_num; linarith
  have hoff' : ¬ (|polarR p.x p.y - R| < 1e-8 * R ∧ |p.z| < 1e-8 * R) := by
    rintro ⟨a, -⟩
    have := (abs_lt.mp a).1
    norm_num at this
    linarith
  have hne' : polarR p.x p.y ≠ R := by intro h; rw [h] at h2; linarith
  have hr : 0 < polarR p.x p.y := by linarith
  have hn : vcN R (polarR p.x p.y) < 1 := vcN_lt hR hr.le hne'
  have hm : vcM R (polarR p.x p.y) p.z < 1 := vcM_lt hR hr.le (fun h' => hne' h'.1)
  have hbatch : vcBatch [p] R 0 = [(.fin (vcN R (polarR p.x p.y)), .fin (vcM R (polarR p.x p.y) p.z))] := by
    unfold vcBatch
    have hd : decide (¬ (vcAxis R (polarR p.x p.y) ∨ vcEdge R (polarR p.x p.y) p.z)) = true := by
      simp only [not_or, decide_eq_true_eq]
      exact ⟨hax', fun h => hoff' ((vcEdge_iff hR _ _).mp h)⟩
    simp only [List.map_cons, List.map_nil]
    rw [List.filter_cons_of_pos (by exact hd), List.filter_nil]
    simp only [List.map_cons, List.map_nil, vcK02_fin hR hr.le, vcK2_fin hR hr.le, clip1_fin hm.le]
  refine ⟨piReal (vcBatch [p] R 0) (vcN R (polarR p.x p.y)) (vcM R (polarR p.x p.y) p.z), ?_, ?_⟩
  · have := piOf_map (vcBatch [p] R 0)
    nth_rw 1 [hbatch] at this
    nth_rw 2 [hbatch] at this
    simp only [List.map_cons, List.map_nil] at this
    rw [piReal_spec _ hn hm.le] at this
    exact this
  · rw [vcTang_eval _ _ _ hR]
    have hp : p = ⟨polarR p.x p.y * cos (arctan2 p.y p.x), polarR p.x p.y * sin (arctan2 p.y p.x), p.z⟩ := by
      rw [r_cos, r_sin]
    have hF : cylinderField γ R p = _ := (congrArg (cylinderField γ R) hp).trans
      (cylinderField_eq γ R (polarR p.x p.y) p.z (arctan2 p.y p.x) hr hR hne')
    rw [hF]
    simp only [List.map_cons, List.map_nil, vcVal, if_neg hoff', if_neg hax']
    congr 2
    ext
    · simp
    · simp
    · simp only [V3.add_z, vcUz]
      change _ = _ + γ/2 * (p.z * √(vcM R (polarR p.x p.y) p.z) / (2*π*√(polarR p.x p.y*R))) * ((R - polarR p.x p.y)/(R + polarR p.x p.y)) *
        (piReal (vcBatch [p] R 0) (vcN R (polarR p.x p.y)) (vcM R (polarR p.x p.y) p.z) - ellPi (vcN R (polarR p.x p.y)) (vcM R (polarR p.x p.y) p.z))
      ring

/-- a field that differs from a divergence-free one by an axial velocity: the difference does not vary along the axis -/
theorem axial_difference {u v : V3 ℝ → V3 ℝ} {P : V3 ℝ} (hu : DivFreeAt u P) (hv : DivFreeAt v P)
    (h : ∀ᶠ q : ℝ × ℝ × ℝ in 𝓝 (P.x, P.y, P.z), (u ⟨q.1, q.2.1, q.2.2⟩).x = (v ⟨q.1, q.2.1, q.2.2⟩).x ∧ (u ⟨q.1, q.2.1, q.2.2⟩).y = (v ⟨q.1, q.2.1, q.2.2⟩).y) :
    HasDerivAt (fun t => (u ⟨P.x, P.y, t⟩).z - (v ⟨P.x, P.y, t⟩).z) 0 P.z := by
  obtain ⟨ax, ay, az, h1, h2, h3, h4⟩ := hu
  obtain ⟨bx, bY, bz, g1, g2, g3, g4⟩ := hv
  have e1 : ax = bx := h1.unique (g1.congr (h.mono fun q hq => hq.1))
  have e2 : ay = bY := h2.unique (g2.congr (h.mono fun q hq => hq.2))
  subst e1 e2
  have := HasGrad.along (c := fun z => ⟨P.x, P.y, z⟩) (c' := ⟨0, 0, 1⟩) (t := P.z) (h3.sub g3) (hasDerivAt_const _ _) (hasDerivAt_const _ _) (hasDerivAt_id _)
  refine this.congr_deriv ?_
  simp [V3.dot]
  linarith

/-- C87 fails for the straight cylinder as shipped: whatever the strength and the radius, the velocity `vc_tang_u` returns at single
points well inside the wake radius (half to 99% of it, away from every cut-off) is not a divergence-free field, because the Carlson
loops stop early for some of those points. -/
theorem C87_straight_refuted (γ R : ℝ) (hγ : γ ≠ 0) (hR : 0 < R) :
    ¬ ∃ u : V3 ℝ → V3 ℝ,
      (∀ p : V3 ℝ, R/2 < √(p.x^2 + p.y^2) → √(p.x^2 + p.y^2) < 99/100*R → vcTang [p] (.fin γ) R 0 = [V3.fin (u p)]) ∧
      ∀ p : V3 ℝ, R/2 < √(p.x^2 + p.y^2) → √(p.x^2 + p.y^2) < 99/100*R → DivFreeAt u p := by
  rintro ⟨u, hu, hd⟩
  obtain ⟨y, y1, y2, hev⟩ := premature_pi
  obtain ⟨p, p1, p2, Q, hQ, hgap⟩ := hev.exists
  have hp0 : 0 < p := by linarith
  obtain ⟨s, hs, hs2⟩ : ∃ s, 0 < s ∧ s^2 = p := ⟨√p, sqrt_pos.mpr hp0, sq_sqrt hp0.le⟩
  have s1 : 1/100 < s := by
    by_contra hc
    push Not at hc
    nlinarith
  have s2 : s < 1/10 := by
    by_contra hc
    push Not at hc
    nlinarith
  obtain ⟨r, hr⟩ : ∃ r, r = R*(1-s)/(1+s) := ⟨_, rfl⟩
  have hrs : r*(1+s) = R*(1-s) := by rw [hr]; field_simp
  have r1 : R/2 < r := by rw [hr, lt_div_iff₀ (by linarith)]; nlinarith
  have r2 : r < 99/100*R := by rw [hr, div_lt_iff₀ (by linarith)]; nlinarith
  have hr0 : 0 < r := by linarith
  have hsr : √(r^2 + 0^2) = r := by rw [zero_pow two_ne_zero, add_zero, sqrt_sq hr0.le]
  -- the difference along a line parallel to the axis
  have hD : ∀ z : ℝ, HasDerivAt (fun t => (u ⟨r, 0, t⟩).z - (cylinderField γ R ⟨r, 0, t⟩).z) 0 z := by
    intro z
    have hoff : OffWake R 0 ⟨r, 0, z⟩ := by
      rw [offWake_iff]
      intro h
      simp only [zero_mul, sub_zero] at h
      nlinarith [h.2]
    have c1 : Continuous fun q : ℝ × ℝ × ℝ => √(q.1^2 + q.2.1^2) := by fun_prop
    have n1 : ∀ᶠ q : ℝ × ℝ × ℝ in 𝓝 (r, (0:ℝ), z), R/2 < √(q.1^2 + q.2.1^2) := by
      apply c1.continuousAt.eventually_const_lt
      simp only [hsr]; exact r1
    have n2 : ∀ᶠ q : ℝ × ℝ × ℝ in 𝓝 (r, (0:ℝ), z), √(q.1^2 + q.2.1^2) < 99/100*R := by
      apply c1.continuousAt.eventually_lt_const
      simp only [hsr]; exact r2
    refine axial_difference (P := ⟨r, 0, z⟩) (hd ⟨r, 0, z⟩ (by simp only [hsr]; exact r1) (by simp only [hsr]; exact r2))
      ((C88_cylinder γ R 0 hR _ hoff).2 rfl).1 ?_
    filter_upwards [n1, n2] with q q1 q2
    obtain ⟨c, -, e⟩ := straight_single γ R hR ⟨q.1, q.2.1, q.2.2⟩ q1 q2
    rw [hu _ q1 q2] at e
    have e' := fin_inj3 _ _ (List.cons.inj e).1
    rw [e']
    simp
  have hconst := is_const_of_deriv_eq_zero (f := fun t => (u ⟨r, 0, t⟩).z - (cylinderField γ R ⟨r, 0, t⟩).z)
    (fun z => (hD z).differentiableAt) (fun z => (hD z).deriv)
  -- its value
  have hval : ∀ z : ℝ, ∃ c : ℝ, ellipticPiCarlson [(.fin (4*r*R/(R + r)^2), .fin (4*r*R/((R + r)^2 + z^2)))] = [.fin c] ∧
      (u ⟨r, 0, z⟩).z - (cylinderField γ R ⟨r, 0, z⟩).z = γ/2 * (z * √(4*r*R/((R + r)^2 + z^2)) / (2*π*√(r*R))) * ((R - r)/(R + r)) *
          (c - ellPi (4*r*R/(R + r)^2) (4*r*R/((R + r)^2 + z^2))) := by
    intro z
    obtain ⟨c, e1, e2⟩ := straight_single γ R hR ⟨r, 0, z⟩ (by simp only [hsr]; exact r1) (by simp only [hsr]; exact r2)
    simp only [hsr] at e1 e2
    refine ⟨c, e1, ?_⟩
    rw [hu ⟨r, 0, z⟩ (by simp only [hsr]; exact r1) (by simp only [hsr]; exact r2)] at e2
    rw [fin_inj3 _ _ (List.cons.inj e2).1]
    simp
  obtain ⟨z, hz, hz2⟩ : ∃ z, 0 < z ∧ z^2 = (R + r)^2*(y - p)/(1 - y) := by
    have : 0 < (R + r)^2*(y - p)/(1 - y) := div_pos (mul_pos (by positivity) (by linarith)) (by linarith)
    exact ⟨_, sqrt_pos.mpr this, sq_sqrt this.le⟩
  have hRr : (R + r)*(1 + s) = 2*R := by linarith
  have hn : 4*r*R/(R + r)^2 = 1 - p := by
    rw [div_eq_iff (by positivity), ← hs2]
    have : (R - r)*(1+s) = 2*R*s := by linarith
    have h1s : (1+s) ≠ 0 := by positivity
    have hk : R - r = s*(R + r) := by
      apply mul_right_cancel₀ h1s
      rw [this]; linear_combination (-s)*hRr
    have : 4*r*R = (R+r)^2 - (R-r)^2 := by ring
    rw [this, hk]; ring
  have hm : 4*r*R/((R + r)^2 + z^2) = 1 - y := by
    have h1y : 1 - y ≠ 0 := by linarith
    rw [div_eq_iff (by positivity), hz2]
    rw [div_eq_iff (by positivity)] at hn
    rw [hn]
    field_simp
    ring
  obtain ⟨c, e1, e2⟩ := hval z
  rw [hn, hm] at e1 e2
  rw [hQ] at e1
  have hc : Q = c := by
    have := (List.cons.inj e1).1
    exact Num.fin.inj this
  subst hc
  obtain ⟨c0, -, e0⟩ := hval 0
  have := hconst z 0
  rw [e2, e0, zero_mul, zero_div, mul_zero, zero_mul, zero_mul] at this
  have h1 : 0 < √(1 - y) := sqrt_pos.mpr (by linarith)
  have h2 : 0 < √(r*R) := sqrt_pos.mpr (by positivity)
  have h3 : 0 < (R - r)/(R + r) := div_pos (by linarith) (by linarith)
  have h4 : Q - ellPi (1-p) (1-y) ≠ 0 := by linarith
  have hpi := pi_pos
  have h5 : z * √(1 - y) / (2*π*√(r*R)) ≠ 0 := by positivity
  exact mul_ne_zero (mul_ne_zero (mul_ne_zero (div_ne_zero hγ two_ne_zero) h5) h3.ne') h4 this

example : (2:ℝ) ≠ 0 ∧ (0:ℝ) < 3 ∧ (3:ℝ)/2 < √((2:ℝ)^2 + 0^2) ∧ √((2:ℝ)^2 + 0^2) < 99/100*3 := by
  rw [show (2:ℝ)^2 + 0^2 = 2^2 by norm_num, sqrt_sq (by norm_num)]
  norm_num
end Wiz
