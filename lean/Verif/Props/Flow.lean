import Verif.Lemmas.FlowFields
import Verif.Props.SkewedGround
import Verif.Props.VortexRing
import Verif.Props.VortexDoublet
import Verif.Props.VortexLine
import Verif.Props.VortexPoint
import Verif.Props.ZeroSkew
import Verif.Props.SelfSimilar
import Verif.Lemmas.TurbineRotation
import Verif.Lemmas.FlowPointVortex
/-! # C87: the kernels conserve mass; C88: they are irrotational off the vorticity -/
namespace Wiz
open Spec MeasureTheory Filter Topology
noncomputable section

/-- C87 (skewed cylinder, tangential and longitudinal vorticity): whatever the number of azimuthal points,
the velocity returned off the wake surface is a divergence-free field — the quadrature does not break mass
conservation. -/
theorem C87_skewed_cylinder (γ R m : ℝ) (hR : 0 < R) (ntheta : ℕ) :
    (∃ u : V3 ℝ → V3 ℝ, (∀ P, OffWake R m P → svcTang [P] (.fin γ) R (.fin m) ntheta false = [V3.fin (u P)]) ∧
      ∀ P, OffWake R m P → DivFreeAt u P) ∧
    (∃ u : V3 ℝ → V3 ℝ, (∀ P, OffWake R m P → svcLongi [P] (.fin γ) R (.fin m) ntheta false = [V3.fin (u P)]) ∧
      ∀ P, OffWake R m P → DivFreeAt u P) := by
  cases ntheta with
  | zero =>
    refine ⟨⟨fun _ => 0, fun P _ => ?_, fun P _ => divFree_const _ _⟩, ⟨fun _ => 0, fun P _ => ?_, fun P _ => divFree_const _ _⟩⟩
    · unfold svcTang; simp only [List.map_cons, List.map_nil, svcTang_zero]
    · unfold svcLongi; simp only [List.map_cons, List.map_nil, svcLongi_zero]
  | succ n =>
    have hl : ∀ P, (svcTang [P] (.fin γ) R (.fin m) (n+1) false).length = 1 ∧ (svcLongi [P] (.fin γ) R (.fin m) (n+1) false).length = 1 := by
      intro P; unfold svcTang svcLongi; simp
    have hg : ∀ (l : List (V3 Num)) (a : V3 Num), l.length = 1 → l[0]? = some a → l = [a] := by
      intro l a h1 h2
      match l, h1 with
      | [b], _ => simpa using h2
    refine ⟨⟨fun P => turnRuleV (Real.pi/2) n (tangGenerator γ R m P), fun P h => ?_, fun P h => ?_⟩,
      ⟨fun P => turnRuleV (Real.pi/((n:ℝ)+1)) n (longiGenerator γ R m P), fun P h => ?_, fun P h => ?_⟩⟩
    · exact hg _ _ (hl P).1 (C65_cartesian [P] γ R m hR n 0 P rfl h).1
    · exact turnRule_divFree _ _ _ _ (tangGenerator_divFree γ h)
    · exact hg _ _ (hl P).2 (C65_cartesian [P] γ R m hR n 0 P rfl h).2
    · exact turnRule_divFree _ _ _ _ (longiGenerator_divFree γ h)

example : (0:ℝ) < 1 ∧ OffWake 1 1 ⟨1*2, 0, 2⟩ := ⟨one_pos, offWake_axis 1 1 2 one_pos⟩

/-- C88 (skewed and right cylinder): the exact velocity of the sheet of tangential vorticity, to which the
skewed quadrature converges (C65) and which the right-cylinder formulae evaluate (C47, C78), is
divergence-free and irrotational everywhere off the sheet, inside and outside the wake. -/
theorem C88_cylinder (γ R m : ℝ) (hR : 0 < R) (P : V3 ℝ) (h : OffWake R m P) :
    (DivFreeAt (skewTangField γ R m) P ∧ CurlFreeAt (skewTangField γ R m) P) ∧
    (m = 0 → DivFreeAt (cylinderField γ R) P ∧ CurlFreeAt (cylinderField γ R) P) := by
  refine ⟨skewTang_flow γ h, ?_⟩
  rintro rfl
  have e : ∀ᶠ q : ℝ × ℝ × ℝ in 𝓝 (P.x, P.y, P.z), cylinderField γ R ⟨q.1, q.2.1, q.2.2⟩ = skewTangField γ R 0 ⟨q.1, q.2.1, q.2.2⟩ :=
    (offWake_near h).mono fun q hq => ((C78_fields γ R hR _ hq).1).symm
  exact ⟨(skewTang_flow γ h).1.congr e, (skewTang_flow γ h).2.congr e⟩

/-- C87/C88 (ring): `ring_u` is a divergence-free and irrotational field away from its cut-off regions. -/
theorem C88_ring (Γ R ε : ℝ) (hR : 0 < R) :
    ∃ u : V3 ℝ → V3 ℝ, (∀ p : V3 ℝ, 1e-7 * R < √(p.x^2 + p.y^2) → (1e-7 * R < |√(p.x^2 + p.y^2) - R| ∨ 1e-7 < |p.z|) →
        ringU p Γ R ε = V3.fin (u p)) ∧
      ∀ p : V3 ℝ, 1e-7 * R < √(p.x^2 + p.y^2) → (1e-7 * R < |√(p.x^2 + p.y^2) - R| ∨ 1e-7 < |p.z|) →
        DivFreeAt u p ∧ CurlFreeAt u p := by
  refine ⟨ringField Γ R, fun p h1 h2 => C52_biot_savart p Γ R ε hR h1.le (h2.imp le_of_lt le_of_lt), fun p h1 h2 => ring_flow Γ ?_⟩
  rintro ⟨hz, he⟩
  rcases h2 with h | h
  · rw [he, Real.sqrt_sq hR.le, sub_self, abs_zero] at h
    have : (0:ℝ) < 1e-7 * R := by positivity
    linarith
  · rw [hz, abs_zero] at h; norm_num at h

example : (1e-7 : ℝ) * 1 < √((2:ℝ)^2 + 0^2) ∧ ((1e-7 : ℝ) * 1 < |√((2:ℝ)^2 + 0^2) - 1| ∨ (1e-7 : ℝ) < |(3:ℝ)|) := by
  have : √((2:ℝ)^2 + 0^2) = 2 := by rw [show (2:ℝ)^2 + 0^2 = 2^2 by norm_num]; exact Real.sqrt_sq (by norm_num)
  rw [this]; norm_num

theorem nhds_norm_lt (c : ℝ) (A P : V3 ℝ) (h : c < V3.norm (P - A) ^ 3) :
    ∀ᶠ q : ℝ × ℝ × ℝ in 𝓝 (P.x, P.y, P.z), c < V3.norm ((⟨q.1, q.2.1, q.2.2⟩ : V3 ℝ) - A) ^ 3 := by
  have hc : Continuous fun q : ℝ × ℝ × ℝ => V3.norm ((⟨q.1, q.2.1, q.2.2⟩ : V3 ℝ) - A) ^ 3 := by
    unfold V3.norm; simp only [V3.sub_x, V3.sub_y, V3.sub_z]; fun_prop
  exact (isOpen_lt continuous_const hc).mem_nhds h

/-- C88 (doublet): the velocity of `doublet_u`, any moment, is divergence-free and irrotational outside the
cut-off ball `|r|³ < 1e-8` and (being zero) inside it. -/
theorem C88_doublet (m x0 : V3 ℝ) :
    ∃ u : V3 ℝ → V3 ℝ, (∀ p, doubletU p (V3.fin m) x0 = V3.fin (u p)) ∧
      ∀ p, V3.norm (p - x0) ^ 3 ≠ 1e-8 → DivFreeAt u p ∧ CurlFreeAt u p := by
  refine ⟨fun p => if V3.norm (p - x0) ^ 3 < 1e-8 then 0 else doubletField m x0 p, fun p => ?_, fun p hp => ?_⟩
  · by_cases h : V3.norm (p - x0) ^ 3 < 1e-8
    · simp only [if_pos h]; exact (C55_field p m x0).2 h
    · simp only [if_neg h]; exact (C55_field p m x0).1 (not_lt.mp h)
  · rcases lt_or_gt_of_ne hp with h | h
    · have hc : Continuous fun q : ℝ × ℝ × ℝ => V3.norm ((⟨q.1, q.2.1, q.2.2⟩ : V3 ℝ) - x0) ^ 3 := by
        unfold V3.norm; simp only [V3.sub_x, V3.sub_y, V3.sub_z]; fun_prop
      have e : ∀ᶠ q : ℝ × ℝ × ℝ in 𝓝 (p.x, p.y, p.z), (if V3.norm ((⟨q.1, q.2.1, q.2.2⟩ : V3 ℝ) - x0) ^ 3 < 1e-8 then 0 else doubletField m x0 ⟨q.1, q.2.1, q.2.2⟩) = 0 :=
        Filter.Eventually.mono ((isOpen_lt hc continuous_const).mem_nhds h) fun q hq => if_pos hq
      exact ⟨(divFree_const 0 p).congr e, (curlFree_const 0 p).congr e⟩
    · have e : ∀ᶠ q : ℝ × ℝ × ℝ in 𝓝 (p.x, p.y, p.z), (if V3.norm ((⟨q.1, q.2.1, q.2.2⟩ : V3 ℝ) - x0) ^ 3 < 1e-8 then 0 else doubletField m x0 ⟨q.1, q.2.1, q.2.2⟩) = doubletField m x0 ⟨q.1, q.2.1, q.2.2⟩ :=
        (nhds_norm_lt 1e-8 x0 p h).mono fun q hq => if_neg (not_lt.mpr hq.le)
      have hn : 0 < V3.norm (p - x0) := by
        by_contra h0
        have : V3.norm (p - x0) = 0 := le_antisymm (not_lt.mp h0) (by unfold V3.norm; positivity)
        rw [this] at h; norm_num at h
      exact ⟨(doublet_divFree m x0 p hn).congr e, (doublet_curlFree m x0 p hn).congr e⟩

example : V3.norm ((⟨2, 0, 0⟩ : V3 ℝ) - 0) ^ 3 ≠ 1e-8 := by
  have : V3.norm ((⟨2, 0, 0⟩ : V3 ℝ) - 0) = 2 := by
    simp [V3.norm]
  rw [this]; norm_num

/-- C88 (straight doublet line, the far-field wake of the `VD` model): away from the cut-off tube around the
half line the velocity is divergence-free and irrotational. -/
theorem C88_doublet_line (K : ℝ) :
    ∃ u : V3 ℝ → V3 ℝ, (∀ p : V3 ℝ, 1e-8 < |p.x| ∨ 1e-8 < |p.y| ∨ p.z < 0 → doubletLineU p (.fin K) 0 none = V3.fin (u p)) ∧
      ∀ p : V3 ℝ, 1e-8 < |p.x| ∨ 1e-8 < |p.y| ∨ p.z < 0 → DivFreeAt u p ∧ CurlFreeAt u p := by
  have hu : ∀ p : V3 ℝ, V3.smul (-(K/(4*Real.pi)) / V3.norm p^3) p = V3.smul (-(K/(4*Real.pi))) (pointGrad 0 p) := by
    intro p; unfold pointGrad; rw [sub_zero3]
    ext <;> simp only [V3.smul_x, V3.smul_y, V3.smul_z, V3.sub_x, V3.sub_y, V3.sub_z, V3.zero_x, V3.zero_y, V3.zero_z, sub_zero] <;> ring
  refine ⟨fun p => V3.smul (-(K/(4*Real.pi))) (pointGrad 0 p), fun p h => ?_, fun p h => ?_⟩
  · rw [C59_point_source p K, hu]
    rintro ⟨h1, h2, h3⟩
    rcases h with h | h | h <;> linarith
  · have hn : 0 < V3.norm (p - 0) := by
      apply norm_pos
      intro e
      rw [sub_zero3] at e
      rw [e] at h
      simp only [V3.zero_x, V3.zero_y, V3.zero_z, abs_zero, lt_self_iff_false, or_false] at h
      rcases h with h | h <;> norm_num at h
    exact ⟨(pointGrad_divFree 0 p hn).smul _, (pointGrad_curlFree 0 p hn).smul _⟩

example : (1e-8:ℝ) < |(1:ℝ)| := by norm_num

/-- C87 (half-infinite line vortex): the velocity of `vl_semiinf_u` is divergence-free outside its cut-off. -/
theorem C87_half_line (e : V3 ℝ) (Γ t : ℝ) :
    ∃ u : V3 ℝ → V3 ℝ,
      (∀ a, 1e-12 < V3.norm a * (V3.norm a - V3.dot a e) → 1e-5 < V3.norm a →
        vlSemiinf a (V3.fin e) (.fin Γ) 0 t = .ok (V3.fin (u a))) ∧
      ∀ a, 1e-12 < V3.norm a * (V3.norm a - V3.dot a e) → 1e-5 < V3.norm a → DivFreeAt u a := by
  refine ⟨fun a => V3.smul (Γ/(4*Real.pi)) (V3.cross e (lineGrad 0 e a)), fun a h1 h2 => ?_, fun a h1 h2 => ?_⟩
  · have hg : ¬ lineGuard a e := by unfold lineGuard; push Not; exact ⟨h1.le, h2.le⟩
    have hn : 0 < V3.norm a := lt_trans (by norm_num) h2
    have hp : 0 < V3.norm a * (V3.norm a - V3.dot a e) := lt_trans (by norm_num) h1
    rw [vlSemiinf_eval, if_neg hg]
    simp only [show ¬((0:ℤ) = 1 ∨ (0:ℤ) = 2 ∨ (0:ℤ) = 3 ∨ (0:ℤ) = 4) by decide, if_false, show ¬ ((0:ℤ) = 5) by decide, add_zero]
    rw [Num.fin_div hp.ne', cross_lineGrad_self 0 e a (by rw [sub_zero3]; exact hn), sub_zero3]
    congr 1
    ext <;> simp only [V3.smul_x, V3.smul_y, V3.smul_z, V3.fin_x, V3.fin_y, V3.fin_z, Num.fin_mul] <;> congr 1 <;> ring
  · have hn : 0 < V3.norm a := lt_trans (by norm_num) h2
    have hp : 0 < V3.norm a - V3.dot a e := pos_of_mul_pos_right (lt_trans (by norm_num) h1) hn.le
    exact (divFree_cross (lineGrad_curlFree 0 e a (by rw [sub_zero3]; exact hn) (by rw [sub_zero3]; exact hp)) e).smul _

example : (1e-12:ℝ) < V3.norm ⟨2,0,0⟩ * (V3.norm ⟨2,0,0⟩ - V3.dot (⟨2,0,0⟩ : V3 ℝ) ⟨0,0,1⟩) ∧
    (1e-5:ℝ) < V3.norm ⟨2,0,0⟩ := by
  have : V3.norm (⟨2, 0, 0⟩ : V3 ℝ) = 2 := by simp [V3.norm]
  rw [this]; norm_num [V3.dot]

theorem planar_sum {α : Type} (l : List α) (f : α → V2 ℝ) :
    (⟨(l.map f).sum.x, (l.map f).sum.y, 0⟩ : V3 ℝ) = (l.map fun v => (⟨(f v).x, (f v).y, 0⟩ : V3 ℝ)).sum := by
  induction l with
  | nil => rfl
  | cons v l ih => simp only [List.map_cons, List.sum_cons, ← ih]; ext <;> simp

/-- C87 (two-dimensional point vortices): for every smoothing model and order, every list of vortices, the
returned planar velocity is divergence-free, both outside the `√1e-15` cut-off discs and inside them. -/
theorem C87_point_vortices (sm ko : ℤ) (hd : coreFunction sm ko ≠ none) (vs : List Vortex) (SP : Option (List ℝ))
    (hc : sm = 0 ∨ (SP = some (vs.map Vortex.core) ∧ ∀ v ∈ vs, v.core ≠ 0)) :
    ∃ u : V2 ℝ → V2 ℝ, (∀ p, vpsU [p] (vs.map Vortex.pos) (vs.map Vortex.circ) sm ko SP = .ok [V2.fin (u p)]) ∧
      ∀ P : V3 ℝ, (∀ v ∈ vs, (P.x - v.pos.x)^2 + (P.y - v.pos.y)^2 ≠ 1e-15) →
        DivFreeAt (fun p => ⟨(u ⟨p.x, p.y⟩).x, (u ⟨p.x, p.y⟩).y, 0⟩) P := by
  obtain ⟨w, hw⟩ := Option.ne_none_iff_exists'.mp hd
  refine ⟨fun p => (vs.map (vortexVelocity w p)).sum, fun p => C70_superposition sm ko w hw [p] vs SP hc, fun P hP => ?_⟩
  have := DivFreeAt.list_sum vs (P := P) (u := fun v p => ⟨(vortexVelocity w ⟨p.x, p.y⟩ v).x, (vortexVelocity w ⟨p.x, p.y⟩ v).y, 0⟩)
    fun v hv => vortexVelocity_divFree w (core_differentiable sm ko w hw) v P (hP v hv)
  refine this.congr (Eventually.of_forall fun q => ?_)
  exact planar_sum vs _

example : coreFunction 2 4 ≠ none ∧ ((5:ℝ) - 0)^2 + (1 - 0)^2 ≠ 1e-15 ∧
    ∀ v ∈ [(⟨⟨0, 0⟩, 3, 1⟩ : Vortex)], v.core ≠ 0 := by
  refine ⟨by simp [coreFunction], by norm_num, by simp⟩

theorem axial_divFree {u : V3 ℝ → V3 ℝ} {P : V3 ℝ} (h : DivFreeAt u P) {k : ℝ}
    (hx : ∀ᶠ q : ℝ × ℝ × ℝ in 𝓝 (P.x, P.y, P.z), (u ⟨q.1, q.2.1, q.2.2⟩).x = 0 ∧ (u ⟨q.1, q.2.1, q.2.2⟩).y = 0)
    (hz : HasDerivAt (fun z => (u ⟨P.x, P.y, z⟩).z) k P.z) : k = 0 := by
  obtain ⟨gx, gy, gz, h1, h2, h3, h4⟩ := h
  have e1 := h1.unique ((hasGrad_const 0 P).congr (hx.mono fun q h => h.1))
  have e2 := h2.unique ((hasGrad_const 0 P).congr (hx.mono fun q h => h.2))
  have e3 := HasGrad.along (c := fun z => ⟨P.x, P.y, z⟩) (c' := ⟨0, 0, 1⟩) (t := P.z) h3 (hasDerivAt_const _ _) (hasDerivAt_const _ _) (hasDerivAt_id _)
  have e4 := hz.unique e3
  rw [e1, e2] at h4
  simp [V3.dot] at h4 e4
  rw [e4, h4]

/-- C87 fails for the self-similar model: upstream of the rotor its field is a purely axial velocity that
varies along the axis, so it does not conserve mass, whatever the strength and the radius. -/
theorem C87_self_similar_refuted (γ R : ℝ) (hγ : γ ≠ 0) (hR : 0 < R) (z : ℝ) (hz : z < 0) :
    ¬ ∃ u : V3 ℝ → V3 ℝ, (∀ p : V3 ℝ, p.z < 0 →
        (⟨ssUDefault p (.fin γ) R * 0, ssUDefault p (.fin γ) R * 0, ssUDefault p (.fin γ) R⟩ : V3 Num) = V3.fin (u p)) ∧
      DivFreeAt u ⟨0, 0, z⟩ := by
  rintro ⟨u, hu, hd⟩
  have hs : 0 < z^2 + R^2 := by positivity
  have hn : ∀ᶠ q : ℝ × ℝ × ℝ in 𝓝 ((0:ℝ), (0:ℝ), z), q.2.2 < 0 :=
    (isOpen_lt (by fun_prop : Continuous fun q : ℝ × ℝ × ℝ => q.2.2) continuous_const).mem_nhds hz
  have hn1 : ∀ᶠ t in 𝓝 z, t < 0 := (isOpen_lt continuous_id continuous_const).mem_nhds hz
  have hD : HasDerivAt (fun t => γ / 2 * (1 + t / √(t^2 + R^2))) (γ / 2 * (R^2 / (√(z^2+R^2))^3)) z := by
    have h1 : HasDerivAt (fun t => t^2 + R^2) (2*z) z := by
      simpa using (hasDerivAt_pow 2 z).add_const (R^2)
    have h2 := (hasDerivAt_id z).div (h1.sqrt hs.ne') (Real.sqrt_pos.mpr hs).ne'
    refine ((h2.const_add 1).const_mul (γ/2)).congr_deriv ?_
    have hq := Real.sq_sqrt hs.le
    have hp := Real.sqrt_pos.mpr hs
    generalize √(z^2+R^2) = S at *
    simp only [id]
    field_simp
    rw [show S^2 = z^2 + R^2 from hq]; ring
  have := axial_divFree hd (k := γ / 2 * (R^2 / (√(z^2+R^2))^3)) (hn.mono fun q hq => by
      have h := hu ⟨q.1, q.2.1, q.2.2⟩ hq
      obtain ⟨v, hv, -⟩ := C73_sign_bound ⟨q.1, q.2.1, q.2.2⟩ γ R 0.587 1.32 hR (by norm_num) (by norm_num) hq.le
      have h1 := congrArg V3.x h; have h2 := congrArg V3.y h
      simp only [ssUDefault, hv, Num.zero_def, Num.fin_mul, mul_zero, V3.fin_x, V3.fin_y, Num.fin.injEq] at h1 h2
      exact ⟨h1.symm, h2.symm⟩)
    (hD.congr_of_eventuallyEq (hn1.mono fun t ht => by
      have h := congrArg V3.z (hu ⟨0, 0, t⟩ ht)
      simp only [ssUDefault, C73_axis t γ R 0.587 1.32 hR (by norm_num) (by norm_num) ht.le, V3.fin_z, Num.fin.injEq] at h
      exact h.symm))
  have hp := Real.sqrt_pos.mpr hs
  have : γ / 2 * (R^2 / (√(z^2+R^2))^3) ≠ 0 := by positivity
  contradiction

example : ((1:ℝ) ≠ 0) ∧ (0:ℝ) < 1 ∧ (-1:ℝ) < 0 := by norm_num

/-- C87 fails for the ring in its axis cut-off tube `r < 1e-7 R`, where `ring_u` returns the velocity of the
axis: at every off-centre point of the axis the returned field is not divergence-free. -/
theorem C87_ring_axis_refuted (Γ R ε : ℝ) (hΓ : Γ ≠ 0) (hR : 0 < R) (z : ℝ) (hz : z ≠ 0) :
    ¬ ∃ u : V3 ℝ → V3 ℝ, (∀ p : V3 ℝ, √(p.x^2 + p.y^2) < 1e-7 * R → ringU p Γ R ε = V3.fin (u p)) ∧ DivFreeAt u ⟨0, 0, z⟩ := by
  rintro ⟨u, hu, hd⟩
  have hn : ∀ᶠ q : ℝ × ℝ × ℝ in 𝓝 ((0:ℝ), (0:ℝ), z), √(q.1^2 + q.2.1^2) < 1e-7 * R :=
    (isOpen_lt (by fun_prop : Continuous fun q : ℝ × ℝ × ℝ => √(q.1^2 + q.2.1^2)) continuous_const).mem_nhds (by
      simp; positivity)
  have hval : ∀ p : V3 ℝ, √(p.x^2 + p.y^2) < 1e-7 * R → u p = ⟨0, 0, Γ/(2*R) * (1 / (1 + (p.z/R)^2) ^ (3/2 : ℝ))⟩ := by
    intro p hp
    have h := (hu p hp).symm.trans (C52_axis p Γ R ε "" hR hp).1
    rw [ringField_axis Γ R p.z hR] at h
    exact fin_inj3 _ _ h
  have hs : 0 < 1 + (z/R)^2 := by positivity
  have hD : HasDerivAt (fun t => Γ/(2*R) * (1 / (1 + (t/R)^2) ^ (3/2 : ℝ))) (Γ/(2*R) * (-(3*z/R^2) * (1 + (z/R)^2)^(-(5/2) : ℝ))) z := by
    have h1 : HasDerivAt (fun t => 1 + (t/R)^2) (2*z/R^2) z := by
      refine ((((hasDerivAt_id z).div_const R).pow 2).const_add 1).congr_deriv ?_
      simp; field_simp
    have h2 := (h1.rpow_const (p := (-(3/2) : ℝ)) (Or.inl hs.ne')).const_mul (Γ/(2*R))
    refine (h2.congr_deriv ?_).congr_of_eventuallyEq (Eventually.of_forall fun t => ?_)
    · rw [show (-(3/2) - 1 : ℝ) = -(5/2) by norm_num]; ring
    · simp only
      rw [Real.rpow_neg (by positivity), one_div]
  have := axial_divFree hd (hn.mono fun q hq => by rw [hval ⟨q.1, q.2.1, q.2.2⟩ hq]; exact ⟨rfl, rfl⟩)
    (hD.congr_of_eventuallyEq (Eventually.of_forall fun t => by
      simp only
      rw [hval ⟨0, 0, t⟩ (by simp; positivity)]))
  have : Γ/(2*R) * (-(3*z/R^2) * (1 + (z/R)^2)^(-(5/2) : ℝ)) ≠ 0 := by
    have := Real.rpow_pos_of_pos hs (-(5/2) : ℝ)
    have h3 : 3*z/R^2 ≠ 0 := by positivity
    exact mul_ne_zero (div_ne_zero hΓ (by positivity)) (mul_ne_zero (neg_ne_zero.mpr h3) this.ne')
  contradiction

end
end Wiz
