import Verif.Lemmas.CylinderIntegral
import Verif.Props.VortexCylinder
import Verif.Props.VortexRing
import Verif.Props.VortexDoublet
import Verif.Props.Elliptic

/-! # Properties of the right vortex cylinder (C47–C50): Biot–Savart, axis, far field, sums -/
namespace Wiz
open Spec Real Classical MeasureTheory Set

/-! ### C47 -/

/-- C47: fed with the exact third-kind integral, the closed form at every regular point is the
Biot–Savart velocity of the semi-infinite sheet (superposition of its rings). -/
theorem C47_biot_savart (γ R r z ψ : ℝ) (hr : 0 < r) (hR : 0 < R) (h : r ≠ R) :
    ∃ n m ur uz : ℝ, vcK02 R 0 r z = .fin n ∧ vcK2 R 0 r z = .fin m ∧
      vcRegular (.fin γ) R 0 r z (.fin (ellPi n m)) = (.fin ur, .fin uz) ∧
      cylinderField γ R ⟨r * cos ψ, r * sin ψ, z⟩ = ⟨ur * cos ψ, ur * sin ψ, uz⟩ :=
  ⟨_, _, _, _, vcK02_fin hR hr.le, vcK2_fin hR hr.le,
    vcRegular_fin γ hR hr (fun h' => h h'.1) _ _ (fun _ => rfl), cylinderField_eq γ R r z ψ hr hR h⟩

/-- C47, for the batch routine: at every regular point of every batch the horizontal velocity of
`vc_tang_u` is exactly Biot–Savart, and the axial velocity is Biot–Savart up to the truncation
error of the Carlson recursion (run with the common iteration counts of the batch), times the
stated bounded factor. -/
theorem C47_batch (pts : List (V3 ℝ)) (γ R : ℝ) (hR : 0 < R) :
    ∃ (kF kJ : ℕ) (kC : ℕ → ℕ), (1 ≤ kF ∧ kF ≤ 20) ∧ (1 ≤ kJ ∧ kJ ≤ 20) ∧ (∀ j, 1 ≤ kC j ∧ kC j ≤ 20) ∧
    ∀ (i : ℕ) (p : V3 ℝ), pts[i]? = some p → 1e-7 * R ≤ √(p.x^2 + p.y^2) → √(p.x^2 + p.y^2) ≠ R →
      ¬ (|√(p.x^2 + p.y^2) - R| < 1e-8 * R ∧ |p.z| < 1e-8 * R) →
      ∃ (r n m c : ℝ), r = √(p.x^2 + p.y^2) ∧ n = 4*r*R/(R+r)^2 ∧ m = 4*r*R/((R+r)^2 + p.z^2) ∧
        carlsonPi kF kJ kC (.fin n) (.fin m) = .fin c ∧
        (vcTang pts (.fin γ) R 0)[i]? = some (V3.fin (cylinderField γ R p +
          ⟨0, 0, γ/2 * (p.z * √m / (2*π*√(r*R))) * ((R - r)/(R + r)) * (c - ellPi n m)⟩)) := by
  obtain ⟨kF, kJ, kC, hF, hJ, hC, hP⟩ := piOf_schedule (vcBatch pts R 0)
  refine ⟨kF, kJ, kC, hF, hJ, hC, ?_⟩
  intro i p hi hax hne hoff
  have hax' : ¬ polarR p.x p.y < 1e-7 * R := not_lt.mpr hax
  have hoff' : ¬ (|polarR p.x p.y - R| < 1e-8 * R ∧ |p.z| < 1e-8 * R) := hoff
  have hne' : polarR p.x p.y ≠ R := hne
  have hr : 0 < polarR p.x p.y := lt_of_lt_of_le (by positivity) hax
  have hn : vcN R (polarR p.x p.y) < 1 := vcN_lt hR hr.le hne'
  have hm : vcM R (polarR p.x p.y) p.z < 1 := vcM_lt hR hr.le (fun h' => hne' h'.1)
  refine ⟨polarR p.x p.y, vcN R (polarR p.x p.y), vcM R (polarR p.x p.y) p.z,
    piReal (vcBatch pts R 0) (vcN R (polarR p.x p.y)) (vcM R (polarR p.x p.y) p.z), rfl, rfl, rfl, ?_, ?_⟩
  · rw [← hP]; exact piReal_spec _ hn hm.le
  · rw [vcTang_eval _ _ _ hR, List.getElem?_map, hi, Option.map_some]
    have hp : p = ⟨polarR p.x p.y * cos (arctan2 p.y p.x), polarR p.x p.y * sin (arctan2 p.y p.x), p.z⟩ := by
      rw [r_cos, r_sin]
    have hF : cylinderField γ R p = _ := (congrArg (cylinderField γ R) hp).trans
      (cylinderField_eq γ R (polarR p.x p.y) p.z (arctan2 p.y p.x) hr hR hne')
    rw [hF]
    simp only [vcVal, if_neg hoff', if_neg hax']
    congr 2
    ext
    · simp
    · simp
    · simp only [V3.add_z, vcUz]; ring

example : (1e-7:ℝ) * 2 ≤ √((3:ℝ)^2 + 4^2) ∧ √((3:ℝ)^2 + 4^2) ≠ 2 ∧
    ¬ (|√((3:ℝ)^2 + 4^2) - 2| < 1e-8 * 2 ∧ |(1:ℝ)| < 1e-8 * 2) := by
  rw [show (3:ℝ)^2 + 4^2 = 5^2 by norm_num, sqrt_sq (by norm_num)]; norm_num

/-! ### C48 -/

theorem vcTang_axis (pts : List (V3 ℝ)) (γ R : ℝ) (hR : 0 < R) (i : ℕ) (p : V3 ℝ) (hi : pts[i]? = some p)
    (hax : √(p.x^2 + p.y^2) < 1e-7 * R) :
    (vcTang pts (.fin γ) R 0)[i]? = some (V3.fin ⟨0, 0, γ/2 * (1 + p.z/√(p.z^2 + R^2))⟩) := by
  have hax' : polarR p.x p.y < 1e-7 * R := hax
  have hoff : ¬ (|polarR p.x p.y - R| < 1e-8 * R ∧ |p.z| < 1e-8 * R) := by
    rintro ⟨a, -⟩
    rw [abs_lt] at a
    linarith [a.1]
  rw [vcTang_eval _ _ _ hR, List.getElem?_map, hi, Option.map_some]
  simp only [vcVal, if_neg hoff, if_pos hax', zero_mul]

theorem axis_ring_int (γ R z : ℝ) (hR : 0 < R) :
    ∫ s in Ioi (0:ℝ), γ/2 * R^2 * (1/√(R^2 + (z - s)^2)^3) = γ/2 * (1 + z/√(z^2 + R^2)) := by
  have hp : 0 < R^2 := by positivity
  rw [MeasureTheory.integral_const_mul, wake_int1 hp, add_comm (z^2)]
  field_simp

theorem axis_ring_form (γ R w : ℝ) (hR : 0 < R) :
    γ/(2*R) * (1 / (1 + (w/R)^2) ^ (3/2 : ℝ)) = γ/2 * R^2 * (1/√(R^2 + w^2)^3) := by
  have h1 : 1 + (w/R)^2 = (R^2 + w^2)/R^2 := by field_simp
  have hq : 0 < R^2 + w^2 := by positivity
  have hs : 0 < √(R^2 + w^2) := sqrt_pos.mpr hq
  rw [h1, show (R^2 + w^2)/R^2 = (√(R^2+w^2)/R)^2 by rw [div_pow, sq_sqrt hq.le], rpow_three_half (by positivity)]
  generalize √(R^2+w^2) = a at *
  field_simp

/-- C48: on the axis (the code's axis region) the cylinder velocity is the integral over the
wake of the velocities `ring_u` gives for the rings. -/
theorem C48_ring_superposition (pts : List (V3 ℝ)) (γ R : ℝ) (hR : 0 < R) (i : ℕ) (p : V3 ℝ) (hi : pts[i]? = some p)
    (hax : √(p.x^2 + p.y^2) < 1e-7 * R) :
    ∃ f : ℝ → ℝ, (∀ s, ringU ⟨0, 0, p.z - s⟩ γ R 0 = V3.fin ⟨0, 0, f s⟩) ∧ IntegrableOn f (Ioi 0) ∧
      (vcTang pts (.fin γ) R 0)[i]? = some (V3.fin ⟨0, 0, ∫ s in Ioi (0:ℝ), f s⟩) := by
  refine ⟨fun s => γ/2 * R^2 * (1/√(R^2 + (p.z - s)^2)^3), ?_, ?_, ?_⟩
  · intro s
    have h := (C52_axis ⟨0, 0, p.z - s⟩ γ R 0 "" hR (by simp; positivity)).1
    rw [h, ringField_axis γ R _ hR]
    congr 2
    exact axis_ring_form γ R _ hR
  · have hp : 0 < R^2 := by positivity
    refine Integrable.const_mul (line_integrable (by fun_prop) (1/√(min (R^2) 1)^3) p.z ?_) _
    intro s hs
    refine (kernel_bounds (lt_min hp one_pos) ?_).1
    have h2 : min (R^2) 1 ≤ R^2 := min_le_left _ _
    have h3 : min (R^2) 1 ≤ 1 := min_le_right _ _
    nlinarith [mul_le_mul_of_nonneg_right h3 (sq_nonneg (p.z-s))]
  · rw [axis_ring_int γ R p.z hR]
    exact vcTang_axis pts γ R hR i p hi hax

/-- C48: along the axis the velocity is `γ` times a strictly increasing profile that goes from
`0` far upstream through `1/2` at the rotor to `1` far downstream. -/
theorem C48_profile (R : ℝ) (hR : 0 < R) :
    ∃ g : ℝ → ℝ, StrictMono g ∧ Filter.Tendsto g Filter.atBot (nhds 0) ∧ g 0 = 1/2 ∧
      Filter.Tendsto g Filter.atTop (nhds 1) ∧
      ∀ (pts : List (V3 ℝ)) (γ : ℝ) (i : ℕ) (p : V3 ℝ), pts[i]? = some p → √(p.x^2 + p.y^2) < 1e-7 * R →
        (vcTang pts (.fin γ) R 0)[i]? = some (V3.fin ⟨0, 0, γ * g p.z⟩) := by
  have hp : ∀ z : ℝ, 0 < z^2 + R^2 := fun z => by positivity
  have hmono : StrictMono fun z : ℝ => z/√(z^2 + R^2) := by
    apply strictMono_of_deriv_pos
    intro z
    have hs := sqrt_pos.mpr (hp z)
    have h1 : HasDerivAt (fun z : ℝ => z^2 + R^2) (2*z) z := by
      have := ((hasDerivAt_id z).pow 2).add_const (R^2)
      refine this.congr_deriv ?_
      simp
    have h2 := (hasDerivAt_id z).div (h1.sqrt (hp z).ne') hs.ne'
    have hsq : √(z^2 + R^2)^2 = z^2 + R^2 := sq_sqrt (hp z).le
    have h3 : HasDerivAt (fun z : ℝ => z/√(z^2 + R^2)) (R^2/√(z^2 + R^2)^3) z := by
      refine HasDerivAt.congr_deriv h2 ?_
      simp only [id]
      generalize √(z^2 + R^2) = a at *
      have : a * a - z * z = R^2 := by nlinarith
      field_simp
      nlinarith
    rw [h3.deriv]; positivity
  have htop : Filter.Tendsto (fun z : ℝ => z/√(z^2 + R^2)) Filter.atTop (nhds 1) := by
    have h1 : Filter.Tendsto (fun z : ℝ => 1/√(1 + (R/z)^2)) Filter.atTop (nhds (1/√(1 + 0^2))) := by
      refine Filter.Tendsto.div tendsto_const_nhds ?_ (by simp)
      refine (continuous_sqrt.tendsto _).comp ?_
      exact tendsto_const_nhds.add ((tendsto_const_nhds.div_atTop Filter.tendsto_id).pow 2)
    simp only [ne_eq, OfNat.ofNat_ne_zero, not_false_eq_true, zero_pow, add_zero, sqrt_one, div_one] at h1
    refine h1.congr' ?_
    filter_upwards [Filter.eventually_gt_atTop 0] with z hz
    rw [show z^2 + R^2 = z^2 * (1 + (R/z)^2) by field_simp, sqrt_mul (by positivity), sqrt_sq hz.le]
    field_simp
  have hbot : Filter.Tendsto (fun z : ℝ => z/√(z^2 + R^2)) Filter.atBot (nhds (-1)) := by
    have := htop.neg.comp Filter.tendsto_neg_atBot_atTop
    refine this.congr ?_
    intro z
    simp only [Function.comp_def, neg_sq, neg_div, neg_neg]
  refine ⟨fun z => 1/2 * (1 + z/√(z^2 + R^2)), ?_, ?_, by simp, ?_, ?_⟩
  · intro a b hab
    have := hmono hab
    simp only at this ⊢
    linarith
  · have := (hbot.const_add 1).const_mul (1/2)
    simpa using this
  · have := (htop.const_add 1).const_mul (1/2)
    norm_num at this
    simpa using this
  · intro pts γ i p hi hax
    rw [vcTang_axis pts γ R hR i p hi hax]
    congr 3
    ring

example : √((0:ℝ)^2 + 0^2) < 1e-7 * 2 := by norm_num

/-! ### C49 -/

theorem vcCut_iff (R rCut : ℝ) (p : V3 ℝ) : vcCut R rCut p ↔ rCut * R < √(p.x^2 + p.y^2 + p.z^2) := by
  unfold vcCut; rw [polarR_sq]

/-- value of the far-field variant at one point -/
noncomputable def vcdPt (inside : List (V3 ℝ)) (γ R rCut : ℝ) (p : V3 ℝ) : Num × Num :=
  if ¬ vcCut R rCut p then
    (.fin (vcVal (piReal (vcBatch inside R 0)) γ R (polarR p.x p.y) p.z).1,
     .fin (vcVal (piReal (vcBatch inside R 0)) γ R (polarR p.x p.y) p.z).2)
  else match doubletLinePolarU (polarR p.x p.y) p.z (.fin γ * (.fin R)^2 * .fin Real.pi) with
    | .ok u => u
    | .error _ => (.nan, .nan)

theorem vcTangDoublet_map (pts : List (V3 ℝ)) (γ R rCut : ℝ) (hR : 0 < R) :
    vcTangDoublet pts (.fin γ) R rCut = pts.map fun p =>
      polarToCart p (vcdPt (pts.filter fun p => ¬ vcCut R rCut p) γ R rCut p) := by
  unfold vcTangDoublet vcTangDoubletPolar
  simp only
  rw [vcTangPolar_eval _ _ _ hR, scatter_map, List.zipWith_map_right, List.zipWith_self]
  apply List.map_congr_left
  intro p _
  unfold vcdPt
  by_cases h : vcCut R rCut p
  · simp only [h, not_true, if_false]
    rfl
  · simp only [h, not_false_iff, if_true]

theorem vcTangDoublet_get (pts : List (V3 ℝ)) (γ R rCut : ℝ) (hR : 0 < R) (i : ℕ) (p : V3 ℝ) (hi : pts[i]? = some p) :
    (vcTangDoublet pts (.fin γ) R rCut)[i]? =
      some (polarToCart p (vcdPt (pts.filter fun p => ¬ vcCut R rCut p) γ R rCut p)) := by
  rw [vcTangDoublet_map pts γ R rCut hR, List.getElem?_map, hi, Option.map_some]

theorem filter_zip_map {α β : Type} (l : List α) (P : α → Prop) [DecidablePred P] (f : α → β) :
    ((l.zip (l.map f)).filter fun q => P q.1).map Prod.snd = (l.filter fun a => P a).map f := by
  induction l with
  | nil => rfl
  | cons a l ih =>
    simp only [List.map_cons, List.zip_cons_cons, List.filter_cons]
    split_ifs
    · rw [List.map_cons, List.map_cons, ih]
    · exact ih

/-- C49: the velocities returned by the far-field variant at the control points within
`r_bar_Cut*R` of the origin, taken in order, are exactly `vc_tang_u` of those points. -/
theorem C49_inside (pts : List (V3 ℝ)) (γ R rCut : ℝ) (hR : 0 < R) :
    (vcTangDoublet pts (.fin γ) R rCut).length = pts.length ∧
    ((pts.zip (vcTangDoublet pts (.fin γ) R rCut)).filter fun q =>
        ¬ (rCut * R < √(q.1.x^2 + q.1.y^2 + q.1.z^2))).map Prod.snd =
      vcTang (pts.filter fun p => ¬ (rCut * R < √(p.x^2 + p.y^2 + p.z^2))) (.fin γ) R 0 := by
  rw [vcTangDoublet_map pts γ R rCut hR]
  refine ⟨List.length_map _, ?_⟩
  rw [filter_zip_map pts (fun p => ¬ (rCut * R < √(p.x^2 + p.y^2 + p.z^2)))]
  unfold vcTang
  rw [vcTangPolar_eval _ _ _ hR, List.zipWith_map_right, List.zipWith_self]
  apply List.map_congr_left
  intro p hp
  have hc : ¬ vcCut R rCut p := by
    rw [vcCut_iff]
    simpa using (List.mem_filter.mp hp).2
  rw [vcdPt, if_pos hc]
  simp only [vcCut_iff]

/-- C49: at every point inside the cut-off of a mixed batch, the horizontal velocity is the one
`vc_tang_u` gives on the full batch, and so is the axial velocity on the axis, in the rotor plane
and on the surface `r=R` (elsewhere it can differ by the truncation error of the third-kind
integral, whose iteration count depends on the batch). -/
theorem C49_inside_pointwise (pts : List (V3 ℝ)) (γ R rCut : ℝ) (hR : 0 < R) (i : ℕ) (p : V3 ℝ)
    (hi : pts[i]? = some p) (hin : √(p.x^2 + p.y^2 + p.z^2) ≤ rCut * R) :
    ∃ u v : V3 ℝ, (vcTangDoublet pts (.fin γ) R rCut)[i]? = some (V3.fin u) ∧
      (vcTang pts (.fin γ) R 0)[i]? = some (V3.fin v) ∧ u.x = v.x ∧ u.y = v.y ∧
      (√(p.x^2 + p.y^2) < 1e-7 * R ∨ p.z = 0 ∨ √(p.x^2 + p.y^2) = R → u.z = v.z) := by
  have hc : ¬ vcCut R rCut p := by rw [vcCut_iff]; exact not_lt.mpr hin
  rw [vcTangDoublet_get pts γ R rCut hR i p hi, vcdPt, if_pos hc, vcTang_eval _ _ _ hR, List.getElem?_map, hi, Option.map_some]
  refine ⟨⟨_ * cos (arctan2 p.y p.x), _ * sin (arctan2 p.y p.x), _⟩, _, rfl, rfl, ?_, ?_, ?_⟩
  · simp only [vcVal]; split_ifs <;> rfl
  · simp only [vcVal]; split_ifs <;> rfl
  · intro h
    change polarR p.x p.y < 1e-7 * R ∨ p.z = 0 ∨ polarR p.x p.y = R at h
    simp only [vcVal]
    split_ifs with h1 h2
    · rfl
    · rfl
    · rcases h with h | h | h
      · exact absurd h h2
      · simp only [vcUz, h, zero_mul, zero_div]
      · simp only [vcUz, h, sub_self, zero_div, zero_mul]

/-- C49: beyond the cut-off the velocity is that of the doublet line equivalent to the wake,
i.e. the point sink `-γR²/4 · p/|p|³` (where `r` and `|z|` are not below `1e-8`). -/
theorem C49_outside (pts : List (V3 ℝ)) (γ R rCut : ℝ) (hR : 0 < R) (i : ℕ) (p : V3 ℝ)
    (hi : pts[i]? = some p) (hout : rCut * R < √(p.x^2 + p.y^2 + p.z^2))
    (hr : 1e-8 ≤ √(p.x^2 + p.y^2)) (hz : 1e-8 ≤ |p.z|) :
    (vcTangDoublet pts (.fin γ) R rCut)[i]? =
      some (V3.fin (V3.smul (-(γ * R^2 / 4) / √(p.x^2 + p.y^2 + p.z^2)^3) p)) := by
  have hc : ¬ ¬ vcCut R rCut p := by rw [vcCut_iff]; exact not_not.mpr hout
  have hr' : 1e-8 ≤ polarR p.x p.y := hr
  rw [vcTangDoublet_get pts γ R rCut hR i p hi, vcdPt, if_neg hc, Num.fin_pow, Num.fin_mul, Num.fin_mul,
    C59_polar _ _ _ hr' hz]
  have hk : -(γ * R^2 * π / (4*π)) = -(γ * R^2/4) := by have := pi_ne_zero; field_simp
  unfold polarToCart
  simp only [Num.fin_mul, hk, polarR_sq]
  have ec := r_cos p.x p.y
  have es := r_sin p.x p.y
  congr 1
  ext
  · simp only [V3.fin_x, V3.smul_x, Num.fin_inj]
    rw [div_mul_eq_mul_div, mul_assoc, ec]; ring
  · simp only [V3.fin_y, V3.smul_y, Num.fin_inj]
    rw [div_mul_eq_mul_div, mul_assoc, es]; ring
  · simp only [V3.fin_z, V3.smul_z, Num.fin_inj]; ring

example : (3:ℝ) * 1 < √((3:ℝ)^2 + 4^2 + 12^2) ∧ (1e-8:ℝ) ≤ √((3:ℝ)^2 + 4^2) ∧ (1e-8:ℝ) ≤ |(-12:ℝ)| := by
  rw [show (3:ℝ)^2 + 4^2 + 12^2 = 13^2 by norm_num, show (3:ℝ)^2 + 4^2 = 5^2 by norm_num, sqrt_sq (by norm_num),
    sqrt_sq (by norm_num)]
  norm_num

/-- C49: on the upstream axis beyond the cut-off the doublet replaces the cylinder with a
relative error at most `(R/z)²` (and at most `1/r_bar_Cut²`). -/
theorem C49_upstream_error (pts : List (V3 ℝ)) (γ R rCut : ℝ) (hR : 0 < R) (hcut : 0 < rCut) (i : ℕ) (z : ℝ)
    (hi : pts[i]? = some ⟨0, 0, z⟩) (hz : z < -1e-8) (hout : rCut * R < -z) :
    ∃ d e : ℝ, (vcTangDoublet pts (.fin γ) R rCut)[i]? = some (V3.fin ⟨0, 0, d⟩) ∧
      (vcTang pts (.fin γ) R 0)[i]? = some (V3.fin ⟨0, 0, e⟩) ∧
      |d - e| ≤ (R/z)^2 * |e| ∧ (R/z)^2 ≤ 1/rCut^2 := by
  have hz0 : z < 0 := by linarith [show (0:ℝ) < 1e-8 by norm_num]
  have hp0 : polarR (0:ℝ) 0 = 0 := by simp [polarR]
  have hsq : √((0:ℝ)^2 + 0^2 + z^2) = -z := by
    simp only [ne_eq, OfNat.ofNat_ne_zero, not_false_eq_true, zero_pow, add_zero, zero_add]
    rw [sqrt_sq_eq_abs, abs_of_neg hz0]
  have hc : ¬ ¬ vcCut R rCut ⟨0, 0, z⟩ := by
    rw [vcCut_iff, not_not]; simp only [hsq]; exact hout
  refine ⟨γ*R^2/4/z^2, _, ?_, vcTang_axis pts γ R hR i _ hi (by simp; positivity), ?_, ?_⟩
  · rw [vcTangDoublet_get pts γ R rCut hR i _ hi, vcdPt, if_neg hc, Num.fin_pow, Num.fin_mul, Num.fin_mul]
    simp only [hp0]
    rw [(C59_polar_masks 0 z _).2.2.2.1 le_rfl (by norm_num) hz]
    unfold polarToCart
    simp only [arctan2_zero, cos_zero, sin_zero, Num.fin_mul, zero_mul, mul_zero]
    have := pi_ne_zero
    congr 3
    simp only [ne_eq, OfNat.ofNat_ne_zero, not_false_eq_true, zero_pow, zero_add]
    field_simp
  · have hw : 0 < √(z^2 + R^2) := sqrt_pos.mpr (by positivity)
    have hw2 : √(z^2 + R^2)^2 = z^2 + R^2 := sq_sqrt (by positivity)
    have hy : 0 < -z := by linarith
    have hlt : -z < √(z^2 + R^2) := by
      rw [← sqrt_sq hy.le]; apply sqrt_lt_sqrt (by positivity); nlinarith [sq_pos_of_pos hR]
    generalize √(z^2 + R^2) = w at *
    obtain ⟨y, rfl⟩ : ∃ y, z = -y := ⟨-z, by ring⟩
    simp only [neg_neg] at *
    have hR2 : R^2 = (w-y)*(w+y) := by nlinarith
    have e1 : γ/2*(1 + -y/w) = γ/2 * ((w-y)/w) := by field_simp; ring
    have e2 : γ*R^2/4/(-y)^2 - γ/2*(1 + -y/w) = γ/2*((w-y)/w) * ((w-y)*(w+2*y)/(2*y^2)) := by
      rw [e1, hR2, neg_sq]; field_simp; ring
    have e3 : (R / -y)^2 = (w-y)*(w+y)/y^2 := by rw [div_pow, neg_sq, hR2]
    rw [e2, e1, e3, abs_mul, mul_comm]
    apply mul_le_mul_of_nonneg_right _ (abs_nonneg _)
    have hwy : 0 < w - y := by linarith
    rw [abs_of_nonneg (by positivity), div_le_div_iff₀ (by positivity) (by positivity)]
    have : (w-y)*(w+2*y)*y^2 ≤ (w-y)*(2*(w+y))*y^2 := by
      apply mul_le_mul_of_nonneg_right _ (by positivity)
      apply mul_le_mul_of_nonneg_left _ hwy.le
      linarith
    nlinarith
  · have hy : 0 < -z := by linarith
    rw [show (R/z)^2 = R^2/(-z)^2 by rw [div_pow, neg_sq], div_le_div_iff₀ (by positivity) (by positivity)]
    have : (rCut*R)^2 ≤ (-z)^2 := pow_le_pow_left₀ (by positivity) hout.le 2
    nlinarith

example : (-5:ℝ) < -1e-8 ∧ (3:ℝ) * 1 < -(-5) := by norm_num

/-! ### C50 -/

theorem getD_addFields (u v : List (V3 Num)) (h : u.length = v.length) (i : ℕ) :
    (addFields u v).getD i 0 = u.getD i 0 + v.getD i 0 := by
  unfold addFields
  induction u generalizing v i with
  | nil => cases v with
    | nil => simp
    | cons _ _ => simp at h
  | cons a u ih => cases v with
    | nil => simp at h
    | cons b v =>
      cases i with
      | zero => rfl
      | succ i =>
        simp only [List.zipWith_cons_cons, List.getD_cons_succ]
        exact ih v (by simpa using h) i

theorem length_addFields (u v : List (V3 Num)) (h : u.length = v.length) : (addFields u v).length = u.length := by
  unfold addFields; rw [List.length_zipWith, h, min_self]

/-- the inner loop adds the contributions of the cylinders with `|gamma|>0` -/
theorem addCyls_spec (kernel : List (V3 ℝ) → Num → ℝ → List (V3 Num)) (rel : List (V3 ℝ))
    (hk : ∀ g R, (kernel rel g R).length = rel.length) (cyls : List (Num × ℝ)) (u : List (V3 Num))
    (hu : u.length = rel.length) :
    (addCyls kernel rel cyls u).length = rel.length ∧
    ∀ i, (addCyls kernel rel cyls u).getD i 0 = u.getD i 0 +
      ((cyls.filter fun c => 0 < Num.abs c.1).map fun c => (kernel rel c.1 c.2).getD i 0).sum := by
  unfold addCyls
  induction cyls generalizing u with
  | nil => simp [hu]
  | cons c cs ih =>
    simp only [List.foldl_cons]
    by_cases hc : 0 < Num.abs c.1
    · simp only [if_pos hc]
      have hl : u.length = (kernel rel c.1 c.2).length := by rw [hu, hk]
      obtain ⟨i1, i2⟩ := ih (addFields u (kernel rel c.1 c.2)) (by rw [length_addFields _ _ hl, hu])
      refine ⟨i1, fun i => ?_⟩
      rw [i2, getD_addFields _ _ hl, List.filter_cons_of_pos (by simpa using hc), List.map_cons, List.sum_cons, add_assoc]
    · simp only [if_neg hc]
      obtain ⟨i1, i2⟩ := ih u hu
      refine ⟨i1, fun i => ?_⟩
      rw [i2, List.filter_cons_of_neg (by simpa using hc)]

theorem getD_zeros (pts : List (V3 ℝ)) (i : ℕ) : (pts.map fun _ => (0 : V3 Num)).getD i 0 = 0 := by
  simp only [List.getD_eq_getElem?_getD, List.getElem?_map]
  cases pts[i]? <;> rfl

theorem vcTang_length (pts : List (V3 ℝ)) (g : Num) (R eps : ℝ) : (vcTang pts g R eps).length = pts.length := by
  rw [vcTang_map, List.length_map]

theorem vcLongi_length (pts : List (V3 ℝ)) (g : Num) (R : ℝ) (b : Bool) : (vcLongi pts g R b).length = pts.length := by
  unfold vcLongi vcLongiPolar vcLongiUpsi
  simp [C37_length]

/-- loop over groups, generic -/
theorem groups_spec (step : List (V3 Num) → CylGroup → List (V3 Num)) (contrib : CylGroup → ℕ → V3 Num) (n : ℕ)
    (h : ∀ u g, u.length = n → (step u g).length = n ∧ ∀ i, (step u g).getD i 0 = u.getD i 0 + contrib g i)
    (groups : List CylGroup) (u : List (V3 Num)) (hu : u.length = n) :
    (groups.foldl step u).length = n ∧
      ∀ i, (groups.foldl step u).getD i 0 = u.getD i 0 + (groups.map fun g => contrib g i).sum := by
  induction groups generalizing u with
  | nil => simp [hu]
  | cons g gs ih =>
    obtain ⟨h1, h2⟩ := h u g hu
    obtain ⟨i1, i2⟩ := ih (step u g) h1
    refine ⟨i1, fun i => ?_⟩
    rw [List.foldl_cons, i2, h2, List.map_cons, List.sum_cons, add_assoc]

/-- C50: `vcs_tang_u` at each control point is the sum, over all groups and all cylinders of
nonzero strength, of the velocity of that cylinder translated to the group's position, plus with
`Ground` that of its image at height `-y`. -/
theorem C50_tang_sum (pts : List (V3 ℝ)) (groups : List CylGroup) (eps : ℝ) (Ground : Bool) :
    (vcsTang pts groups eps Ground).length = pts.length ∧
    ∀ i, (vcsTang pts groups eps Ground).getD i 0 =
      (groups.map fun g =>
        ((g.cyls.filter fun c => 0 < Num.abs c.1).map fun c =>
          (vcTang (pts.map fun p => p - g.pos) c.1 c.2 eps).getD i 0).sum +
        (if Ground then ((g.cyls.filter fun c => 0 < Num.abs c.1).map fun c =>
          (vcTang (pts.map fun p => p - ⟨g.pos.x, -g.pos.y, g.pos.z⟩) c.1 c.2 eps).getD i 0).sum else 0)).sum := by
  have hm : ∀ g : CylGroup, mirrorPts pts g.pos = pts.map fun p => p - ⟨g.pos.x, -g.pos.y, g.pos.z⟩ := by
    intro g; unfold mirrorPts
    apply List.map_congr_left; intro p _
    ext <;> simp; ring
  have key := groups_spec (fun u g =>
    let u := addCyls (fun q ga R => vcTang q ga R eps) (relPts pts g.pos) g.cyls u
    if Ground then addCyls (fun q ga R => vcTang q ga R eps) (mirrorPts pts g.pos) g.cyls u else u)
    (fun g i => ((g.cyls.filter fun c => 0 < Num.abs c.1).map fun c =>
          (vcTang (pts.map fun p => p - g.pos) c.1 c.2 eps).getD i 0).sum +
        (if Ground then ((g.cyls.filter fun c => 0 < Num.abs c.1).map fun c =>
          (vcTang (pts.map fun p => p - ⟨g.pos.x, -g.pos.y, g.pos.z⟩) c.1 c.2 eps).getD i 0).sum else 0)) pts.length (by
      intro u g hu
      obtain ⟨a1, a2⟩ := addCyls_spec (fun q ga R => vcTang q ga R eps) (relPts pts g.pos)
        (fun _ _ => vcTang_length _ _ _ _) g.cyls u (by rw [hu]; simp [relPts])
      rw [show (relPts pts g.pos).length = pts.length by simp [relPts]] at a1
      cases Ground
      · exact ⟨a1, fun i => by simp only [a2 i, Bool.false_eq_true, if_false, add_zero]; rfl⟩
      · obtain ⟨b1, b2⟩ := addCyls_spec (fun q ga R => vcTang q ga R eps) (mirrorPts pts g.pos)
          (fun _ _ => vcTang_length _ _ _ _) g.cyls _ (by rw [a1]; simp [mirrorPts])
        refine ⟨by simpa [mirrorPts] using b1, fun i => ?_⟩
        simp only [if_true]
        rw [b2 i, a2 i, hm, add_assoc]; rfl) groups (pts.map fun _ => 0) (by simp)
  refine ⟨key.1, fun i => ?_⟩
  have := key.2 i
  rw [getD_zeros, zero_add] at this
  exact this

/-- C50: `vcs_longi_u` likewise (it ignores `Ground`). -/
theorem C50_longi_sum (pts : List (V3 ℝ)) (groups : List CylGroup) (Ground : Bool) :
    (vcsLongi pts groups Ground).length = pts.length ∧
    ∀ i, (vcsLongi pts groups Ground).getD i 0 =
      (groups.map fun g => ((g.cyls.filter fun c => 0 < Num.abs c.1).map fun c =>
          (vcLongi (pts.map fun p => p - g.pos) c.1 c.2 false).getD i 0).sum).sum := by
  have key := groups_spec (fun u g => addCyls (fun q ga R => vcLongi q ga R false) (relPts pts g.pos) g.cyls u)
    (fun g i => ((g.cyls.filter fun c => 0 < Num.abs c.1).map fun c =>
          (vcLongi (pts.map fun p => p - g.pos) c.1 c.2 false).getD i 0).sum) pts.length (by
      intro u g hu
      obtain ⟨a1, a2⟩ := addCyls_spec (fun q ga R => vcLongi q ga R false) (relPts pts g.pos)
        (fun _ _ => vcLongi_length _ _ _ _) g.cyls u (by rw [hu]; simp [relPts])
      exact ⟨by simpa [relPts] using a1, fun i => by rw [a2 i]; rfl⟩) groups (pts.map fun _ => 0) (by simp)
  refine ⟨key.1, fun i => ?_⟩
  have := key.2 i
  rw [getD_zeros, zero_add] at this
  exact this

/-- C50: with finite strengths and positive radii the zero-strength cylinders may equally well be
included: their velocity is zero. -/
theorem C50_zero_strength (pts : List (V3 ℝ)) (R : ℝ) (hR : 0 < R) (i : ℕ) :
    (vcTang pts (.fin 0) R 0).getD i 0 = 0 := by
  rw [vcTang_eval _ _ _ hR]
  have h0 : ∀ q r z, vcVal q 0 R r z = (0, 0) := by
    intro q r z; unfold vcVal vcUr vcUz; split_ifs <;> simp
  simp only [h0, zero_mul]
  exact getD_zeros pts i

theorem ext_getD {u v : List (V3 Num)} (hl : u.length = v.length) (h : ∀ i, u.getD i 0 = v.getD i 0) : u = v := by
  apply List.ext_getElem hl
  intro i h1 h2
  have := h i
  simpa [List.getD_eq_getElem?_getD, h1, h2] using this

/-- C50: the order of the groups is immaterial. -/
theorem C50_order_groups (pts : List (V3 ℝ)) (groups groups' : List CylGroup) (eps : ℝ) (Ground : Bool)
    (h : groups.Perm groups') :
    vcsTang pts groups eps Ground = vcsTang pts groups' eps Ground ∧
    vcsLongi pts groups Ground = vcsLongi pts groups' Ground := by
  constructor
  · obtain ⟨a1, a2⟩ := C50_tang_sum pts groups eps Ground
    obtain ⟨b1, b2⟩ := C50_tang_sum pts groups' eps Ground
    exact ext_getD (by rw [a1, b1]) (fun i => by rw [a2, b2]; exact (h.map _).sum_eq)
  · obtain ⟨a1, a2⟩ := C50_longi_sum pts groups Ground
    obtain ⟨b1, b2⟩ := C50_longi_sum pts groups' Ground
    exact ext_getD (by rw [a1, b1]) (fun i => by rw [a2, b2]; exact (h.map _).sum_eq)

/-- C50: so is the order of the cylinders within a group. -/
theorem C50_order_cyls (pts : List (V3 ℝ)) (pos : V3 ℝ) (cyls cyls' : List (Num × ℝ)) (rest : List CylGroup) (eps : ℝ)
    (Ground : Bool) (h : cyls.Perm cyls') :
    vcsTang pts (⟨pos, cyls⟩ :: rest) eps Ground = vcsTang pts (⟨pos, cyls'⟩ :: rest) eps Ground ∧
    vcsLongi pts (⟨pos, cyls⟩ :: rest) Ground = vcsLongi pts (⟨pos, cyls'⟩ :: rest) Ground := by
  constructor
  · obtain ⟨a1, a2⟩ := C50_tang_sum pts (⟨pos, cyls⟩ :: rest) eps Ground
    obtain ⟨b1, b2⟩ := C50_tang_sum pts (⟨pos, cyls'⟩ :: rest) eps Ground
    refine ext_getD (by rw [a1, b1]) (fun i => ?_)
    rw [a2, b2]
    simp only [List.map_cons, List.sum_cons]
    rw [((h.filter _).map _).sum_eq]
    congr 2
    split_ifs
    · exact ((h.filter _).map _).sum_eq
    · rfl
  · obtain ⟨a1, a2⟩ := C50_longi_sum pts (⟨pos, cyls⟩ :: rest) Ground
    obtain ⟨b1, b2⟩ := C50_longi_sum pts (⟨pos, cyls'⟩ :: rest) Ground
    refine ext_getD (by rw [a1, b1]) (fun i => ?_)
    rw [a2, b2]
    simp only [List.map_cons, List.sum_cons]
    rw [((h.filter _).map _).sum_eq]

example : ([(.fin 1, 1), (.fin 2, 3)] : List (Num × ℝ)).Perm [(.fin 2, 3), (.fin 1, 1)] := List.Perm.swap _ _ _

end Wiz
