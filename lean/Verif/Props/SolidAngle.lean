import Verif.Lemmas.SolidAngle
import Verif.Props.Momentum
/-! # C111: blockage and speed-up around a straight wake -/
namespace Wiz
open Spec Real MeasureTheory Set

theorem polar_form (P : V3 ℝ) : P = ⟨polarR P.x P.y * cos (arctan2 P.y P.x), polarR P.x P.y * sin (arctan2 P.y P.x), P.z⟩ := by
  rw [r_cos, r_sin]

/-- C111: off the rotor plane and off the sheet, the axial velocity of a semi-infinite cylinder is `γΩ/4π` upstream of the
rotor, `γ(1-Ω/4π)` in the wake and `-γΩ/4π` around the wake, where `Ω` is the solid angle under which the point sees the
rotor disk; `0<Ω<2π`.  The flow is slowed down upstream by less than half the deficit `|γ|` of the far wake, by more than
half of it in the wake, and it is accelerated everywhere around the wake. -/
theorem C111_solid_angle (γ R : ℝ) (hR : 0 < R) (P : V3 ℝ) (hz : P.z ≠ 0) :
    0 < diskSolidAngle R P ∧ diskSolidAngle R P < 2*π ∧
    (P.z < 0 → (cylinderField γ R P).z = γ/(4*π) * diskSolidAngle R P) ∧
    (0 < P.z → 0 < √(P.x^2 + P.y^2) → √(P.x^2 + P.y^2) < R → (cylinderField γ R P).z = γ - γ/(4*π) * diskSolidAngle R P) ∧
    (0 < P.z → R < √(P.x^2 + P.y^2) → (cylinderField γ R P).z = -(γ/(4*π) * diskSolidAngle R P)) := by
  have hp := polar_form P
  have h0 := polarR_nonneg P.x P.y
  change _ ∧ _ ∧ _ ∧ (_ → 0 < polarR P.x P.y → polarR P.x P.y < R → _) ∧ (_ → R < polarR P.x P.y → _)
  have hsa : diskSolidAngle R P = saK (polarR P.x P.y) |P.z| R := by
    conv_lhs => rw [hp]
    exact solidAngle_eq R _ _ _ hz hR.le
  obtain ⟨b1, b2⟩ := saK_bounds (r := polarR P.x P.y) (abs_pos.mpr hz) h0 hR
  rw [← hsa] at b1 b2
  refine ⟨b1, b2, fun h => ?_, fun h hr hlt => ?_, fun h hgt => ?_⟩
  · rw [hsa, abs_of_neg h]
    conv_lhs => rw [hp]
    exact cylinder_up_z γ R _ _ _ h0 hR h
  · have := cylinder_z γ R (polarR P.x P.y) P.z (arctan2 P.y P.x) hr hR hz hlt.ne
    rw [← hp, if_neg (not_lt.mpr h.le), if_pos hlt] at this
    exact this
  · have := cylinder_z γ R (polarR P.x P.y) P.z (arctan2 P.y P.x) (hR.trans hgt) hR hz hgt.ne'
    rw [← hp, if_neg (not_lt.mpr h.le), if_neg (not_lt.mpr hgt.le), zero_sub] at this
    exact this

/-- the solid angle on the axis -/
theorem solidAngle_axis (R z : ℝ) (hR : 0 < R) (hz : z ≠ 0) : diskSolidAngle R ⟨0, 0, z⟩ = 2*π*(1 - |z|/√(z^2 + R^2)) := by
  have h := solidAngle_eq R 0 z 0 hz hR.le
  simp only [zero_mul] at h
  rw [h]
  unfold saK
  have hd : ∀ θ, dist2 0 |z| R θ = z^2 + R^2 := by intro θ; unfold dist2; rw [sq_abs]; ring
  have ha : 0 < |z| := abs_pos.mpr hz
  have hp : 0 < z^2 + R^2 := by positivity
  have hw := sqrt_pos.mpr hp
  have hq := sq_sqrt hp.le
  simp only [hd, zero_mul, sub_zero, intervalIntegral.integral_const, smul_eq_mul]
  rw [mul_sub, mul_one]
  have hR2 : R*R = √(z^2+R^2)^2 - |z|^2 := by rw [hq, sq_abs]; ring
  rw [hR2]
  generalize √(z^2+R^2) = w at *
  generalize |z| = a at *
  have : w + a ≠ 0 := by positivity
  field_simp
  ring

/-- C111, for `vc_tang_u`: at every point of every batch that is off the rotor plane and off the sheet, the axial velocity is
`γΩ/4π` upstream, `γ(1-Ω/4π)` in the wake and `-γΩ/4π` around it, besides the truncation error of the third-kind integral
(run with the common iteration counts of the batch). -/
theorem C111_batch (pts : List (V3 ℝ)) (γ R : ℝ) (hR : 0 < R) :
    ∃ (kF kJ : ℕ) (kC : ℕ → ℕ), (1 ≤ kF ∧ kF ≤ 20) ∧ (1 ≤ kJ ∧ kJ ≤ 20) ∧ (∀ j, 1 ≤ kC j ∧ kC j ≤ 20) ∧
    ∀ (i : ℕ) (p : V3 ℝ), pts[i]? = some p → p.z ≠ 0 → 1e-7 * R ≤ √(p.x^2 + p.y^2) → √(p.x^2 + p.y^2) ≠ R →
      ¬ (|√(p.x^2 + p.y^2) - R| < 1e-8 * R ∧ |p.z| < 1e-8 * R) →
      ∃ (r n m c : ℝ) (u : V3 ℝ), r = √(p.x^2 + p.y^2) ∧ n = 4*r*R/(R+r)^2 ∧ m = 4*r*R/((R+r)^2 + p.z^2) ∧
        carlsonPi kF kJ kC (.fin n) (.fin m) = .fin c ∧ (vcTang pts (.fin γ) R 0)[i]? = some (V3.fin u) ∧
        |u.z - (if p.z < 0 then γ/(4*π) * diskSolidAngle R p
          else if r < R then γ - γ/(4*π) * diskSolidAngle R p else -(γ/(4*π) * diskSolidAngle R p))|
          ≤ |γ|/(2*π) * |c - ellPi n m| := by
  obtain ⟨kF, kJ, kC, hF, hJ, hC, H⟩ := C47_batch pts γ R hR
  refine ⟨kF, kJ, kC, hF, hJ, hC, fun i p hi hz hax hne hoff => ?_⟩
  obtain ⟨r, n, m, c, e1, e2, e3, e4, e5⟩ := H i p hi hax hne hoff
  refine ⟨r, n, m, c, _, e1, e2, e3, e4, e5, ?_⟩
  have hr : 0 < r := by rw [e1]; exact lt_of_lt_of_le (by positivity) hax
  obtain ⟨-, -, g1, g2, g3⟩ := C111_solid_angle γ R hR p hz
  rw [← e1] at g2 g3 hne
  have hval : (cylinderField γ R p).z = (if p.z < 0 then γ/(4*π) * diskSolidAngle R p
          else if r < R then γ - γ/(4*π) * diskSolidAngle R p else -(γ/(4*π) * diskSolidAngle R p)) := by
    split_ifs with h1 h2
    · exact g1 h1
    · exact g2 (lt_of_le_of_ne (not_lt.mp h1) hz.symm) hr h2
    · exact g3 (lt_of_le_of_ne (not_lt.mp h1) hz.symm) (lt_of_le_of_ne (not_lt.mp h2) hne.symm)
  rw [← hval]
  simp only [V3.add_z, add_sub_cancel_left]
  have hpi := pi_pos
  rw [abs_mul]
  apply mul_le_mul_of_nonneg_right _ (abs_nonneg _)
  have hs : 0 < √(r*R) := sqrt_pos.mpr (mul_pos hr hR)
  have hp : 0 < (R+r)^2 + p.z^2 := by positivity
  have h1 : √m = 2*√(r*R)/√((R+r)^2 + p.z^2) := by
    rw [e3, sqrt_div (by positivity), show 4*r*R = 2^2*(r*R) by ring, sqrt_mul (by positivity), sqrt_sq (by norm_num)]
  have hq : 0 < √((R+r)^2 + p.z^2) := sqrt_pos.mpr hp
  have h2 : |p.z| ≤ √((R+r)^2 + p.z^2) := by
    apply le_sqrt_of_sq_le; rw [sq_abs]; nlinarith [sq_nonneg (R+r)]
  have h3 : p.z * √m / (2*π*√(r*R)) = p.z/√((R+r)^2 + p.z^2)/π := by
    rw [h1]; field_simp
  rw [h3, abs_mul, abs_mul, abs_div, abs_div, abs_div, abs_div, abs_of_pos hq, abs_of_pos hpi, abs_of_pos (show 0 < R + r by positivity),
    abs_of_pos (show (0:ℝ) < 2 by norm_num)]
  have h4 : |p.z|/√((R+r)^2 + p.z^2) ≤ 1 := by rw [div_le_one hq]; exact h2
  have h5 : |R - r|/(R+r) ≤ 1 := by
    rw [div_le_one (by positivity), abs_le]; constructor <;> linarith
  calc |γ|/2 * (|p.z|/√((R+r)^2 + p.z^2)/π) * (|R - r|/(R+r)) ≤ |γ|/2 * (1/π) * 1 := by gcongr
    _ = |γ|/(2*π) := by field_simp

/-- C111 within the axis cut-off of `vc_tang_u`: exactly the values at the axis point of the same height. -/
theorem C111_axis (pts : List (V3 ℝ)) (γ R : ℝ) (hR : 0 < R) (i : ℕ) (p : V3 ℝ) (hi : pts[i]? = some p)
    (hz : p.z ≠ 0) (hax : √(p.x^2 + p.y^2) < 1e-7 * R) :
    (vcTang pts (.fin γ) R 0)[i]? = some (V3.fin ⟨0, 0,
      if p.z < 0 then γ/(4*π) * diskSolidAngle R ⟨0, 0, p.z⟩ else γ - γ/(4*π) * diskSolidAngle R ⟨0, 0, p.z⟩⟩) := by
  rw [vcTang_axis pts γ R hR i p hi hax, solidAngle_axis R p.z hR hz]
  congr 3
  have hpi := pi_pos
  have hw : 0 < √(p.z^2 + R^2) := sqrt_pos.mpr (by positivity)
  split_ifs with h
  · rw [abs_of_neg h]; field_simp; ring
  · rw [abs_of_nonneg (not_lt.mp h)]; field_simp; ring

/-- C111: the deficit grows along every line parallel to the axis inside the rotor radius. -/
theorem C111_monotone (γ R r ψ z1 z2 : ℝ) (hγ : γ ≠ 0) (hr : 0 < r) (hrR : r < R) (h : z1 < z2) (h1 : z1 ≠ 0) (h2 : z2 ≠ 0) :
    γ * (cylinderField γ R ⟨r*cos ψ, r*sin ψ, z1⟩).z < γ * (cylinderField γ R ⟨r*cos ψ, r*sin ψ, z2⟩).z := by
  have hR := hr.trans hrR
  have hpi := pi_pos
  have hmono : ∀ a b : ℝ, 0 < a → a < b → saK r b R < saK r a R := by
    intro a b ha hab
    have hb := ha.trans hab
    have hwa : ∀ θ, 0 < √(dist2 r a R θ) := fun θ => sqrt_pos.mpr (saDist_pos ha _ _ _)
    have hwb : ∀ θ, 0 < √(dist2 r b R θ) := fun θ => sqrt_pos.mpr (saDist_pos hb _ _ _)
    have hlt : ∀ θ, R*(R - r*cos θ) / (√(dist2 r b R θ) * (√(dist2 r b R θ) + b)) < R*(R - r*cos θ) / (√(dist2 r a R θ) * (√(dist2 r a R θ) + a)) := by
      intro θ
      have hnum : 0 < R*(R - r*cos θ) := by
        apply mul_pos hR
        nlinarith [cos_le_one θ]
      have hle : √(dist2 r a R θ) ≤ √(dist2 r b R θ) := by
        apply sqrt_le_sqrt; unfold dist2; nlinarith
      have := hwa θ
      have := hwb θ
      apply div_lt_div_of_pos_left hnum (by positivity)
      nlinarith [mul_le_mul hle hle (hwa θ).le (hwb θ).le, mul_lt_mul_of_pos_left hab (hwb θ), mul_le_mul_of_nonneg_right hle ha.le]
    have ca : Continuous fun θ => R*(R - r*cos θ) / (√(dist2 r a R θ) * (√(dist2 r a R θ) + a)) :=
      Continuous.div (by fun_prop) (by unfold dist2; fun_prop) fun θ => by have := hwa θ; positivity
    have cb : Continuous fun θ => R*(R - r*cos θ) / (√(dist2 r b R θ) * (√(dist2 r b R θ) + b)) :=
      Continuous.div (by fun_prop) (by unfold dist2; fun_prop) fun θ => by have := hwb θ; positivity
    unfold saK
    exact intervalIntegral.integral_lt_integral_of_continuousOn_of_le_of_exists_lt (by positivity) cb.continuousOn ca.continuousOn
      (fun θ _ => (hlt θ).le) ⟨0, ⟨le_rfl, by positivity⟩, hlt 0⟩
  have val : ∀ z, z ≠ 0 → (cylinderField γ R ⟨r*cos ψ, r*sin ψ, z⟩).z = γ * (if z < 0 then saK r |z| R/(4*π) else 1 - saK r |z| R/(4*π)) := by
    intro z hz
    rw [cylinder_z γ R r z ψ hr hR hz hrR.ne, solidAngle_eq R r z ψ hz hR.le, if_pos hrR]
    split_ifs <;> ring
  rw [val z1 h1, val z2 h2, ← mul_assoc, ← mul_assoc]
  apply mul_lt_mul_of_pos_left _ (mul_self_pos.mpr hγ)
  have bd := fun z (hz : z ≠ 0) => saK_bounds (r := r) (R := R) (abs_pos.mpr hz) hr.le hR
  split_ifs with a b b
  · rw [abs_of_neg a, abs_of_neg b]
    have := hmono (-z2) (-z1) (by linarith) (by linarith)
    gcongr
  · have e1 := bd z1 h1
    have e2 := bd z2 h2
    have f : ∀ x, x < 2*π → x/(4*π) < 1/2 := fun x hx => by rw [div_lt_iff₀ (by positivity)]; linarith
    linarith [f _ e1.2, f _ e2.2]
  · exact absurd (h.trans b) a
  · have hp1 := lt_of_le_of_ne (not_lt.mp a) h1.symm
    rw [abs_of_pos hp1, abs_of_pos (hp1.trans h)]
    have := hmono z1 z2 hp1 h
    have : saK r z2 R/(4*π) < saK r z1 R/(4*π) := by gcongr
    linarith

/-- C111: the horizontal velocity of `vc_tang_u` is radial, and away from the axis cut-off and the edge of the rotor it is
outwards when `γ<0` (a wind turbine: the flow expands everywhere) and inwards when `γ>0`. -/
theorem C111_expansion (pts : List (V3 ℝ)) (γ R : ℝ) (hR : 0 < R) (i : ℕ) (p : V3 ℝ) (hi : pts[i]? = some p)
    (hax : 1e-7 * R ≤ √(p.x^2 + p.y^2)) (hoff : ¬ (|√(p.x^2 + p.y^2) - R| < 1e-8 * R ∧ |p.z| < 1e-8 * R)) :
    ∃ (k : ℝ) (u : V3 ℝ), 0 < k ∧ (vcTang pts (.fin γ) R 0)[i]? = some (V3.fin u) ∧ u.x = -γ * k * p.x ∧ u.y = -γ * k * p.y := by
  have hr : 0 < polarR p.x p.y := lt_of_lt_of_le (by positivity) hax
  have hne : ¬ (polarR p.x p.y = R ∧ p.z = 0) := by
    rintro ⟨a, b⟩
    apply hoff
    change |polarR p.x p.y - R| < _ ∧ _
    rw [a, b, sub_self, abs_zero]
    exact ⟨by positivity, by positivity⟩
  have hpi := pi_pos
  have hpos := cos_int_pos hr hR hne
  have hoff' : ¬ (|polarR p.x p.y - R| < 1e-8 * R ∧ |p.z| < 1e-8 * R) := hoff
  have hax' : ¬ (polarR p.x p.y < 1e-7 * R) := not_lt.mpr hax
  have hv := vcTang_eval pts γ R hR
  have hv := congrArg (fun l => l[i]?) hv
  simp only [List.getElem?_map, hi, Option.map_some] at hv
  refine ⟨R/(4*π) * (∫ θ in (0:ℝ)..(2*π), cos θ / √(dist2 (polarR p.x p.y) p.z R θ)) / polarR p.x p.y, _, by positivity, hv, ?_, ?_⟩
  all_goals
    simp only [vcVal]
    rw [if_neg hoff', if_neg hax']
    simp only
    rw [vcUr_int γ R _ _ hr hR hne]
  · have e := r_cos p.x p.y
    generalize cos (arctan2 p.y p.x) = C at *
    clear hv
    generalize (∫ θ in (0:ℝ)..(2*π), cos θ / √(dist2 (polarR p.x p.y) p.z R θ)) = I at *
    have hr' := hr.ne'
    generalize polarR p.x p.y = ρ at *
    rw [← e]
    field_simp
  · have e := r_sin p.x p.y
    generalize sin (arctan2 p.y p.x) = S at *
    clear hv
    generalize (∫ θ in (0:ℝ)..(2*π), cos θ / √(dist2 (polarR p.x p.y) p.z R θ)) = I at *
    have hr' := hr.ne'
    generalize polarR p.x p.y = ρ at *
    rw [← e]
    field_simp

theorem frame_complete (a v s d : V3 ℝ) (haa : V3.dot a a = 1) (hvv : V3.dot v v = 1) (hss : V3.dot s s = 1)
    (hav : V3.dot a v = 0) (has : V3.dot a s = 0) (hsv : V3.dot s v = 0)
    (h : V3.dot d d = V3.dot d a ^2 + V3.dot d v^2 + V3.dot d s^2) :
    d = V3.smul (V3.dot d a) a + V3.smul (V3.dot d v) v + V3.smul (V3.dot d s) s := by
  generalize hα : V3.dot d a = α at *
  generalize hβ : V3.dot d v = β at *
  generalize hδ : V3.dot d s = δ at *
  have e : V3.dot (d - (V3.smul α a + V3.smul β v + V3.smul δ s)) (d - (V3.smul α a + V3.smul β v + V3.smul δ s)) = 0 := by
    have : V3.dot (d - (V3.smul α a + V3.smul β v + V3.smul δ s)) (d - (V3.smul α a + V3.smul β v + V3.smul δ s))
        = V3.dot d d - 2*α*V3.dot d a - 2*β*V3.dot d v - 2*δ*V3.dot d s + α^2*V3.dot a a + β^2*V3.dot v v + δ^2*V3.dot s s
          + 2*α*β*V3.dot a v + 2*α*δ*V3.dot a s + 2*β*δ*V3.dot s v := by
      simp [V3.dot]; ring
    rw [this, haa, hvv, hss, hav, has, hsv, hα, hβ, hδ, h]; ring
  generalize V3.smul α a + V3.smul β v + V3.smul δ s = t at *
  simp only [V3.dot, V3.sub_x, V3.sub_y, V3.sub_z] at e
  ext
  · nlinarith [sq_nonneg (d.x - t.x), sq_nonneg (d.y - t.y), sq_nonneg (d.z - t.z)]
  · nlinarith [sq_nonneg (d.x - t.x), sq_nonneg (d.y - t.y), sq_nonneg (d.z - t.z)]
  · nlinarith [sq_nonneg (d.x - t.x), sq_nonneg (d.y - t.y), sq_nonneg (d.z - t.z)]

/-- C111 for a turbine, after any history of calls, without skew and with one cylinder of strength `γ`: at every point off the
rotor plane and off the wake boundary, the velocity induced along the shaft is `γΩ/4π` upstream of the rotor, `γ(1-Ω/4π)` in
the wake and `-γΩ/4π` around it (besides the truncation of the third-kind integral), and the velocity normal to the shaft
is away from the shaft axis when `γ<0`. -/
theorem C111_turbine (mini : (ℝ → Num) → ℝ) (R : ℝ) (hub shaft vert U0 : V3 ℝ) (L : Option Num) (G : Bool)
    (M : String) (ho : Orthonormal shaft vert) (hR : 0 < R) (h : List Op) (pts : List (V3 ℝ)) (o : Opts) (γ : ℝ) (chi : Num) :
    let w := (WT.new R hub shaft vert U0 L G M).run mini h
    PlainEval w o → o.only_ind = true → w.gamma_t = some [.fin γ] → (w.computeU pts o).2.chi = some chi → ¬ (Num.fin 1e-7 < Num.abs chi) →
    ∃ (u : List (V3 Num)) (kF kJ : ℕ) (kC : ℕ → ℕ), (w.computeU pts o).1 = .ok u ∧
      (1 ≤ kF ∧ kF ≤ 20) ∧ (1 ≤ kJ ∧ kJ ≤ 20) ∧ (∀ j, 1 ≤ kC j ∧ kC j ≤ 20) ∧
      ∀ (i : ℕ) (p : V3 ℝ), pts[i]? = some p →
      ∀ z r : ℝ, z = V3.dot (p - w.r_hub) w.e_shaft_g → r = V3.norm (p - w.r_hub - V3.smul z w.e_shaft_g) →
        z ≠ 0 → 1e-7 * R ≤ r → r ≠ R → ¬ (|r - R| < 1e-8 * R ∧ |z| < 1e-8 * R) →
      ∃ (v : V3 ℝ) (k n m c : ℝ), u[i]? = some (V3.fin v) ∧ n = 4*r*R/(R+r)^2 ∧ m = 4*r*R/((R+r)^2 + z^2) ∧
        carlsonPi kF kJ kC (.fin n) (.fin m) = .fin c ∧
        |V3.dot v w.e_shaft_g - (if z < 0 then γ/(4*π) * diskSolidAngle R ⟨r, 0, z⟩
          else if r < R then γ - γ/(4*π) * diskSolidAngle R ⟨r, 0, z⟩ else -(γ/(4*π) * diskSolidAngle R ⟨r, 0, z⟩))|
          ≤ |γ|/(2*π) * |c - ellPi n m| ∧
        0 < k ∧ v - V3.smul (V3.dot v w.e_shaft_g) w.e_shaft_g = V3.smul (-γ * k) (p - w.r_hub - V3.smul z w.e_shaft_g) := by
  intro w hp hoi hg hchi hsk
  obtain ⟨u, hu, hall⟩ := plain_value mini R hub shaft vert U0 L G M ho hR h pts o γ chi hp hg hchi hsk
  have hfr := frame_run mini shaft vert R h _ (frame_new R hub shaft vert U0 L G M)
  obtain ⟨a', s', e1, -, e3, e4, e5, e6, e7, e8, e9⟩ := frame_cols shaft vert R ho w hfr
  have hs : s' = w.e_shaft_g := by
    have := hfr.e_shaft_g
    rw [turn_eq] at this
    rw [e3]; exact this.symm
  subst hs
  rw [e9] at e4 e6 e7
  obtain ⟨kF, kJ, kC, hF, hJ, hC, H⟩ := C111_batch (rotorAxes (V3.cross vert w.e_shaft_g) vert w.e_shaft_g w.r_hub pts) γ R hR
  refine ⟨u, kF, kJ, kC, hu, hF, hJ, hC, fun i p hpi z r hzd hrd hz0 hax hne hoff => ?_⟩
  obtain ⟨c, hc, huc⟩ := hall i p hpi
  generalize hs : w.e_shaft_g = s at *
  generalize ha : V3.cross vert s = a at *
  let d := p - w.r_hub
  have hY : (rotorAxes a vert s w.r_hub pts)[i]? = some ⟨V3.dot d a, V3.dot d vert, V3.dot d s⟩ := by
    simp only [rotorAxes, List.getElem?_map, hpi, Option.map_some, d]
  have hexp := expand_frame vert s d ho.vert e5 e8
  rw [ha] at hexp
  have hzd' : V3.dot d s = z := hzd.symm
  have hn : √((V3.dot d a)^2 + (V3.dot d vert)^2) = r := by
    rw [hrd]
    have : V3.norm (p - w.r_hub - V3.smul z s) = √(V3.dot d d - 2*z*V3.dot d s + z^2*V3.dot s s) := by
      unfold V3.norm V3.dot; congr 1; simp [d]; ring
    rw [this, e5, hexp, hzd']
    congr 1; ring
  rw [hzd'] at hY
  obtain ⟨r', n, m, c', u', f1, f2, f3, f4, f5, f6⟩ := H i _ hY hz0 (by simp only; rw [hn]; exact hax) (by simp only; rw [hn]; exact hne)
    (by simp only; rw [hn]; exact hoff)
  simp only [hn] at f1
  subst f1
  rw [hc] at f5
  have hcu := fin_inj3 _ _ (Option.some.inj f5)
  subst hcu
  obtain ⟨k, u2, k1, k2, k3, k4⟩ := C111_expansion (rotorAxes a vert s w.r_hub pts) γ R hR i _ hY (by simp only; rw [hn]; exact hax) (by simp only; rw [hn]; exact hoff)
  rw [hc] at k2
  have hcu := fin_inj3 _ _ (Option.some.inj k2)
  subst hcu
  have hdot : V3.dot (V3.smul c.x a + V3.smul c.y vert + V3.smul c.z s + (if o.only_ind then 0 else w.U0_g)) s = c.z := by
    rw [hoi]
    simp only [if_true]
    have h1 : V3.dot (V3.smul c.x a + V3.smul c.y vert + V3.smul c.z s + 0) s = c.x * V3.dot a s + c.y * V3.dot s vert + c.z * V3.dot s s := by
      simp [V3.dot]; ring
    rw [h1, e7, e8, e5]; ring
  have hΩ : ∀ x y : ℝ, √(x^2 + y^2) = r' → diskSolidAngle R ⟨x, y, z⟩ = diskSolidAngle R ⟨r', 0, z⟩ := by
    intro x y hxy
    have q1 := polar_form ⟨x, y, z⟩
    have q2 := solidAngle_eq R (polarR x y) z (arctan2 y x) hz0 hR.le
    have q3 := solidAngle_eq R r' z 0 hz0 hR.le
    simp only at q1
    rw [← q1] at q2
    rw [q2]
    simp only [cos_zero, sin_zero, mul_one, mul_zero] at q3
    rw [q3]
    congr 1
  refine ⟨_, k, n, m, c', huc, f2, f3, f4, ?_, k1, ?_⟩
  · rw [hdot]
    simp only [hΩ _ _ hn] at f6
    exact f6
  · rw [hdot, hoi]
    simp only [if_true]
    rw [k3, k4]
    have hcomp := frame_complete a vert s d (by rw [← e4]) ho.vert e5 e6 e7 e8 hexp
    change _ = V3.smul (-γ*k) (d - V3.smul z s)
    rw [hzd'] at hcomp
    generalize V3.dot d a = α at *
    generalize V3.dot d vert = β at *
    rw [hcomp]
    ext <;> simp <;> ring

/-- half way up the axis of symmetry of the wake boundary: a point beside the wake of a unit rotor is seen with `0<Ω<2π`,
so a cylinder with `γ=-1` accelerates the flow there -/
example : 0 < (cylinderField (-1) 1 ⟨2, 0, 1⟩).z := by
  obtain ⟨h1, -, -, -, h4⟩ := C111_solid_angle (-1) 1 one_pos ⟨2, 0, 1⟩ (by norm_num)
  have h2 : √((2:ℝ)^2 + 0^2) = 2 := by rw [show (2:ℝ)^2 + 0^2 = 2^2 by norm_num, sqrt_sq (by norm_num)]
  rw [h4 (by norm_num) (by simp only; rw [h2]; norm_num)]
  have := pi_pos
  have : 0 < 1/(4*π) * diskSolidAngle 1 ⟨2, 0, 1⟩ := by positivity
  calc (0:ℝ) < _ := this
    _ = _ := by ring

/-- a batch that meets the hypotheses at its second point -/
example : let p : V3 ℝ := ⟨3, 4, -1⟩
    [(⟨0, 0, 0⟩ : V3 ℝ), p][1]? = some p ∧ p.z ≠ 0 ∧ 1e-7 * 2 ≤ √(p.x^2 + p.y^2) ∧ √(p.x^2 + p.y^2) ≠ 2 ∧
      ¬ (|√(p.x^2 + p.y^2) - 2| < 1e-8 * 2 ∧ |p.z| < 1e-8 * 2) := by
  have h : √((3:ℝ)^2 + 4^2) = 5 := by rw [show (3:ℝ)^2 + 4^2 = 5^2 by norm_num, sqrt_sq (by norm_num)]
  refine ⟨rfl, by norm_num, ?_, ?_, ?_⟩ <;> simp only [h] <;> norm_num

/-- the axial induction of a cylinder with `γ=-1` at mid radius decreases from one radius upstream to one downstream -/
example : (cylinderField (-1) 2 ⟨1, 0, 2⟩).z < (cylinderField (-1) 2 ⟨1, 0, -2⟩).z := by
  have := C111_monotone (-1) 2 1 0 (-2) 2 (by norm_num) one_pos (by norm_num) (by norm_num) (by norm_num) (by norm_num)
  simp only [cos_zero, sin_zero, mul_one, mul_zero] at this
  linarith

/-- a loaded turbine and a point 100 m upstream, 30 m off the shaft axis: the flow is deflected away from the axis -/
example (mini : (ℝ → Num) → ℝ) :
    let w := (WT.new 50 ⟨1,2,3⟩ ⟨0,0,1⟩ ⟨0,1,0⟩ ⟨0,0,10⟩ none false "VC").run mini
      [.chi (some 0), .loading { Ct := some [.fin 1], Lambda := some .pinf, gamma_t_Ct := some fun _ => [.fin (-1)] }]
    ∃ (u : List (V3 Num)) (v : V3 ℝ) (k : ℝ), (w.computeU [⟨31, 2, -97⟩] { only_ind := true }).1 = .ok u ∧ u[0]? = some (V3.fin v) ∧
      0 < k ∧ v.x = 30 * k := by
  intro w
  obtain ⟨b1, b2, b3, b4, b5, b6, b7, b8, b9, b10, b11, b12, b13, b14⟩ := loading_frame mini
    ((WT.new 50 ⟨1,2,3⟩ ⟨0,0,1⟩ ⟨0,1,0⟩ ⟨0,0,10⟩ none false "VC").run mini [.chi (some 0)])
    { Ct := some [.fin 1], Lambda := some .pinf, gamma_t_Ct := some fun _ => [.fin (-1)] }
  have hsh : w.e_shaft_g = ⟨0,0,1⟩ := by
    have := (C05_last_yaw mini 50 ⟨1,2,3⟩ ⟨0,0,1⟩ ⟨0,1,0⟩ ⟨0,0,10⟩ none false "VC"
      [.chi (some 0), .loading { Ct := some [.fin 1], Lambda := some .pinf, gamma_t_Ct := some fun _ => [.fin (-1)] }]).2.1
    rw [show w.e_shaft_g = _ from this]
    ext <;> simp [turn, lastYaw, V3.cross, V3.dot]
  have hhub : w.r_hub = ⟨1,2,3⟩ := by
    first | exact b1.trans rfl | exact b2.trans rfl | exact b3.trans rfl | exact b4.trans rfl | exact b5.trans rfl | exact b6.trans rfl | exact b7.trans rfl | exact b8.trans rfl | exact b9.trans rfl | exact b10.trans rfl
  obtain ⟨u, kF, kJ, kC, hu, -, -, -, H⟩ := C111_turbine mini 50 ⟨1,2,3⟩ ⟨0,0,1⟩ ⟨0,1,0⟩ ⟨0,0,10⟩ none false "VC" default_orthonormal (by norm_num)
    [.chi (some 0), .loading { Ct := some [.fin 1], Lambda := some .pinf, gamma_t_Ct := some fun _ => [.fin (-1)] }] [⟨31, 2, -97⟩] { only_ind := true } (-1) 0
    ⟨rfl, rfl, rfl, rfl, b14.trans rfl, b12.trans rfl⟩ rfl rfl (by
      rw [computeU_state]
      have : w.chi = some 0 := b13.trans rfl
      change some (usedChi w) = _
      unfold usedChi
      rw [this]) (by
      rw [show (0 : Num) = Num.fin 0 from rfl, Num.abs_fin, Num.lt_fin]; norm_num)
  change ∀ (i : ℕ) (p : V3 ℝ), _ → ∀ z r : ℝ, z = V3.dot (p - w.r_hub) w.e_shaft_g → r = V3.norm (p - w.r_hub - V3.smul z w.e_shaft_g) → _ at H
  rw [hsh, hhub] at H
  have hr : √((30:ℝ)^2 + 0^2 + 0^2) = 30 := by rw [show (30:ℝ)^2 + 0^2 + 0^2 = 30^2 by norm_num, sqrt_sq (by norm_num)]
  obtain ⟨v, k, n, m, c, g1, -, -, -, -, g6, g7⟩ := H 0 ⟨31, 2, -97⟩ rfl (-100) 30 (by simp [V3.dot]; norm_num) (by
    unfold V3.norm; conv_lhs => rw [← hr]
    congr 1; simp; norm_num) (by norm_num) (by norm_num) (by norm_num) (by norm_num)
  refine ⟨u, v, k, hu, g1, g6, ?_⟩
  have := congrArg V3.x g7
  simp at this
  rw [this]; ring

end Wiz
