import Verif.Props.VortexCylinder2
import Verif.Lemmas.VortexLine

/-! # C77: longitudinal vorticity of the cylinder -/
namespace Wiz
open Spec Real Classical MeasureTheory Set

/-- real swirl velocity, given the value `q` of the third-kind integral -/
noncomputable def vcUpsi (γ R r z q : ℝ) : ℝ :=
  γ/2 * R / r * ((1 - vcT R r) + z * √(vcM R r z) / (2*π*√(r*R)) * (ellK (vcM R r z) - (R-r)/(R+r) * q))

theorem halfline_z (γ z ax ay : ℝ) (X0 : V3 ℝ) (P : V3 ℝ) (hz : z = P.z - X0.z) (hx : ax = P.x - X0.x) (hy : ay = P.y - X0.y)
    (hD : 0 < ax^2 + ay^2) :
    biotSavart γ (Ioi 0) (fun s => ⟨X0.x, X0.y, X0.z + s⟩) (fun _ => ⟨0, 0, 1⟩) P =
      V3.smul (γ/(4*π) * (1/(ax^2+ay^2) * (1 + z/√(ax^2+ay^2+z^2)))) ⟨-ay, ax, 0⟩ := by
  have hsq : √(ax^2+ay^2+z^2)^2 = ax^2+ay^2+z^2 := sq_sqrt (by positivity)
  have hpos : 0 < √(ax^2+ay^2+z^2) := sqrt_pos.mpr (by positivity)
  have hlt : z < √(ax^2+ay^2+z^2) := by
    calc z ≤ |z| := le_abs_self z
      _ = √(z^2) := (sqrt_sq_eq_abs z).symm
      _ < _ := sqrt_lt_sqrt (sq_nonneg z) (by linarith)
  have h := biotSavart_halfline ⟨ax, ay, z⟩ ⟨0, 0, 1⟩ (by simp [V3.dot]) (by unfold V3.norm; exact hpos)
    (by simp only [V3.norm, V3.dot]; linarith) γ
  have e : biotSavart γ (Ioi 0) (fun s => ⟨X0.x, X0.y, X0.z + s⟩) (fun _ => ⟨0, 0, 1⟩) P =
      biotSavart γ (Ioi 0) (fun s => V3.smul s ⟨0, 0, 1⟩) (fun _ => ⟨0, 0, 1⟩) ⟨ax, ay, z⟩ := by
    unfold biotSavart bsKernel
    congr 2
    ext1 s
    have : P - ⟨X0.x, X0.y, X0.z + s⟩ = ⟨ax, ay, z⟩ - V3.smul s ⟨0, 0, 1⟩ := by
      ext <;> simp [hx, hy, hz]; ring
    rw [this]
  rw [e, h]
  simp only [V3.norm, V3.dot, V3.cross]
  have hk : γ/(4*π)/(√(ax^2+ay^2+z^2) * (√(ax^2+ay^2+z^2) - (ax*0+ay*0+z*1)))
      = γ/(4*π) * (1/(ax^2+ay^2) * (1 + z/√(ax^2+ay^2+z^2))) := by
    have hd : √(ax^2+ay^2+z^2) - z ≠ 0 := by linarith
    rw [show ax*0+ay*0+z*1 = z by ring]
    have hD' : ax^2+ay^2 = (√(ax^2+ay^2+z^2) - z)*(√(ax^2+ay^2+z^2)+z) := by nlinarith
    have h2 : √(ax^2+ay^2+z^2)+z ≠ 0 := by
      intro h0; rw [h0, mul_zero] at hD'; linarith
    rw [hD']
    rw [← hD']
    generalize √(ax^2+ay^2+z^2) = w at *
    have h3 : 1/(ax^2+ay^2) * (1 + z/w) = 1/(w*(w-z)) := by
      rw [hD']; field_simp
    rw [h3]; field_simp
  rw [hk]
  ext <;> simp

theorem longiField_eq (γ R r z ψ : ℝ) (hr : 0 < r) (hR : 0 < R) (h : r ≠ R) :
    longiField γ R ⟨r * cos ψ, r * sin ψ, z⟩ =
      ⟨-vcUpsi γ R r z (ellPi (vcN R r) (vcM R r z)) * sin ψ, vcUpsi γ R r z (ellPi (vcN R r) (vcM R r z)) * cos ψ, 0⟩ := by
  have hpi := pi_pos
  have hne : ∀ w : ℝ, ¬ (r = R ∧ w = 0) := fun w h' => h h'.1
  have hD0 : ∀ θ, 0 < dist2 r 0 R θ := dist2_pos hr.le hR (hne 0)
  have hDz : ∀ θ, 0 < dist2 r z R θ := dist2_pos hr.le hR (hne z)
  have hd0 : ∀ θ, (r * cos ψ - R * cos θ)^2 + (r * sin ψ - R * sin θ)^2 = dist2 r 0 R (θ - ψ) := by
    intro θ
    unfold dist2
    rw [cos_sub]
    linear_combination R^2 * sin_sq_add_cos_sq θ + r^2 * sin_sq_add_cos_sq ψ
  have hdz : ∀ θ, (r * cos ψ - R * cos θ)^2 + (r * sin ψ - R * sin θ)^2 + z^2 = dist2 r z R (θ - ψ) := by
    intro θ; rw [hd0, ← dist2_zero]
  have hline : ∀ θ, biotSavart γ (Ioi 0) (fun s => ⟨R * cos θ, R * sin θ, s⟩) (fun _ => ⟨0, 0, 1⟩) ⟨r * cos ψ, r * sin ψ, z⟩
      = V3.smul (γ/(4*π) * (1/dist2 r 0 R (θ - ψ) * (1 + z/√(dist2 r z R (θ-ψ)))))
          ⟨-(r * sin ψ - R * sin θ), r * cos ψ - R * cos θ, 0⟩ := by
    intro θ
    have := halfline_z γ z (r * cos ψ - R * cos θ) (r * sin ψ - R * sin θ) ⟨R * cos θ, R * sin θ, 0⟩
      ⟨r * cos ψ, r * sin ψ, z⟩ (by simp) rfl rfl (by rw [hd0]; exact hD0 _)
    simp only [zero_add] at this
    rw [this, hdz, hd0]
  set g : ℝ → ℝ := fun θ => 1/dist2 r 0 R θ * (1 + z/√(dist2 r z R θ)) with hg
  have hgc : Continuous g := by
    have c0 : Continuous fun θ => dist2 r 0 R θ := by unfold dist2; fun_prop
    have cz : Continuous fun θ => √(dist2 r z R θ) := by unfold dist2; fun_prop
    exact (continuous_const.div c0 fun θ => (hD0 θ).ne').mul
      (continuous_const.add (continuous_const.div cz fun θ => (sqrt_pos.mpr (hDz θ)).ne'))
  have hper : ∀ θ, g (θ + 2*π) = g θ := by intro θ; simp [hg, dist2]
  -- the two azimuthal integrals
  have Is : ∫ θ in (0:ℝ)..(2*π), sin θ * g θ = 0 := by
    have := intervalIntegral.integral_comp_sub_left (fun θ => sin θ * g θ) (a := 0) (b := 2*π) (2*π)
    simp only [sub_zero, sub_self, hg, dist2, cos_two_pi_sub, sin_two_pi_sub, neg_mul, intervalIntegral.integral_neg] at this
    simp only [hg, dist2]
    linarith
  set J := ∫ θ in (0:ℝ)..(2*π), (r - R * cos θ) * g θ with hJ
  have p1 : Function.Periodic (fun θ => (r - R * cos θ) * g θ) (2*π) := by
    intro θ; simp only [hper, cos_add_two_pi]
  have p2 : Function.Periodic (fun θ => sin θ * g θ) (2*π) := by
    intro θ; simp only [hper, sin_add_two_pi]
  have J1 := shift_integral _ p1 ψ
  have J2 := shift_integral _ p2 ψ
  rw [Is] at J2
  rw [← hJ] at J1
  have i1 : IntervalIntegrable (fun θ => (r - R * cos (θ-ψ)) * g (θ-ψ)) volume 0 (2*π) :=
    (by fun_prop : Continuous fun θ => (r - R * cos (θ-ψ)) * g (θ-ψ)).intervalIntegrable _ _
  have i2 : IntervalIntegrable (fun θ => sin (θ-ψ) * g (θ-ψ)) volume 0 (2*π) :=
    (by fun_prop : Continuous fun θ => sin (θ-ψ) * g (θ-ψ)).intervalIntegrable _ _
  have lin : ∀ a b : ℝ, ∫ θ in (0:ℝ)..(2*π), (a * ((r - R * cos (θ-ψ)) * g (θ-ψ)) + b * (sin (θ-ψ) * g (θ-ψ))) = a * J := by
    intro a b
    rw [intervalIntegral.integral_add (i1.const_mul a) (i2.const_mul b), intervalIntegral.integral_const_mul,
      intervalIntegral.integral_const_mul, J1, J2]; ring
  -- the value of J
  have hJv : γ * R/(4*π) * J = vcUpsi γ R r z (ellPi (vcN R r) (vcM R r z)) := by
    have hsplit : ∀ θ, (r - R * cos θ) * g θ = 1/(2*r) * (1 + z * (1/√(dist2 r z R θ)) + (r^2-R^2) * (1/dist2 r 0 R θ)
        + z*(r^2-R^2) * (1/(dist2 r 0 R θ * √(dist2 r z R θ)))) := by
      intro θ
      have e1 : r - R * cos θ = (dist2 r 0 R θ + (r^2-R^2))/(2*r) := by unfold dist2; field_simp; ring
      rw [e1]
      have h1 := hD0 θ
      have h2 := sqrt_pos.mpr (hDz θ)
      simp only [hg]
      generalize √(dist2 r z R θ) = w at *
      generalize dist2 r 0 R θ = d at *
      field_simp
      ring
    have c0 : Continuous fun θ => 1/dist2 r 0 R θ := by
      have c0 : Continuous fun θ => dist2 r 0 R θ := by unfold dist2; fun_prop
      exact continuous_const.div c0 fun θ => (hD0 θ).ne'
    have cz : Continuous fun θ => 1/√(dist2 r z R θ) := by
      have cz : Continuous fun θ => √(dist2 r z R θ) := by unfold dist2; fun_prop
      exact continuous_const.div cz fun θ => (sqrt_pos.mpr (hDz θ)).ne'
    have c2 : Continuous fun θ => 1/(dist2 r 0 R θ * √(dist2 r z R θ)) := by
      have := c0.mul cz
      refine this.congr ?_
      intro θ; exact one_div_mul_one_div _ _
    have k0 := fun c : ℝ => (c0.const_mul c).intervalIntegrable (μ := volume) 0 (2*π)
    have kz := fun c : ℝ => (cz.const_mul c).intervalIntegrable (μ := volume) 0 (2*π)
    have k2 := fun c : ℝ => (c2.const_mul c).intervalIntegrable (μ := volume) 0 (2*π)
    have k1 : IntervalIntegrable (fun _ : ℝ => (1:ℝ)) volume 0 (2*π) := continuous_const.intervalIntegrable _ _
    rw [hJ]
    simp only [hsplit]
    rw [intervalIntegral.integral_const_mul, intervalIntegral.integral_add ((k1.add (kz _)).add (k0 _)) (k2 _),
      intervalIntegral.integral_add (k1.add (kz _)) (k0 _), intervalIntegral.integral_add k1 (kz _)]
    simp only [intervalIntegral.integral_const_mul]
    rw [ring_I1 hr.le hR (hne z), ring_Pi hr.le hR h, poisson_integral' hr.le hR.le h, intervalIntegral.integral_const, smul_eq_mul]
    have hT : (r^2-R^2) * (2*π/|R^2-r^2|) = 2*π*(1 - 2*vcT R r) := by
      unfold vcT
      rw [if_neg h]
      rcases lt_or_gt_of_ne h with hlt | hgt
      · rw [if_pos hlt, abs_of_pos (by nlinarith)]
        have : R^2-r^2 ≠ 0 := by nlinarith
        field_simp; ring
      · rw [if_neg (not_lt.mpr hgt.le), abs_of_neg (by nlinarith)]
        have : r^2-R^2 ≠ 0 := by nlinarith
        rw [neg_sub]; field_simp; ring
    rw [hT]
    unfold vcUpsi
    have hp2 : 0 < (r+R)^2+z^2 := by positivity
    have hM : vcM R r z = 4*r*R/((r+R)^2+z^2) := vcM_eq R r z
    have hN : vcN R r = 4*r*R/(r+R)^2 := by unfold vcN; rw [add_comm R r]
    have hS : √(vcM R r z) = 2*√r*√R/√((r+R)^2+z^2) := by
      rw [hM, sqrt_div (by positivity), show 4*r*R = 2^2*(r*R) by ring, sqrt_mul (by positivity), sqrt_sq (by norm_num),
        sqrt_mul hr.le]; ring
    rw [← hM, ← hN, hS, sqrt_mul hr.le]
    have g0 := sqrt_pos.mpr hp2
    generalize ellK (vcM R r z) = K
    generalize ellPi (vcN R r) (vcM R r z) = Q
    generalize √((r+R)^2+z^2) = a at *
    have g1 := sqrt_pos.mpr hr
    have g2 := sqrt_pos.mpr hR
    generalize √r = p at *
    generalize √R = q at *
    have hrR : r + R ≠ 0 := by positivity
    have e3 : r^2 - R^2 = -((R-r)*(r+R)) := by ring
    rw [e3, add_comm R r]
    field_simp
    ring
  rw [← hJv]
  unfold longiField vint
  simp only [hline]
  rw [← intervalIntegral.integral_of_le (by positivity), ← intervalIntegral.integral_of_le (by positivity),
    ← intervalIntegral.integral_of_le (by positivity)]
  ext
  · simp only [V3.smul_x]
    rw [show -(γ*R/(4*π)*J)*sin ψ = (-(γ*R/(4*π))*sin ψ) * J by ring, ← lin _ (γ*R/(4*π)*R*cos ψ)]
    congr 1; ext θ
    have : sin θ = sin (θ - ψ) * cos ψ + cos (θ - ψ) * sin ψ := by rw [← sin_add]; ring_nf
    rw [this]; simp only [hg]; ring
  · simp only [V3.smul_y]
    rw [show (γ*R/(4*π)*J)*cos ψ = ((γ*R/(4*π))*cos ψ) * J by ring, ← lin _ (γ*R/(4*π)*R*sin ψ)]
    congr 1; ext θ
    have : cos θ = cos (θ - ψ) * cos ψ - sin (θ - ψ) * sin ψ := by rw [← cos_add]; ring_nf
    rw [this]; simp only [hg]; ring
  · simp

/-- the arguments passed to `ellipticPiCarlson` by `vc_longi_u` -/
noncomputable def longiBatch (pts : List (V3 ℝ)) (R : ℝ) : List (Num × Num) :=
  (pts.map fun p => (⟨polarR p.x p.y, arctan2 p.y p.x, p.z⟩ : PolarPt)).map
      fun q => (4 * Num.fin q.r * Num.fin R / ((Num.fin q.r + Num.fin R)^2), 4 * Num.fin q.r * Num.fin R / ((Num.fin q.r + Num.fin R)^2 + (Num.fin q.z)^2))

theorem vcLongi_real (pts : List (V3 ℝ)) (γ R : ℝ) (hR : 0 < R) (i : ℕ) (p : V3 ℝ) (hi : pts[i]? = some p)
    (hr : 0 < polarR p.x p.y) (hne : polarR p.x p.y ≠ R) :
    ∃ c, c = piReal (longiBatch pts R) (vcN R (polarR p.x p.y)) (vcM R (polarR p.x p.y) p.z) ∧
        (vcLongi pts (.fin γ) R false)[i]? = some (V3.fin
          ⟨-vcUpsi γ R (polarR p.x p.y) p.z c * sin (arctan2 p.y p.x), vcUpsi γ R (polarR p.x p.y) p.z c * cos (arctan2 p.y p.x), 0⟩) ∧
        (vcLongi pts (.fin γ) R true)[i]? = some (V3.fin ⟨0, vcUpsi γ R (polarR p.x p.y) p.z c, 0⟩) := by
  obtain ⟨nm, hnm⟩ : ∃ nm : List (Num × Num), nm = (pts.map fun p => (⟨polarR p.x p.y, arctan2 p.y p.x, p.z⟩ : PolarPt)).map
      fun q => (4 * Num.fin q.r * Num.fin R / ((Num.fin q.r + Num.fin R)^2), 4 * Num.fin q.r * Num.fin R / ((Num.fin q.r + Num.fin R)^2 + (Num.fin q.z)^2)) :=
    ⟨_, rfl⟩
  have hn := vcN_lt hR hr.le hne
  have hm := vcM_lt (z := p.z) hR hr.le (fun h' => hne h'.1)
  refine ⟨piReal nm (vcN R (polarR p.x p.y)) (vcM R (polarR p.x p.y) p.z), by rw [hnm]; rfl, ?_⟩
  have hu : (vcLongiUpsi (pts.map fun p => (⟨polarR p.x p.y, arctan2 p.y p.x, p.z⟩ : PolarPt)) (.fin γ) R)[i]? =
      some (.fin (vcUpsi γ R (polarR p.x p.y) p.z (piReal nm (vcN R (polarR p.x p.y)) (vcM R (polarR p.x p.y) p.z)))) := by
    unfold vcLongiUpsi
    simp only
    rw [piOf_map, ← hnm]
    simp only [hnm, List.map_map, List.zipWith_map, List.zipWith_self]
    rw [← List.map_map, ← hnm, List.getElem?_map, hi, Option.map_some]
    simp only [Function.comp_def]
    generalize polarR p.x p.y = r at *
    generalize p.z = z at *
    have e1 : (4 * Num.fin r * Num.fin R / ((Num.fin r + Num.fin R)^2 + (Num.fin z)^2) : Num) = .fin (vcM R r z) := by
      have : (r+R)^2 + z^2 ≠ 0 := by positivity
      rw [vcM_eq]
      simp only [Num.ofNat_def, Num.fin_mul, Num.fin_add, Num.fin_pow, Num.fin_div this]
    have e2 : (4 * Num.fin r * Num.fin R / ((Num.fin r + Num.fin R)^2) : Num) = .fin (vcN R r) := by
      have : (r+R)^2 ≠ 0 := by positivity
      unfold vcN
      rw [add_comm R r]
      simp only [Num.ofNat_def, Num.fin_mul, Num.fin_add, Num.fin_pow, Num.fin_div this]
    have hm0 := vcM_pos hR hr z
    have hpi := pi_pos
    have hrR : 0 < r*R := mul_pos hr hR
    have hsr := sqrt_pos.mpr hrR
    have d2 : ∀ a : ℝ, Num.fin a / Num.fin 2 = Num.fin (a/2) := fun a => Num.fin_div two_ne_zero
    have habs : 2*|R-r| ≠ 0 := by
      have : R - r ≠ 0 := fun h => hne (by linarith)
      positivity
    simp only [e1, e2]
    simp only [piReal_spec nm hn hm.le, ellipk_fin hm, Num.sqrt_fin hm0.le, Num.ofNat_def, Num.fin_mul, Num.fin_sub,
      Num.fin_add, d2, Num.sqrt_fin hrR.le, Num.fin_div hr.ne',
      Num.fin_div (show 2*π*√(r*R) ≠ 0 by positivity), Num.fin_div (show R + r ≠ 0 by positivity), Num.abs_fin, Num.fin_div habs]
    have hT : (r - R + |R-r|)/(2*|R-r|) = 1 - vcT R r := by
      unfold vcT
      rw [if_neg hne]
      rcases lt_or_gt_of_ne hne with hlt | hgt
      · rw [if_pos hlt, abs_of_pos (by linarith)]
        ring_nf
      · rw [if_neg (not_lt.mpr hgt.le), abs_of_neg (by linarith)]
        have : r - R ≠ 0 := by linarith
        rw [neg_sub]; field_simp; ring
    rw [hT]
    rfl
  unfold vcLongi vcLongiPolar
  rw [List.getElem?_zipWith, List.getElem?_zipWith, hu, List.getElem?_map, hi]
  simp [V3.fin]

theorem vcLongi_get (pts : List (V3 ℝ)) (γ R : ℝ) (hR : 0 < R) : ∃ (kF kJ : ℕ) (kC : ℕ → ℕ),
    (1 ≤ kF ∧ kF ≤ 20) ∧ (1 ≤ kJ ∧ kJ ≤ 20) ∧ (∀ j, 1 ≤ kC j ∧ kC j ≤ 20) ∧
    ∀ (i : ℕ) (p : V3 ℝ), pts[i]? = some p → 0 < polarR p.x p.y → polarR p.x p.y ≠ R →
      ∃ c, carlsonPi kF kJ kC (.fin (vcN R (polarR p.x p.y))) (.fin (vcM R (polarR p.x p.y) p.z)) = .fin c ∧
        (vcLongi pts (.fin γ) R false)[i]? = some (V3.fin
          ⟨-vcUpsi γ R (polarR p.x p.y) p.z c * sin (arctan2 p.y p.x), vcUpsi γ R (polarR p.x p.y) p.z c * cos (arctan2 p.y p.x), 0⟩) ∧
        (vcLongi pts (.fin γ) R true)[i]? = some (V3.fin ⟨0, vcUpsi γ R (polarR p.x p.y) p.z c, 0⟩) := by
  obtain ⟨kF, kJ, kC, hF, hJ, hC, hP⟩ := piOf_schedule (longiBatch pts R)
  refine ⟨kF, kJ, kC, hF, hJ, hC, fun i p hi hr hne => ?_⟩
  obtain ⟨c, hc, h⟩ := vcLongi_real pts γ R hR i p hi hr hne
  refine ⟨c, ?_, h⟩
  rw [← hP, hc]
  exact piReal_spec _ (vcN_lt hR hr.le hne) (vcM_lt (z := p.z) hR hr.le (fun h' => hne h'.1)).le

/-- C77: at every control point off the axis and off the cylinder surface, in every batch, the
velocity of the longitudinal vorticity is Biot–Savart, up to the truncation error of the
third-kind integral in the swirl component. -/
theorem C77_biot_savart (pts : List (V3 ℝ)) (γ R : ℝ) (hR : 0 < R) : ∃ (kF kJ : ℕ) (kC : ℕ → ℕ),
    (1 ≤ kF ∧ kF ≤ 20) ∧ (1 ≤ kJ ∧ kJ ≤ 20) ∧ (∀ j, 1 ≤ kC j ∧ kC j ≤ 20) ∧
    ∀ (i : ℕ) (p : V3 ℝ), pts[i]? = some p → 0 < √(p.x^2 + p.y^2) → √(p.x^2 + p.y^2) ≠ R →
      ∃ (r n m c : ℝ), r = √(p.x^2 + p.y^2) ∧ n = 4*r*R/(R+r)^2 ∧ m = 4*r*R/((R+r)^2 + p.z^2) ∧
        carlsonPi kF kJ kC (.fin n) (.fin m) = .fin c ∧
        (vcLongi pts (.fin γ) R false)[i]? = some (V3.fin (longiField γ R p +
          V3.smul (γ/2 * R/r * (p.z * √m / (2*π*√(r*R))) * ((R - r)/(R + r)) * (c - ellPi n m)) ⟨p.y/r, -(p.x/r), 0⟩)) := by
  obtain ⟨kF, kJ, kC, hF, hJ, hC, H⟩ := vcLongi_get pts γ R hR
  refine ⟨kF, kJ, kC, hF, hJ, hC, ?_⟩
  intro i p hi hr hne
  obtain ⟨c, hc, h1, -⟩ := H i p hi hr hne
  refine ⟨_, _, _, c, rfl, rfl, rfl, hc, ?_⟩
  rw [h1]
  have hr' : 0 < polarR p.x p.y := hr
  have hxy : p.x ≠ 0 ∨ p.y ≠ 0 := by
    by_contra h0
    push Not at h0
    rw [polarR_eq_zero.mpr h0] at hr'
    exact lt_irrefl _ hr'
  have hp : p = ⟨polarR p.x p.y * cos (arctan2 p.y p.x), polarR p.x p.y * sin (arctan2 p.y p.x), p.z⟩ := by
    rw [r_cos, r_sin]
  have hF : longiField γ R p = _ := (congrArg (longiField γ R) hp).trans
    (longiField_eq γ R (polarR p.x p.y) p.z (arctan2 p.y p.x) hr' hR hne)
  rw [hF, cos_arctan2 hxy, sin_arctan2 hxy]
  change _ = some (V3.fin (_ + V3.smul (γ/2 * R/polarR p.x p.y * (p.z * √(vcM R (polarR p.x p.y) p.z) / (2*π*√(polarR p.x p.y*R))) *
    ((R - polarR p.x p.y)/(R + polarR p.x p.y)) * (c - ellPi (vcN R (polarR p.x p.y)) (vcM R (polarR p.x p.y) p.z)))
    ⟨p.y/polarR p.x p.y, -(p.x/polarR p.x p.y), 0⟩))
  congr 2
  ext
  · simp only [V3.add_x, V3.smul_x, vcUpsi]; ring
  · simp only [V3.add_y, V3.smul_y, vcUpsi]; ring
  · simp

/-- C77: the velocity is a pure swirl of equal strength in both output modes, zero axially and
radially; in the plane of the disk it vanishes inside the cylinder and is `γ R/(2r)` outside. -/
theorem C77_disk_plane (pts : List (V3 ℝ)) (γ R : ℝ) (hR : 0 < R) (i : ℕ) (p : V3 ℝ) (hi : pts[i]? = some p)
    (hr : 0 < √(p.x^2 + p.y^2)) (hne : √(p.x^2 + p.y^2) ≠ R) :
    ∃ v : ℝ, (vcLongi pts (.fin γ) R true)[i]? = some (V3.fin ⟨0, v, 0⟩) ∧
      (vcLongi pts (.fin γ) R false)[i]? = some (V3.fin ⟨-v * (p.y/√(p.x^2 + p.y^2)), v * (p.x/√(p.x^2 + p.y^2)), 0⟩) ∧
      (p.z = 0 → v = if √(p.x^2 + p.y^2) < R then 0 else γ * R / (2*√(p.x^2 + p.y^2))) := by
  obtain ⟨kF, kJ, kC, hF, hJ, hC, H⟩ := vcLongi_get pts γ R hR
  obtain ⟨c, hc, h1, h2⟩ := H i p hi hr hne
  have hr' : 0 < polarR p.x p.y := hr
  have hxy : p.x ≠ 0 ∨ p.y ≠ 0 := by
    by_contra h0
    push Not at h0
    rw [polarR_eq_zero.mpr h0] at hr'
    exact lt_irrefl _ hr'
  rw [cos_arctan2 hxy, sin_arctan2 hxy] at h1
  refine ⟨_, h2, h1, ?_⟩
  intro hz
  change _ = if polarR p.x p.y < R then 0 else γ * R / (2*polarR p.x p.y)
  have hne' : polarR p.x p.y ≠ R := hne
  unfold vcUpsi vcT
  rw [hz, if_neg hne']
  split_ifs
  · simp
  · field_simp; ring

example : 0 < √((3:ℝ)^2 + 4^2) ∧ √((3:ℝ)^2 + 4^2) ≠ 2 := by
  rw [show (3:ℝ)^2 + 4^2 = 5^2 by norm_num, sqrt_sq (by norm_num)]; norm_num

end Wiz
