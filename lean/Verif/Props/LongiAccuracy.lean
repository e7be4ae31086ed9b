import Verif.Props.CylinderAccuracy
import Verif.Props.VortexCylinderLongi

/-! # C77 (accuracy): the swirl of the longitudinal vorticity is within 3% of `γ R/r` of Biot–Savart, whatever the batch -/
set_option autoImplicit false
namespace Wiz
open Spec Real Classical

/-- the value of the third-kind integral used at a point of the batch -/
theorem longi_uniform (pts : List (V3 ℝ)) (R : ℝ) (hR : 0 < R) (p : V3 ℝ) (hp : p ∈ pts) (hr : 0 < polarR p.x p.y) (hne : polarR p.x p.y ≠ R) :
    √((1 - vcN R (polarR p.x p.y))*((vcN R (polarR p.x p.y) - vcM R (polarR p.x p.y) p.z)/vcN R (polarR p.x p.y))) *
      |piReal (longiBatch pts R) (vcN R (polarR p.x p.y)) (vcM R (polarR p.x p.y) p.z) - ellPi (vcN R (polarR p.x p.y)) (vcM R (polarR p.x p.y) p.z)| ≤ 188/1000 := by
  obtain ⟨nm, hnm⟩ : ∃ nm : List (ℝ × ℝ), nm = pts.map fun p => (vcN R (polarR p.x p.y), vcM R (polarR p.x p.y) p.z) := ⟨_, rfl⟩
  have hbatch : longiBatch pts R = nm.map fun p => (.fin p.1, .fin p.2) := by
    unfold longiBatch
    rw [hnm, List.map_map, List.map_map]
    apply List.map_congr_left
    intro q hq
    have h0 : 0 ≤ polarR q.x q.y := sqrt_nonneg _
    simp only [Function.comp_apply, Prod.mk.injEq]
    generalize polarR q.x q.y = r at *
    have e2 : (r+R)^2 + q.z^2 ≠ 0 := by positivity
    have e1 : (r+R)^2 ≠ 0 := by positivity
    constructor
    · unfold vcN
      rw [add_comm R r]
      simp only [Num.ofNat_def, Num.fin_mul, Num.fin_add, Num.fin_pow, Num.fin_div e1]
    · rw [vcM_eq]
      simp only [Num.ofNat_def, Num.fin_mul, Num.fin_add, Num.fin_pow, Num.fin_div e2]
  have hN := vcN_lt hR hr.le hne
  have hMN : vcM R (polarR p.x p.y) p.z ≤ vcN R (polarR p.x p.y) := by
    unfold vcM vcN
    apply div_le_div_of_nonneg_left (by positivity) (by positivity)
    nlinarith [sq_nonneg p.z]
  have hM0 : 0 ≤ vcM R (polarR p.x p.y) p.z := by unfold vcM; positivity
  have hmem : (vcN R (polarR p.x p.y), vcM R (polarR p.x p.y) p.z) ∈ nm := by
    rw [hnm]; exact List.mem_map.mpr ⟨p, hp, rfl⟩
  have hP := piOf_map (longiBatch pts R)
  have hm1 : ∀ q ∈ nm, q.2 ≤ 1 := by
    intro q hq
    rw [hnm] at hq
    obtain ⟨q', -, rfl⟩ := List.mem_map.mp hq
    have h0 : 0 ≤ polarR q'.x q'.y := sqrt_nonneg _
    simp only
    generalize polarR q'.x q'.y = r at *
    unfold vcM
    rw [div_le_one (by positivity)]
    nlinarith [sq_nonneg (R - r), sq_nonneg q'.z]
  have hP' : ellipticPiCarlson (nm.map fun p => (.fin p.1, .fin p.2)) = nm.map fun p => piOf (longiBatch pts R) (.fin p.1) (.fin p.2) := by
    rw [← hbatch, hP]
    generalize piOf (longiBatch pts R) = Q
    rw [hbatch, List.map_map]
    rfl
  obtain ⟨c, hc, hb⟩ := carlson_uniform nm hm1 _ _ hmem hM0 hMN hN (piOf (longiBatch pts R)) hP'
  have : piReal (longiBatch pts R) (vcN R (polarR p.x p.y)) (vcM R (polarR p.x p.y) p.z) = c := by
    unfold piReal
    rw [hc]; rfl
  rw [this]
  exact hb

/-- C77: in every batch, at every point off the axis and off the radius of the sheet, `vc_longi_u` returns the Biot–Savart
velocity of the filaments up to a swirl of at most 3% of `|γ| R/r`, whatever pass the loops of the elliptic integral stopped at. -/
theorem C77_accuracy (pts : List (V3 ℝ)) (γ R : ℝ) (hR : 0 < R) (i : ℕ) (p : V3 ℝ) (hi : pts[i]? = some p)
    (hr : 0 < √(p.x^2 + p.y^2)) (hne : √(p.x^2 + p.y^2) ≠ R) :
    ∃ d : ℝ, |d| ≤ 3/100 * |γ| * R / √(p.x^2 + p.y^2) ∧
      (vcLongi pts (.fin γ) R false)[i]? = some (V3.fin (longiField γ R p +
        V3.smul d ⟨p.y/√(p.x^2 + p.y^2), -(p.x/√(p.x^2 + p.y^2)), 0⟩)) := by
  have hr' : 0 < polarR p.x p.y := hr
  have hne' : polarR p.x p.y ≠ R := hne
  have hu := longi_uniform pts R hR p (List.mem_of_getElem? hi) hr' hne'
  obtain ⟨c, hc, h1, -⟩ := vcLongi_real pts γ R hR i p hi hr' hne'
  rw [← hc] at hu
  refine ⟨γ/2 * R/polarR p.x p.y * (p.z * √(vcM R (polarR p.x p.y) p.z) / (2*π*√(polarR p.x p.y*R))) *
    ((R - polarR p.x p.y)/(R + polarR p.x p.y)) * (c - ellPi (vcN R (polarR p.x p.y)) (vcM R (polarR p.x p.y) p.z)), ?_, ?_⟩
  · change _ ≤ 3/100 * |γ| * R / polarR p.x p.y
    generalize c - ellPi (vcN R (polarR p.x p.y)) (vcM R (polarR p.x p.y) p.z) = D at *
    generalize polarR p.x p.y = r at *
    generalize p.z = z at *
    have hw : √((1 - vcN R r)*((vcN R r - vcM R r z)/vcN R r)) = |R - r|/(R + r) * (|z|/√((R+r)^2+z^2)) := by
      have e1 : 1 - vcN R r = ((R-r)/(R+r))^2 := by unfold vcN; field_simp; ring
      have e2 : (vcN R r - vcM R r z)/vcN R r = z^2/((R+r)^2+z^2) := by
        have : (R+r)^2+z^2 ≠ 0 := by positivity
        unfold vcN vcM; field_simp; ring
      rw [e1, e2, sqrt_mul (by positivity), sqrt_sq_eq_abs, abs_div, abs_of_pos (by positivity : 0 < R + r), sqrt_div (by positivity), sqrt_sq_eq_abs]
    have hs : √(vcM R r z)/√(r*R) = 2/√((R+r)^2+z^2) := by
      unfold vcM
      rw [← sqrt_div (by positivity), show 4*r*R/((R+r)^2+z^2)/(r*R) = 2^2/((R+r)^2+z^2) by
        have : (R+r)^2+z^2 ≠ 0 := by positivity
        field_simp; norm_num, sqrt_div (by positivity), sqrt_sq (by norm_num)]
    have e : γ/2 * R/r * (z * √(vcM R r z) / (2*π*√(r*R))) * ((R - r)/(R + r)) * D = (R/r) * (γ/(2*π) * (((R-r)/(R+r)) * (z/√((R+r)^2+z^2)) * D)) := by
      rw [show z * √(vcM R r z) / (2*π*√(r*R)) = z/(2*π)*(√(vcM R r z)/√(r*R)) by ring, hs]
      ring
    rw [e, abs_mul, abs_mul, abs_mul, abs_mul, abs_div, abs_div γ, abs_div (R-r), abs_div z, abs_of_pos (by positivity : 0 < R + r), abs_of_nonneg (sqrt_nonneg _),
      abs_of_pos (by positivity : 0 < 2*π), ← hw, abs_of_pos hR, abs_of_pos hr']
    have k : |γ|/(2*π)*(√((1 - vcN R r)*((vcN R r - vcM R r z)/vcN R r))*|D|) ≤ 3/100*|γ| := by
      calc |γ|/(2*π)*(√((1 - vcN R r)*((vcN R r - vcM R r z)/vcN R r))*|D|) ≤ |γ|/(2*π)*(188/1000) := by gcongr
        _ ≤ 3/100*|γ| := by
          rw [div_mul_eq_mul_div, div_le_iff₀ (by positivity)]
          have hpi := pi_gt_d2
          have := abs_nonneg γ
          norm_num at hpi
          nlinarith
    calc _ ≤ R/r * (3/100*|γ|) := mul_le_mul_of_nonneg_left k (by positivity)
      _ = _ := by ring
  · rw [h1]
    have hxy : p.x ≠ 0 ∨ p.y ≠ 0 := by
      by_contra h0
      push Not at h0
      rw [polarR_eq_zero.mpr h0] at hr'
      exact lt_irrefl _ hr'
    have hp : p = ⟨polarR p.x p.y * cos (arctan2 p.y p.x), polarR p.x p.y * sin (arctan2 p.y p.x), p.z⟩ := by
      rw [r_cos, r_sin]
    have hF : longiField γ R p = _ := (congrArg (longiField γ R) hp).trans
      (longiField_eq γ R (polarR p.x p.y) p.z (arctan2 p.y p.x) hr' hR hne')
    rw [hF, cos_arctan2 hxy, sin_arctan2 hxy]
    change _ = some (V3.fin (_ + V3.smul _ ⟨p.y/polarR p.x p.y, -(p.x/polarR p.x p.y), 0⟩))
    congr 2
    ext
    · simp only [V3.add_x, V3.smul_x, vcUpsi]; ring
    · simp only [V3.add_y, V3.smul_y, vcUpsi]; ring
    · simp

/-- C77: the azimuthal velocity of the polar output is within 3% of `|γ| R/r` of the azimuthal component of Biot–Savart. -/
theorem C77_polar_accuracy (pts : List (V3 ℝ)) (γ R : ℝ) (hR : 0 < R) (i : ℕ) (p : V3 ℝ) (hi : pts[i]? = some p)
    (hr : 0 < √(p.x^2 + p.y^2)) (hne : √(p.x^2 + p.y^2) ≠ R) :
    ∃ v d : ℝ, |d| ≤ 3/100 * |γ| * R / √(p.x^2 + p.y^2) ∧ (vcLongi pts (.fin γ) R true)[i]? = some (V3.fin ⟨0, v, 0⟩) ∧
      v + d = V3.dot (longiField γ R p) ⟨-(p.y/√(p.x^2 + p.y^2)), p.x/√(p.x^2 + p.y^2), 0⟩ := by
  obtain ⟨d, hd, h1⟩ := C77_accuracy pts γ R hR i p hi hr hne
  obtain ⟨v, h2, h3, -⟩ := C77_disk_plane pts γ R hR i p hi hr hne
  rw [h3] at h1
  have hs : √(p.x^2 + p.y^2)^2 = p.x^2 + p.y^2 := sq_sqrt (by positivity)
  generalize √(p.x^2 + p.y^2) = r at *
  have h4 := Option.some.inj h1
  simp only [V3.fin, V3.mk.injEq, Num.fin_inj, V3.add_x, V3.add_y, V3.smul_x, V3.smul_y] at h4
  obtain ⟨a, b, -⟩ := h4
  refine ⟨v, d, hd, h2, ?_⟩
  have hone : (p.x/r)^2 + (p.y/r)^2 = 1 := by
    rw [div_pow, div_pow, ← add_div, ← hs, div_self (by positivity)]
  simp only [V3.dot]
  have ha : (longiField γ R p).x = -v*(p.y/r) - d*(p.y/r) := by linarith
  have hb : (longiField γ R p).y = v*(p.x/r) + d*(p.x/r) := by linarith
  rw [ha, hb]
  linear_combination -(v + d) * hone

/-- a point of a batch at three radii from the axis -/
example : 0 < √((3:ℝ)^2 + 0^2) ∧ √((3:ℝ)^2 + 0^2) ≠ 1 := by
  rw [show (3:ℝ)^2 + 0^2 = 3^2 by norm_num, sqrt_sq (by norm_num)]; norm_num

theorem longiField_zero (R : ℝ) (p : V3 ℝ) : longiField 0 R p = 0 := by
  have h : ∀ (s : Set ℝ) (f g : ℝ → V3 ℝ), biotSavart 0 s f g p = 0 := by
    intro s f g; unfold biotSavart; ext <;> simp
  unfold longiField
  simp only [h]
  unfold vint
  ext <;> simp

/-- `v` is close to `F`: within `e` transversally, and without axial component -/
def NearSwirl (e : ℝ) (F v : V3 ℝ) : Prop := |v.x - F.x| ≤ e ∧ |v.y - F.y| ≤ e ∧ v.z = 0 ∧ F.z = 0

theorem nearSwirl_zero : NearSwirl 0 0 0 := by simp [NearSwirl]

theorem nearSwirl_add {g g' : ℝ} {F F' v v' : V3 ℝ} (h : NearSwirl g F v) (h' : NearSwirl g' F' v') : NearSwirl (g + g') (F + F') (v + v') := by
  obtain ⟨a, b, c, d⟩ := h
  obtain ⟨a', b', c', d'⟩ := h'
  rw [abs_le] at *
  simp only [NearSwirl, abs_le, V3.add_x, V3.add_y, V3.add_z]
  refine ⟨⟨?_, ?_⟩, ⟨?_, ?_⟩, ?_, ?_⟩ <;> linarith [a.1, a.2, b.1, b.2]

theorem nearSwirl_one (Y : List (V3 ℝ)) (γ R : ℝ) (hR : 0 < R) (i : ℕ) (q : V3 ℝ) (hi : Y[i]? = some q)
    (hr : 0 < √(q.x^2 + q.y^2)) (hne : √(q.x^2 + q.y^2) ≠ R) :
    ∃ v, (vcLongi Y (.fin γ) R false)[i]? = some (V3.fin v) ∧ NearSwirl (3/100 * |γ| * R / √(q.x^2 + q.y^2)) (longiField γ R q) v := by
  obtain ⟨d, hd, h1⟩ := C77_accuracy Y γ R hR i q hi hr hne
  obtain ⟨w, -, h3, -⟩ := C77_disk_plane Y γ R hR i q hi hr hne
  refine ⟨_, h1, ?_⟩
  have hz : (longiField γ R q).z = 0 := by
    rw [h3] at h1
    have h4 := Option.some.inj h1
    simp only [V3.fin, V3.mk.injEq, Num.fin_inj, V3.add_z, V3.smul_z, mul_zero, add_zero] at h4
    exact h4.2.2.symm
  have hs : √(q.x^2 + q.y^2)^2 = q.x^2 + q.y^2 := sq_sqrt (by positivity)
  have hx : |q.x/√(q.x^2 + q.y^2)| ≤ 1 := by
    rw [abs_div, abs_of_pos hr, div_le_one hr]
    exact abs_le_of_sq_le_sq (by nlinarith [sq_nonneg q.y]) hr.le
  have hy : |q.y/√(q.x^2 + q.y^2)| ≤ 1 := by
    rw [abs_div, abs_of_pos hr, div_le_one hr]
    exact abs_le_of_sq_le_sq (by nlinarith [sq_nonneg q.x]) hr.le
  refine ⟨?_, ?_, by simp [hz], hz⟩
  · simp only [V3.add_x, V3.smul_x, add_sub_cancel_left, abs_mul]
    nlinarith [abs_nonneg d]
  · simp only [V3.add_y, V3.smul_y, add_sub_cancel_left, abs_mul, abs_neg]
    nlinarith [abs_nonneg d]

/-- one bundle of cylinders centred at the same place -/
theorem nearSwirl_bundle (Y : List (V3 ℝ)) (i : ℕ) (q : V3 ℝ) (hi : Y[i]? = some q) (cy : List (ℝ × ℝ))
    (hcy : ∀ c ∈ cy, c.1 ≠ 0 → 0 < c.2 ∧ 0 < √(q.x^2 + q.y^2) ∧ √(q.x^2 + q.y^2) ≠ c.2) :
    ∃ v, (((cy.map fun c => (Num.fin c.1, c.2)).filter fun c => 0 < Num.abs c.1).map fun c => (vcLongi Y c.1 c.2 false).getD i 0).sum = V3.fin v ∧
      NearSwirl (cy.map fun c => 3/100 * |c.1| * c.2 / √(q.x^2 + q.y^2)).sum (cy.map fun c => longiField c.1 c.2 q).sum v := by
  induction cy with
  | nil => exact ⟨0, rfl, nearSwirl_zero⟩
  | cons c cy ih =>
    obtain ⟨v, hv, n⟩ := ih fun c hc => hcy c (List.mem_cons_of_mem _ hc)
    simp only [List.map_cons, List.sum_cons, List.filter_cons]
    by_cases h0 : c.1 = 0
    · refine ⟨v, ?_, ?_⟩
      · rw [if_neg (by rw [h0]; simp)]; exact hv
      · have h0' : ∀ x : V3 ℝ, 0 + x = x := fun x => by ext <;> simp
        rw [h0, longiField_zero, abs_zero, mul_zero, zero_mul, zero_div, zero_add, h0']; exact n
    · obtain ⟨h1, h2, h3⟩ := hcy c List.mem_cons_self h0
      obtain ⟨v', hv', a⟩ := nearSwirl_one Y c.1 c.2 h1 i q hi h2 h3
      refine ⟨v' + v, ?_, nearSwirl_add a n⟩
      rw [if_pos (by simpa using h0)]
      simp only [List.map_cons, List.sum_cons]
      rw [hv, List.getD_eq_getElem?_getD, hv']
      ext <;> simp

/-- C77 for `vcs_longi_u`: for every number of rotors and of cylinders per rotor (the argument `Ground` is ignored), the velocity at a
point off the axes and radii of the cylinders is horizontal in the cylinder frame and within 3% of `Σ|γ|R/r` of the sum of the
Biot–Savart velocities of the cylinders. -/
theorem C77_multi (pts : List (V3 ℝ)) (rotors : List (V3 ℝ × List (ℝ × ℝ))) (Ground : Bool) (i : ℕ) (p : V3 ℝ) (hi : pts[i]? = some p)
    (all : List (V3 ℝ × ℝ × ℝ)) (hall : all = rotors.flatMap fun g => g.2.map fun c => (g.1, c.1, c.2))
    (dist : V3 ℝ → ℝ) (hdist : ∀ c, dist c = √((p.x - c.x)^2 + (p.y - c.y)^2))
    (hoff : ∀ c ∈ all, c.2.1 ≠ 0 → 0 < c.2.2 ∧ 0 < dist c.1 ∧ dist c.1 ≠ c.2.2) :
    ∃ u F : V3 ℝ, (vcsLongi pts (rotors.map fun g => ⟨g.1, g.2.map fun c => (Num.fin c.1, c.2)⟩) Ground)[i]? = some (V3.fin u) ∧
      F = (all.map fun c => longiField c.2.1 c.2.2 (p - c.1)).sum ∧ u.z = 0 ∧ F.z = 0 ∧
      |u.x - F.x| ≤ (all.map fun c => 3/100 * |c.2.1| * c.2.2 / dist c.1).sum ∧
      |u.y - F.y| ≤ (all.map fun c => 3/100 * |c.2.1| * c.2.2 / dist c.1).sum := by
  subst hall
  obtain ⟨hl, hs⟩ := C50_longi_sum pts (rotors.map fun g => ⟨g.1, g.2.map fun c => (Num.fin c.1, c.2)⟩) Ground
  have key : ∃ v, ((rotors.map fun g => (⟨g.1, g.2.map fun c => (Num.fin c.1, c.2)⟩ : CylGroup)).map fun g =>
        ((g.cyls.filter fun c => 0 < Num.abs c.1).map fun c =>
          (vcLongi (pts.map fun p => p - g.pos) c.1 c.2 false).getD i 0).sum).sum = V3.fin v ∧
      NearSwirl ((rotors.flatMap fun g => g.2.map fun c => (g.1, c.1, c.2)).map fun c => 3/100 * |c.2.1| * c.2.2 / dist c.1).sum
        ((rotors.flatMap fun g => g.2.map fun c => (g.1, c.1, c.2)).map fun c => longiField c.2.1 c.2.2 (p - c.1)).sum v := by
    clear hs hl
    induction rotors with
    | nil => exact ⟨0, rfl, nearSwirl_zero⟩
    | cons g rotors ih =>
      simp only [List.flatMap_cons, List.map_cons, List.sum_cons, List.map_append, List.sum_append] at ih hoff ⊢
      obtain ⟨v, hv, n⟩ := ih fun c hc => hoff c (List.mem_append_right _ hc)
      have hd : √((p - g.1).x^2 + (p - g.1).y^2) = dist g.1 := by rw [hdist]; rfl
      obtain ⟨v1, hv1, n1⟩ := nearSwirl_bundle (pts.map fun p => p - g.1) i (p - g.1) (by rw [List.getElem?_map, hi]; rfl) g.2 fun c hc h0 => by
        rw [hd]; exact hoff (g.1, c.1, c.2) (List.mem_append_left _ (List.mem_map_of_mem (f := fun c : ℝ × ℝ => (g.1, c.1, c.2)) hc)) h0
      rw [hd] at n1
      refine ⟨v1 + v, ?_, ?_⟩
      · rw [hv, hv1]; ext <;> simp
      · refine nearSwirl_add ?_ n
        simpa only [List.map_map, Function.comp_def] using n1
  obtain ⟨v, hv, n1, n2, n3, n4⟩ := key
  have hil : i < pts.length := by
    by_contra h
    rw [List.getElem?_eq_none (by omega)] at hi; exact nomatch hi
  have hget := hs i
  rw [hv, List.getD_eq_getElem?_getD, List.getElem?_eq_getElem (by omega)] at hget
  refine ⟨v, _, ?_, rfl, n3, n4, n1, n2⟩
  rw [List.getElem?_eq_getElem (by omega)]
  exact congrArg some hget

/-- two rotors, the first with two cylinders, and a point between their axes -/
example : ∀ c ∈ ([((⟨0,10,0⟩ : V3 ℝ), [((-1:ℝ), (5:ℝ)), (-1/2, 3)]), (⟨20,10,0⟩, [(-1, 5)])] : List (V3 ℝ × List (ℝ × ℝ))).flatMap
      (fun g => g.2.map fun c => (g.1, c.1, c.2)),
    c.2.1 ≠ 0 → 0 < c.2.2 ∧ 0 < √(((10:ℝ) - c.1.x)^2 + ((10:ℝ) - c.1.y)^2) ∧ √(((10:ℝ) - c.1.x)^2 + ((10:ℝ) - c.1.y)^2) ≠ c.2.2 := by
  have key : √(100:ℝ) = 10 := by rw [show (100:ℝ) = 10^2 by norm_num, sqrt_sq (by norm_num)]
  intro c hc _
  simp at hc
  rcases hc with rfl | rfl | rfl <;> norm_num [key]

end Wiz
