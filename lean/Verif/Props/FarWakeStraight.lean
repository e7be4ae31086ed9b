import Verif.Props.FarField
import Verif.Props.Mirror
/-! C106: the straight cylinder far upstream and far downstream of the disk. -/
namespace Wiz
open Spec Real MeasureTheory Set Filter Topology

theorem cylinderField_mirror (γ R : ℝ) (hR : 0 < R) (p : V3 ℝ) (hr : 0 < polarR p.x p.y) (hne : polarR p.x p.y ≠ R) :
    (cylinderField γ R p).x = (cylinderField γ R ⟨p.x, p.y, -p.z⟩).x ∧ (cylinderField γ R p).y = (cylinderField γ R ⟨p.x, p.y, -p.z⟩).y ∧
    (cylinderField γ R p).z = (if polarR p.x p.y < R then γ else 0) - (cylinderField γ R ⟨p.x, p.y, -p.z⟩).z := by
  have e : ∀ z, cylinderField γ R ⟨p.x, p.y, z⟩ = cylinderField γ R ⟨polarR p.x p.y * cos (arctan2 p.y p.x), polarR p.x p.y * sin (arctan2 p.y p.x), z⟩ := by
    intro z; rw [r_cos, r_sin]
  have e1 := e p.z
  have e2 := e (-p.z)
  rw [cylinderField_eq γ R _ _ _ hr hR hne] at e1 e2
  change cylinderField γ R p = _ at e1
  rw [e1, e2]
  unfold vcUr vcUz
  rw [vcM_neg]
  refine ⟨rfl, rfl, ?_⟩
  unfold vcT
  simp only [if_neg hne]
  split_ifs <;> ring

theorem cylinder_up (γ R : ℝ) (hR : 0 < R) (p : V3 ℝ) (hz : p.z ≤ -(5*R)) (π' : V3 ℝ → ℝ) (hπ : π' = V3.x ∨ π' = V3.y ∨ π' = V3.z) :
    |π' (cylinderField γ R p) - π' (V3.smul (-(γ * R^2 / 4) / √(p.x^2 + p.y^2 + p.z^2)^3) p)| ≤ 126 * |γ| * (R/|p.z|)^3 := by
  have hz0 : p.z < 0 := by linarith
  have habs : |p.z| = -p.z := abs_of_neg hz0
  have hδ : 5*R ≤ |p.z| := by linarith
  have hfar : ∀ z, 0 ≤ z → |p.z| ≤ V3.norm (p - ⟨0*z, 0, z⟩) := by
    intro z hz'
    unfold V3.norm
    apply le_sqrt_of_sq_le
    simp only [V3.sub_x, V3.sub_y, V3.sub_z]
    rw [sq_abs]
    nlinarith [sq_nonneg (p.x - 0*z), sq_nonneg (p.y - 0)]
  have hb := sheet_far γ hR hδ hfar π' hπ
  have hc := (C78_fields γ R hR p (offWake_far hR hδ hfar)).1
  rw [show γ * √(1+0^2) * (π*R^2) = γ * (π*R^2) by norm_num, hc, show (|γ| * √(1+0^2)) = |γ| by norm_num,
    doublet_line_straight _ _ (fun h => absurd h.2.2 (not_le.mpr hz0)), sink_value] at hb
  exact hb

theorem cylinder_far (γ R : ℝ) (hR : 0 < R) (p : V3 ℝ) (hz : 5*R ≤ |p.z|) (hr : 0 < polarR p.x p.y) (hne : polarR p.x p.y ≠ R) :
    |(cylinderField γ R p).x - -(γ * R^2 / 4) / √(p.x^2 + p.y^2 + p.z^2)^3 * p.x| ≤ 126 * |γ| * (R/|p.z|)^3 ∧
    |(cylinderField γ R p).y - -(γ * R^2 / 4) / √(p.x^2 + p.y^2 + p.z^2)^3 * p.y| ≤ 126 * |γ| * (R/|p.z|)^3 ∧
    |(cylinderField γ R p).z - ((if 0 < p.z ∧ polarR p.x p.y < R then γ else 0) - (γ * R^2 / 4) / √(p.x^2 + p.y^2 + p.z^2)^3 * p.z)|
      ≤ 126 * |γ| * (R/|p.z|)^3 := by
  rcases le_or_gt p.z 0 with h | h
  · rw [abs_of_nonpos h] at hz
    have H := fun π' hπ => cylinder_up γ R hR p (by linarith) π' hπ
    refine ⟨H V3.x (by simp), H V3.y (by simp), ?_⟩
    rw [if_neg (fun h' => absurd h'.1 (not_lt.mpr h))]
    refine le_of_eq_of_le (congrArg abs ?_) (H V3.z (by simp))
    simp only [V3.smul]; ring
  · rw [abs_of_pos h] at hz
    have H := fun π' hπ => cylinder_up γ R hR ⟨p.x, p.y, -p.z⟩ (by simp only; linarith) π' hπ
    obtain ⟨m1, m2, m3⟩ := cylinderField_mirror γ R hR p hr hne
    have hx := H V3.x (by simp)
    have hy := H V3.y (by simp)
    have hzz := H V3.z (by simp)
    simp only [V3.smul, abs_neg, neg_sq] at hx hy hzz
    rw [m1, m2, m3]
    refine ⟨hx, hy, ?_⟩
    simp only [h, true_and]
    rw [abs_sub_comm] at hzz
    refine le_of_eq_of_le (congrArg abs ?_) hzz
    ring

/-- C106: more than `5R` upstream or downstream of the disk, `vc_tang_u` is, in every batch, the velocity of a point sink of
strength `π R² γ` at the rotor centre, plus `γ` along the axis at the points downstream that are inside the wake; the
error is at most `126|γ|(R/|z|)³` per component (in the axial one, besides the truncation of the third-kind integral; it is
multiplied by a factor at most `1/2π`). -/
theorem C106_far (pts : List (V3 ℝ)) (γ R : ℝ) (hR : 0 < R) :
    ∃ (kF kJ : ℕ) (kC : ℕ → ℕ), (1 ≤ kF ∧ kF ≤ 20) ∧ (1 ≤ kJ ∧ kJ ≤ 20) ∧ (∀ j, 1 ≤ kC j ∧ kC j ≤ 20) ∧
    ∀ (i : ℕ) (p : V3 ℝ), pts[i]? = some p → 5*R ≤ |p.z| → 1e-7 * R ≤ √(p.x^2 + p.y^2) → √(p.x^2 + p.y^2) ≠ R →
      ∃ (r d n m c : ℝ) (u : V3 ℝ), r = √(p.x^2 + p.y^2) ∧ d = √(p.x^2 + p.y^2 + p.z^2) ∧ n = 4*r*R/(R+r)^2 ∧ m = 4*r*R/((R+r)^2 + p.z^2) ∧
        carlsonPi kF kJ kC (.fin n) (.fin m) = .fin c ∧ (vcTang pts (.fin γ) R 0)[i]? = some (V3.fin u) ∧
        |u.x - -(γ*R^2/4) * (p.x/d^3)| ≤ 126 * |γ| * (R/|p.z|)^3 ∧
        |u.y - -(γ*R^2/4) * (p.y/d^3)| ≤ 126 * |γ| * (R/|p.z|)^3 ∧
        |u.z - ((if 0 < p.z ∧ r < R then γ else 0) - (γ*R^2/4) * (p.z/d^3))|
          ≤ 126 * |γ| * (R/|p.z|)^3 + |γ|/(2*π) * |c - ellPi n m| := by
  obtain ⟨kF, kJ, kC, hF, hJ, hC, H⟩ := C47_batch pts γ R hR
  refine ⟨kF, kJ, kC, hF, hJ, hC, fun i p hi hz hax hne => ?_⟩
  have hr : 0 < polarR p.x p.y := lt_of_lt_of_le (by positivity) hax
  obtain ⟨r, n, m, c, e1, e2, e3, e4, e5⟩ := H i p hi hax hne (by rintro ⟨-, h2⟩; linarith)
  obtain ⟨f1, f2, f3⟩ := cylinder_far γ R hR p hz hr hne
  refine ⟨r, _, n, m, c, _, e1, rfl, e2, e3, e4, e5, ?_, ?_, ?_⟩
  · refine le_of_eq_of_le (congrArg abs ?_) f1
    simp only [V3.add_x]; ring
  · refine le_of_eq_of_le (congrArg abs ?_) f2
    simp only [V3.add_y]; ring
  · have e1' : polarR p.x p.y = r := e1.symm
    rw [e1'] at f3 hr
    simp only [V3.add_z]
    have hpi := pi_pos
    have hfac : |γ/2 * (p.z * √m / (2*π*√(r*R))) * ((R - r)/(R + r)) * (c - ellPi n m)| ≤ |γ|/(2*π) * |c - ellPi n m| := by
      rw [abs_mul]
      apply mul_le_mul_of_nonneg_right _ (abs_nonneg _)
      have hs : 0 < √(r*R) := sqrt_pos.mpr (mul_pos hr hR)
      have hp : 0 < (R+r)^2 + p.z^2 := by positivity
      have h1 : √m = 2*√(r*R)/√((R+r)^2 + p.z^2) := by
        rw [e3, sqrt_div (by positivity), show 4*r*R = 2^2*(r*R) by ring, sqrt_mul (by positivity), sqrt_sq (by norm_num)]
      have hq : 0 < √((R+r)^2 + p.z^2) := sqrt_pos.mpr hp
      have h2 : |p.z| ≤ √((R+r)^2 + p.z^2) := by
        apply le_sqrt_of_sq_le; rw [sq_abs]; nlinarith [sq_nonneg (R+r)]
      have h3 : p.z * √m / (2*π*√(r*R)) = p.z/√((R+r)^2 + p.z^2)/π := by
        rw [h1]; field_simp
      rw [h3, abs_mul, abs_mul, abs_div, abs_div, abs_div, abs_div, abs_of_pos hq, abs_of_pos hpi, abs_of_pos (show 0 < R + r by positivity),
        abs_of_pos (show (0:ℝ) < 2 by norm_num)]
      have h4 : |p.z|/√((R+r)^2 + p.z^2) ≤ 1 := by rw [div_le_one hq]; exact h2
      have h5 : |R - r|/(R+r) ≤ 1 := by
        rw [div_le_one (by positivity), abs_le]; constructor <;> linarith
      calc |γ|/2 * (|p.z|/√((R+r)^2 + p.z^2)/π) * (|R - r|/(R+r)) ≤ |γ|/2 * (1/π) * 1 := by gcongr
        _ = |γ|/(2*π) := by field_simp
    refine le_trans (le_of_eq_of_le (congrArg abs ?_) (abs_add_le _ _)) (add_le_add f3 hfac)
    ring

/-- C106 on the axis (within the axis cut-off), where there is no truncation: exact, and within `(R/z)⁴` of the same sink. -/
theorem C106_axis (pts : List (V3 ℝ)) (γ R : ℝ) (hR : 0 < R) (i : ℕ) (p : V3 ℝ) (hi : pts[i]? = some p)
    (hz0 : p.z ≠ 0) (hax : √(p.x^2 + p.y^2) < 1e-7 * R) :
    ∃ u : V3 ℝ, (vcTang pts (.fin γ) R 0)[i]? = some (V3.fin u) ∧ u.x = 0 ∧ u.y = 0 ∧
      |u.z - ((if 0 < p.z then γ else 0) - γ*R^2/4 * (p.z/|p.z|^3))| ≤ |γ|/4 * (R/|p.z|)^4 := by
  refine ⟨_, vcTang_axis pts γ R hR i p hi hax, rfl, rfl, ?_⟩
  simp only
  -- reduce to t = R²/z², s = sign z
  have ht : 0 < |p.z| := abs_pos.mpr hz0
  have hs : √(p.z^2 + R^2) = |p.z| * √(1 + (R/|p.z|)^2) := by
    rw [← sqrt_sq (abs_nonneg p.z), ← sqrt_mul (by positivity)]
    congr 1
    rw [sqrt_sq (abs_nonneg _)]
    field_simp
    rw [sq_abs]
  obtain ⟨q, hq⟩ : ∃ q, q = (R/|p.z|)^2 := ⟨_, rfl⟩
  have hq0 : 0 ≤ q := by rw [hq]; positivity
  have hw1 : 1 ≤ √(1+q) := by rw [le_sqrt' one_pos]; linarith
  have hw2 : √(1+q)^2 = 1+q := sq_sqrt (by linarith)
  have key : |1 - 1/√(1+q) - q/2| ≤ q^2/2 := by
    generalize √(1+q) = w at *
    have e : q = w^2 - 1 := by linarith
    have hw0 : 0 < w := by linarith
    have e2 : 1 - 1/w - q/2 = -((w-1)^2*(w+2)/(2*w)) := by rw [e]; field_simp; ring
    rw [e2, abs_neg, abs_of_nonneg (by have : 0 ≤ (w-1)^2 := sq_nonneg _; positivity), e, div_le_div_iff₀ (by positivity) (by norm_num)]
    have : w + 2 ≤ w * (w+1)^2 := by nlinarith [mul_pos hw0 hw0]
    nlinarith [sq_nonneg (w-1), mul_le_mul_of_nonneg_left this (sq_nonneg (w-1))]
  rcases lt_or_gt_of_ne hz0 with h | h
  · rw [if_neg (not_lt.mpr h.le), hs, ← hq]
    have ha : |p.z| = -p.z := abs_of_neg h
    have e : γ/2 * (1 + p.z/(|p.z| * √(1+q))) - (0 - γ*R^2/4 * (p.z/|p.z|^3)) = γ/2 * (1 - 1/√(1+q) - q/2) := by
      rw [hq]
      have hz' : p.z = -|p.z| := by linarith
      generalize |p.z| = a at *
      rw [hz']
      generalize √(1 + (R/a)^2) = w at *
      have : (0:ℝ) < √(1+q) := by linarith
      field_simp
      ring
    rw [e, abs_mul, abs_div, abs_of_pos (show (0:ℝ) < 2 by norm_num)]
    calc |γ|/2 * |1 - 1/√(1+q) - q/2| ≤ |γ|/2 * (q^2/2) := by gcongr
      _ = _ := by rw [hq]; ring
  · rw [if_pos h, hs, ← hq]
    have ha : |p.z| = p.z := abs_of_pos h
    have e : γ/2 * (1 + p.z/(|p.z| * √(1+q))) - (γ - γ*R^2/4 * (p.z/|p.z|^3)) = -(γ/2 * (1 - 1/√(1+q) - q/2)) := by
      rw [hq, ha]
      generalize p.z = a at *
      generalize √(1 + (R/a)^2) = w at *
      have : (0:ℝ) < √(1+q) := by linarith
      field_simp
      ring
    rw [e, abs_neg, abs_mul, abs_div, abs_of_pos (show (0:ℝ) < 2 by norm_num)]
    calc |γ|/2 * |1 - 1/√(1+q) - q/2| ≤ |γ|/2 * (q^2/2) := by gcongr
      _ = _ := by rw [hq]; ring

/-- the hypotheses of C106 are met inside the wake, outside it, upstream, and on the axis -/
example : (5:ℝ) * 1 ≤ |(10:ℝ)| ∧ (1e-7:ℝ) * 1 ≤ √((0.3:ℝ)^2 + 0.4^2) ∧ √((0.3:ℝ)^2 + 0.4^2) ≠ 1 ∧ √((0.3:ℝ)^2 + 0.4^2) < 1 ∧
    √((0:ℝ)^2 + 0^2) < 1e-7 * 1 := by
  rw [show (0.3:ℝ)^2 + 0.4^2 = 0.5^2 by norm_num, sqrt_sq (by norm_num)]
  norm_num

/-! ### C103 on the axis upstream of the rotor -/

theorem axis_far_scalars {R d r s : ℝ} (hR : 0 < R) (hd : 5*R ≤ d) (hs : 0 < s) (hr0 : 0 ≤ r) (hr : r ≤ 1/10000000 * R)
    (hd2 : d^2 = r^2 + s^2) :
    R^2/4 * (r/d^3) ≤ (R/d)^3 ∧ |R^2/4 * (s/d^3) - R^2/4 * (1/s^2)| ≤ (R/d)^3 ∧ 1/4 * (R/s)^4 ≤ (R/d)^3 := by
  have hd0 : 0 < d := by linarith
  have h9 : 9/10 * d ≤ s := by
    by_contra hh; push Not at hh; nlinarith
  have hsd : s ≤ d := by
    by_contra hh; push Not at hh; nlinarith
  have hds : d - s ≤ r := by
    by_contra hh; push Not at hh; nlinarith
  have e3 : (R/d)^3 = R^3/d^3 := by rw [div_pow]
  refine ⟨?_, ?_, ?_⟩
  · rw [e3, ← mul_div_assoc]
    gcongr
    nlinarith [sq_nonneg R, mul_le_mul_of_nonneg_left hr (sq_nonneg R)]
  · have e : R^2/4 * (s/d^3) - R^2/4 * (1/s^2) = -(R^2/4 * ((d^3 - s^3)/(s^2*d^3))) := by field_simp; ring
    have hc : 0 ≤ d^3 - s^3 := by
      have : s^3 ≤ d^3 := by gcongr
      linarith
    rw [e, abs_neg, abs_of_nonneg (by positivity), e3]
    have h1 : d^3 - s^3 ≤ 1/10000000 * R * (3*d^2) := by
      have f : d^3 - s^3 = (d - s) * (d^2 + d*s + s^2) := by ring
      rw [f]
      have g1 : d - s ≤ 1/10000000 * R := by linarith
      have g2 : d^2 + d*s + s^2 ≤ 3*d^2 := by nlinarith
      have g3 : 0 ≤ d^2 + d*s + s^2 := by positivity
      have g4 : 0 ≤ 1/10000000 * R := by positivity
      calc (d - s) * (d^2 + d*s + s^2) ≤ 1/10000000 * R * (d^2 + d*s + s^2) := by gcongr
        _ ≤ _ := by gcongr
    have h2 : 81/100 * d^2 ≤ s^2 := by nlinarith
    have h3 : (d^3 - s^3)/(s^2*d^3) ≤ R/d^3 := by
      rw [div_le_div_iff₀ (by positivity) (by positivity)]
      have : d^3 - s^3 ≤ R * s^2 := by nlinarith [mul_le_mul_of_nonneg_left h2 hR.le, mul_pos hR (pow_pos hd0 2)]
      have := mul_le_mul_of_nonneg_right this (show 0 ≤ d^3 by positivity)
      linarith
    calc R^2/4 * ((d^3 - s^3)/(s^2*d^3)) ≤ R^2/4 * (R/d^3) := by gcongr
      _ = 1/4 * (R^3/d^3) := by ring
      _ ≤ R^3/d^3 := by have : 0 < R^3/d^3 := by positivity
                        linarith
  · have h1 : R/s ≤ R/(9/10*d) := by gcongr
    have h2 : R/(9/10*d) = 10/9 * (R/d) := by field_simp
    have h3 : R/d ≤ 1/5 := by rw [div_le_iff₀ hd0]; linarith
    have h4 : 0 < R/d := by positivity
    have h5 : (R/s)^4 ≤ (10/9 * (R/d))^4 := by rw [← h2]; gcongr
    generalize R/d = t at *
    generalize (R/s)^4 = q at *
    have h6 : t^4 ≤ 1/5 * t^3 := by have : t^4 = t * t^3 := by ring
                                    rw [this]; gcongr
    have h7 : 0 < t^3 := by positivity
    have h8 : (10/9*t)^4 = 10000/6561 * t^4 := by ring
    linarith

/-- C103 (straight, inside the axis cut-off of `vc_tang_u`): at such a point, upstream of the rotor, the same bound holds and the
cylinder velocity has no truncation term. -/
theorem C103_axis (pts : List (V3 ℝ)) (γ R rCut : ℝ) (hR : 0 < R) (i : ℕ) (p : V3 ℝ) (δ : ℝ) (hi : pts[i]? = some p)
    (hδ : 5*R ≤ δ) (hδ8 : 2e-8 ≤ δ) (hfar : ∀ z, 0 ≤ z → δ ≤ V3.norm (p - ⟨0, 0, z⟩)) (hax : √(p.x^2 + p.y^2) < 1e-7 * R) :
    ∃ u D : V3 ℝ, (vcTang pts (.fin γ) R 0)[i]? = some (V3.fin u) ∧
      doubletLineU p (.fin γ * .fin (π*R^2)) 0 none = V3.fin D ∧
      (rCut * R < √(p.x^2 + p.y^2 + p.z^2) → 1e-8 ≤ √(p.x^2 + p.y^2) → 1e-8 ≤ |p.z| →
        (vcTangDoublet pts (.fin γ) R rCut)[i]? = some (V3.fin D)) ∧
      |u.x - D.x| ≤ 126 * |γ| * (R/δ)^3 ∧ |u.y - D.y| ≤ 126 * |γ| * (R/δ)^3 ∧ |u.z - D.z| ≤ 126 * |γ| * (R/δ)^3 := by
  have hfar' : ∀ z, 0 ≤ z → δ ≤ V3.norm (p - ⟨0*z, 0, z⟩) := by simpa using hfar
  have hr2 : √(p.x^2 + p.y^2)^2 = p.x^2 + p.y^2 := sq_sqrt (by positivity)
  have hs := sqrt_nonneg (p.x^2 + p.y^2)
  have hge : ∀ z, 0 ≤ z → δ^2 ≤ √(p.x^2 + p.y^2)^2 + (p.z - z)^2 := by
    intro z hz
    have h1 := hfar z hz
    have h2 : V3.norm (p - ⟨0, 0, z⟩)^2 = √(p.x^2 + p.y^2)^2 + (p.z - z)^2 := by
      rw [hr2]; unfold V3.norm; rw [sq_sqrt (by positivity)]; simp only [V3.sub_x, V3.sub_y, V3.sub_z, sub_zero]
    rw [← h2]; gcongr
  have hrR : √(p.x^2 + p.y^2) ≤ 1/10000000 * R := by norm_num at hax; linarith
  have hz : p.z < 0 := by
    by_contra hh
    push Not at hh
    have := hge p.z hh
    generalize √(p.x^2 + p.y^2) = r at *
    nlinarith
  have hline := far_off_line hδ8 hfar'
  have hD : doubletLineU p (.fin γ * .fin (π*R^2)) 0 none = V3.fin (V3.smul (-(γ * R^2 / 4) / √(p.x^2 + p.y^2 + p.z^2)^3) p) := by
    rw [Num.fin_mul, (C58_semi_infinite p _ 0).1 hline, doublet_line_straight _ _ (fun h => absurd h.2.2 (not_le.mpr hz)), sink_value]
  obtain ⟨u, hu, ux, uy, uz⟩ := C106_axis pts γ R hR i p hi hz.ne hax
  refine ⟨u, _, hu, hD, fun g1 g2 g3 => C49_outside pts γ R rCut hR i p hi g1 g2 g3, ?_⟩
  rw [if_neg (not_lt.mpr hz.le)] at uz
  have hd2 : √(p.x^2 + p.y^2 + p.z^2)^2 = √(p.x^2 + p.y^2)^2 + |p.z|^2 := by
    rw [hr2, sq_abs, sq_sqrt (by positivity)]
  have hdδ : δ ≤ √(p.x^2 + p.y^2 + p.z^2) := by
    apply le_sqrt_of_sq_le
    have := hge 0 le_rfl
    rw [hr2, sub_zero] at this; exact this
  have hx : |p.x| ≤ √(p.x^2 + p.y^2) := abs_le_sqrt (by nlinarith [sq_nonneg p.y])
  have hy : |p.y| ≤ √(p.x^2 + p.y^2) := abs_le_sqrt (by nlinarith [sq_nonneg p.x])
  have hzs : p.z = -|p.z| := by rw [abs_of_neg hz]; ring
  have hs0 : 0 < |p.z| := abs_pos.mpr hz.ne
  obtain ⟨a1, a2, a3⟩ := axis_far_scalars hR (hδ.trans hdδ) hs0 hs hrR hd2
  simp only [V3.smul]
  generalize √(p.x^2 + p.y^2 + p.z^2) = d at *
  generalize √(p.x^2 + p.y^2) = r at *
  have hd0 : 0 < d := by linarith
  have hδ0 : 0 < δ := by linarith
  have hdd : (R/d)^3 ≤ (R/δ)^3 := by gcongr
  have hlat : ∀ x : ℝ, |x| ≤ r → |0 - -(γ*R^2/4)/d^3 * x| ≤ 126 * |γ| * (R/δ)^3 := by
    intro x hx
    have e : |0 - -(γ*R^2/4)/d^3 * x| = |γ| * (R^2/4 * (|x|/d^3)) := by
      rw [show 0 - -(γ*R^2/4)/d^3 * x = γ * (R^2/4 * (x/d^3)) by ring, abs_mul, abs_mul, abs_div x,
        abs_of_pos (show (0:ℝ) < R^2/4 by positivity), abs_of_pos (show (0:ℝ) < d^3 by positivity)]
    rw [e]
    have h1 : R^2/4 * (|x|/d^3) ≤ R^2/4 * (r/d^3) := by gcongr
    have h2 := mul_le_mul_of_nonneg_left ((h1.trans a1).trans hdd) (abs_nonneg γ)
    have h3 : 0 ≤ |γ| * (R/δ)^3 := by positivity
    linarith
  refine ⟨?_, ?_, ?_⟩
  · rw [ux]; exact hlat _ hx
  · rw [uy]; exact hlat _ hy
  · generalize |p.z| = s at *
    rw [hzs] at uz ⊢
    have e : u.z - -(γ*R^2/4)/d^3 * -s = (u.z - (0 - γ*R^2/4 * (-s/s^3))) - γ * (R^2/4 * (s/d^3) - R^2/4 * (1/s^2)) := by
      field_simp; ring
    rw [e]
    refine (abs_sub _ _).trans ?_
    rw [abs_mul]
    have h1 := mul_le_mul_of_nonneg_left (a2.trans hdd) (abs_nonneg γ)
    have h2 := mul_le_mul_of_nonneg_left (a3.trans hdd) (abs_nonneg γ)
    have h3 : 0 ≤ |γ| * (R/δ)^3 := by positivity
    linarith

/-- the point `(0,0,-12)` upstream of a rotor of radius 1 -/
example : (∀ z, (0:ℝ) ≤ z → (12:ℝ) ≤ V3.norm ((⟨0, 0, -12⟩ : V3 ℝ) - ⟨0, 0, z⟩)) ∧ √((0:ℝ)^2 + 0^2) < 1e-7 * 1 := by
  refine ⟨fun z hz => ?_, by norm_num⟩
  unfold V3.norm
  apply le_sqrt_of_sq_le
  simp only [V3.sub_x, V3.sub_y, V3.sub_z]
  nlinarith

end Wiz
