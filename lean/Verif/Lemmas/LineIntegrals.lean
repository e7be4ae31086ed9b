import Mathlib.MeasureTheory.Integral.IntegralEqImproper
import Mathlib.MeasureTheory.Integral.IntervalIntegral.FundThmCalculus
import Mathlib.Analysis.SpecialFunctions.Sqrt
import Mathlib.Tactic.FieldSimp
import Mathlib.Tactic.LinearCombination
import Mathlib.Tactic.Positivity

/-!
# Integrals of powers of a quadratic along a half line

Pure mathematics used for vortex lines, doublet lines and skewed cylinders: primitives of
`s^j/(a²-2bs+c²s²)^(k/2)` and the resulting definite and improper integrals.
-/

namespace Wiz.LineInt
open Filter Topology MeasureTheory Set

variable {a b c : ℝ}

/-- the quadratic -/
def Q (a b c s : ℝ) : ℝ := a^2 - 2*b*s + c^2*s^2
/-- its square root -/
noncomputable def q (a b c s : ℝ) : ℝ := Real.sqrt (Q a b c s)

theorem Q_pos (hc : 0 < c) (hD : 0 < a^2*c^2 - b^2) (s : ℝ) : 0 < Q a b c s := by
  unfold Q
  have h : c^2 * (a^2 - 2*b*s + c^2*s^2) = (c^2*s - b)^2 + (a^2*c^2 - b^2) := by ring
  have h2 : 0 < c^2 * (a^2 - 2*b*s + c^2*s^2) := by rw [h]; positivity
  exact pos_of_mul_pos_right h2 (by positivity)

theorem q_sq (hQ : 0 ≤ Q a b c s) : q a b c s ^ 2 = a^2 - 2*b*s + c^2*s^2 := Real.sq_sqrt hQ

theorem q_pos (hQ : 0 < Q a b c s) : 0 < q a b c s := Real.sqrt_pos.mpr hQ

theorem q_hasDeriv (hQ : 0 < Q a b c s) :
    HasDerivAt (q a b c) ((c^2*s - b)/q a b c s) s := by
  have h : HasDerivAt (Q a b c) (-(2*b) + 2*c^2*s) s := by
    have h1 : HasDerivAt (fun s : ℝ => a^2 - 2*b*s + c^2*s^2) (0 - 2*b*1 + c^2*(2*s^1*1)) s :=
      (((hasDerivAt_const s (a^2)).sub ((hasDerivAt_id s).const_mul (2*b))).add
        (((hasDerivAt_id s).pow 2).const_mul (c^2)))
    exact h1.congr_deriv (by ring)
  have h2 := h.sqrt hQ.ne'
  refine HasDerivAt.congr_deriv h2 ?_
  unfold q
  have := (Real.sqrt_pos.mpr hQ).ne'
  field_simp
  ring

theorem q_zero (ha : 0 ≤ a) : q a b c 0 = a := by
  unfold q Q; simp [Real.sqrt_sq ha]

theorem q_div_tendsto (hc : 0 < c) : Tendsto (fun s => q a b c s / s) atTop (𝓝 c) := by
  have h0 : Tendsto (fun s : ℝ => s⁻¹) atTop (𝓝 0) := tendsto_inv_atTop_zero
  have h1 : Tendsto (fun s : ℝ => Real.sqrt (a^2*s⁻¹^2 - 2*b*s⁻¹ + c^2)) atTop
      (𝓝 (Real.sqrt (a^2*0^2 - 2*b*0 + c^2))) :=
    ((((h0.pow 2).const_mul (a^2)).sub (h0.const_mul (2*b))).add_const (c^2)).sqrt
  have h2 : Real.sqrt (a^2*0^2 - 2*b*0 + c^2) = c := by
    simp [Real.sqrt_sq hc.le]
  rw [h2] at h1
  refine h1.congr' ?_
  filter_upwards [eventually_gt_atTop 0] with s hs
  unfold q Q
  rw [← Real.sqrt_sq hs.le, ← Real.sqrt_div' _ (sq_nonneg s), Real.sqrt_sq hs.le]
  congr 1
  field_simp

/-- limit of a cubic over the cube of `q` -/
theorem cubic_tendsto (hc : 0 < c) (p0 p1 p2 p3 : ℝ) :
    Tendsto (fun s => (p0 + p1*s + p2*s^2 + p3*s^3)/q a b c s^3) atTop (𝓝 (p3/c^3)) := by
  have h0 : Tendsto (fun s : ℝ => s⁻¹) atTop (𝓝 0) := tendsto_inv_atTop_zero
  have hn : Tendsto (fun s : ℝ => p0*s⁻¹^3 + p1*s⁻¹^2 + p2*s⁻¹ + p3) atTop (𝓝 (p0*0^3 + p1*0^2 + p2*0 + p3)) :=
    (((((h0.pow 3).const_mul p0).add ((h0.pow 2).const_mul p1)).add (h0.const_mul p2)).add_const p3)
  have hq := (q_div_tendsto (a := a) (b := b) hc).pow 3
  have h := hn.div hq (by positivity)
  have e : (p0*0^3 + p1*0^2 + p2*0 + p3 : ℝ) = p3 := by ring
  rw [e] at h
  refine h.congr' ?_
  filter_upwards [eventually_gt_atTop 0] with s hs
  simp only [Pi.div_apply]
  by_cases hz : q a b c s = 0
  · simp [hz]
  · field_simp

/-- limit of an affine function over `q` -/
theorem affine_tendsto (hc : 0 < c) (p0 p1 : ℝ) :
    Tendsto (fun s => (p0 + p1*s)/q a b c s) atTop (𝓝 (p1/c)) := by
  have h0 : Tendsto (fun s : ℝ => s⁻¹) atTop (𝓝 0) := tendsto_inv_atTop_zero
  have hn : Tendsto (fun s : ℝ => p0*s⁻¹ + p1) atTop (𝓝 (p0*0 + p1)) := (h0.const_mul p0).add_const p1
  have h := hn.div (q_div_tendsto (a := a) (b := b) hc) hc.ne'
  rw [mul_zero, zero_add] at h
  refine h.congr' ?_
  filter_upwards [eventually_gt_atTop 0] with s hs
  simp only [Pi.div_apply]
  by_cases hz : q a b c s = 0
  · simp [hz]
  · field_simp

/-! ### primitives -/

theorem deriv_affine (hQ : 0 < Q a b c s) (p0 p1 : ℝ) :
    HasDerivAt (fun s => (p0 + p1*s)/q a b c s)
      ((p1*Q a b c s - (p0+p1*s)*(c^2*s - b))/q a b c s^3) s := by
  have h1 : HasDerivAt (fun s : ℝ => p0 + p1*s) (p1*1) s := ((hasDerivAt_id s).const_mul p1).const_add p0
  have h := h1.div (q_hasDeriv hQ) (q_pos hQ).ne'
  refine HasDerivAt.congr_deriv h ?_
  have hq := (q_pos hQ).ne'
  have e := q_sq hQ.le
  unfold Q
  rw [← e]
  field_simp

theorem deriv_cubic (hQ : 0 < Q a b c s) (p0 p1 p2 p3 : ℝ) :
    HasDerivAt (fun s => (p0 + p1*s + p2*s^2 + p3*s^3)/q a b c s^3)
      (((p1 + 2*p2*s + 3*p3*s^2)*Q a b c s - 3*(p0 + p1*s + p2*s^2 + p3*s^3)*(c^2*s - b))/q a b c s^5) s := by
  have h1 : HasDerivAt (fun s : ℝ => p0 + p1*s + p2*s^2 + p3*s^3) (p1*1 + p2*(2*s^1*1) + p3*(3*s^2*1)) s :=
    ((((hasDerivAt_id s).const_mul p1).const_add p0).add (((hasDerivAt_id s).pow 2).const_mul p2)).add
      (((hasDerivAt_id s).pow 3).const_mul p3)
  have h := h1.div ((q_hasDeriv hQ).pow 3) (pow_ne_zero 3 (q_pos hQ).ne')
  refine HasDerivAt.congr_deriv h ?_
  have hq := (q_pos hQ).ne'
  have e := q_sq hQ.le
  unfold Q
  rw [← e]
  simp only [Pi.pow_apply]
  field_simp
  push_cast
  ring

section
variable (hc : 0 < c) (hD : 0 < a^2*c^2 - b^2)
include hc hD

theorem prim30 (s : ℝ) : HasDerivAt (fun s => (-b/(a^2*c^2-b^2) + c^2/(a^2*c^2-b^2)*s)/q a b c s)
    (1/q a b c s^3) s := by
  have h := deriv_affine (Q_pos hc hD s) (-b/(a^2*c^2-b^2)) (c^2/(a^2*c^2-b^2))
  refine HasDerivAt.congr_deriv h ?_
  have hD' := hD.ne'
  congr 1
  unfold Q
  generalize hDd : a^2*c^2 - b^2 = D at *
  field_simp
  rw [← hDd]
  ring

theorem prim50 (s : ℝ) : HasDerivAt
    (fun s => (b*(b^2-3*a^2*c^2)/(a^2*c^2-b^2)^2 + 3*c^2*(b^2+a^2*c^2)/(a^2*c^2-b^2)^2*s
      + -6*b*c^4/(a^2*c^2-b^2)^2*s^2 + 2*c^6/(a^2*c^2-b^2)^2*s^3)/q a b c s^3)
    (3/q a b c s^5) s := by
  have h := deriv_cubic (Q_pos hc hD s) (b*(b^2-3*a^2*c^2)/(a^2*c^2-b^2)^2) (3*c^2*(b^2+a^2*c^2)/(a^2*c^2-b^2)^2)
    (-6*b*c^4/(a^2*c^2-b^2)^2) (2*c^6/(a^2*c^2-b^2)^2)
  refine HasDerivAt.congr_deriv h ?_
  have hD' := hD.ne'
  congr 1
  unfold Q
  generalize hDd : a^2*c^2 - b^2 = D at *
  field_simp
  rw [← hDd]
  ring

theorem prim51 (s : ℝ) : HasDerivAt
    (fun s => (-a^2*(b^2+a^2*c^2)/(a^2*c^2-b^2)^2 + 3*b*(b^2+a^2*c^2)/(a^2*c^2-b^2)^2*s
      + -6*b^2*c^2/(a^2*c^2-b^2)^2*s^2 + 2*b*c^4/(a^2*c^2-b^2)^2*s^3)/q a b c s^3)
    (3*s/q a b c s^5) s := by
  have h := deriv_cubic (Q_pos hc hD s) (-a^2*(b^2+a^2*c^2)/(a^2*c^2-b^2)^2) (3*b*(b^2+a^2*c^2)/(a^2*c^2-b^2)^2)
    (-6*b^2*c^2/(a^2*c^2-b^2)^2) (2*b*c^4/(a^2*c^2-b^2)^2)
  refine HasDerivAt.congr_deriv h ?_
  have hD' := hD.ne'
  congr 1
  unfold Q
  generalize hDd : a^2*c^2 - b^2 = D at *
  field_simp
  rw [← hDd]
  ring

theorem prim52 (s : ℝ) : HasDerivAt
    (fun s => (-2*a^4*b/(a^2*c^2-b^2)^2 + 6*a^2*b^2/(a^2*c^2-b^2)^2*s
      + -3*b*(b^2+a^2*c^2)/(a^2*c^2-b^2)^2*s^2 + c^2*(b^2+a^2*c^2)/(a^2*c^2-b^2)^2*s^3)/q a b c s^3)
    (3*s^2/q a b c s^5) s := by
  have h := deriv_cubic (Q_pos hc hD s) (-2*a^4*b/(a^2*c^2-b^2)^2) (6*a^2*b^2/(a^2*c^2-b^2)^2)
    (-3*b*(b^2+a^2*c^2)/(a^2*c^2-b^2)^2) (c^2*(b^2+a^2*c^2)/(a^2*c^2-b^2)^2)
  refine HasDerivAt.congr_deriv h ?_
  have hD' := hD.ne'
  congr 1
  unfold Q
  generalize hDd : a^2*c^2 - b^2 = D at *
  field_simp
  rw [← hDd]
  ring

end

theorem D_pos (h1 : -(a*c) < b) (h2 : b < a*c) : 0 < a^2*c^2 - b^2 := by
  have : 0 < (a*c - b)*(a*c + b) := mul_pos (by linarith) (by linarith)
  nlinarith

/-! ### improper integrals over `[0,∞)` -/
section
variable (ha : 0 < a) (hc : 0 < c) (h1 : -(a*c) < b) (h2 : b < a*c)
include ha hc h1 h2

theorem int30 : ∫ s in Ioi (0:ℝ), 1/q a b c s^3 = 1/(a*(a*c-b)) := by
  have hD := D_pos h1 h2
  have := integral_Ioi_of_hasDerivAt_of_nonneg' (a := (0:ℝ)) (fun s _ => prim30 hc hD s)
    (fun s _ => by have := q_pos (Q_pos hc hD s); positivity) (affine_tendsto hc _ _)
  rw [this, q_zero ha.le]
  clear this
  obtain ⟨u, rfl⟩ : ∃ u, b = a*c - u := ⟨a*c-b, by ring⟩
  obtain ⟨v, hv⟩ : ∃ v, v = 2*a*c - u := ⟨_, rfl⟩
  have e1 : u ≠ 0 := by linarith
  have e2 : v ≠ 0 := by rw [hv]; linarith
  rw [show a^2*c^2 - (a*c-u)^2 = u*v by rw [hv]; ring, show a*c - (a*c-u) = u by ring]
  field_simp
  rw [hv]
  ring

theorem int50 : ∫ s in Ioi (0:ℝ), 3/q a b c s^5 = (2*a*c-b)/(a^3*(a*c-b)^2) := by
  have hD := D_pos h1 h2
  have := integral_Ioi_of_hasDerivAt_of_nonneg' (a := (0:ℝ)) (fun s _ => prim50 hc hD s)
    (fun s _ => by have := q_pos (Q_pos hc hD s); positivity) (cubic_tendsto hc _ _ _ _)
  rw [this, q_zero ha.le]
  clear this
  obtain ⟨u, rfl⟩ : ∃ u, b = a*c - u := ⟨a*c-b, by ring⟩
  obtain ⟨v, hv⟩ : ∃ v, v = 2*a*c - u := ⟨_, rfl⟩
  have e1 : u ≠ 0 := by linarith
  have e2 : v ≠ 0 := by rw [hv]; linarith
  rw [show a^2*c^2 - (a*c-u)^2 = u*v by rw [hv]; ring, show a*c - (a*c-u) = u by ring]
  field_simp
  rw [hv]
  ring

theorem int51 : ∫ s in Ioi (0:ℝ), 3*s/q a b c s^5 = 1/(a*(a*c-b)^2) := by
  have hD := D_pos h1 h2
  have := integral_Ioi_of_hasDerivAt_of_nonneg' (a := (0:ℝ)) (fun s _ => prim51 hc hD s)
    (fun s hs => by have := q_pos (Q_pos hc hD s); have := mem_Ioi.mp hs; positivity) (cubic_tendsto hc _ _ _ _)
  rw [this, q_zero ha.le]
  clear this
  obtain ⟨u, rfl⟩ : ∃ u, b = a*c - u := ⟨a*c-b, by ring⟩
  obtain ⟨v, hv⟩ : ∃ v, v = 2*a*c - u := ⟨_, rfl⟩
  have e1 : u ≠ 0 := by linarith
  have e2 : v ≠ 0 := by rw [hv]; linarith
  rw [show a^2*c^2 - (a*c-u)^2 = u*v by rw [hv]; ring, show a*c - (a*c-u) = u by ring]
  field_simp
  rw [hv]
  ring

theorem int52 : ∫ s in Ioi (0:ℝ), 3*s^2/q a b c s^5 = 1/(c*(a*c-b)^2) := by
  have hD := D_pos h1 h2
  have := integral_Ioi_of_hasDerivAt_of_nonneg' (a := (0:ℝ)) (fun s _ => prim52 hc hD s)
    (fun s _ => by have := q_pos (Q_pos hc hD s); positivity) (cubic_tendsto hc _ _ _ _)
  rw [this, q_zero ha.le]
  clear this
  obtain ⟨u, rfl⟩ : ∃ u, b = a*c - u := ⟨a*c-b, by ring⟩
  obtain ⟨v, hv⟩ : ∃ v, v = 2*a*c - u := ⟨_, rfl⟩
  have e1 : u ≠ 0 := by linarith
  have e2 : v ≠ 0 := by rw [hv]; linarith
  rw [show a^2*c^2 - (a*c-u)^2 = u*v by rw [hv]; ring, show a*c - (a*c-u) = u by ring]
  field_simp
  rw [hv]
  ring

omit ha in
theorem integrable30 : IntegrableOn (fun s => 1/q a b c s^3) (Ioi (0:ℝ)) := by
  have hD := D_pos h1 h2
  exact integrableOn_Ioi_deriv_of_nonneg' (fun s _ => prim30 hc hD s)
    (fun s _ => by have := q_pos (Q_pos hc hD s); positivity) (affine_tendsto hc _ _)
omit ha in
theorem integrable50 : IntegrableOn (fun s => 3/q a b c s^5) (Ioi (0:ℝ)) := by
  have hD := D_pos h1 h2
  exact integrableOn_Ioi_deriv_of_nonneg' (fun s _ => prim50 hc hD s)
    (fun s _ => by have := q_pos (Q_pos hc hD s); positivity) (cubic_tendsto hc _ _ _ _)
omit ha in
theorem integrable51 : IntegrableOn (fun s => 3*s/q a b c s^5) (Ioi (0:ℝ)) := by
  have hD := D_pos h1 h2
  exact integrableOn_Ioi_deriv_of_nonneg' (fun s _ => prim51 hc hD s)
    (fun s hs => by have := q_pos (Q_pos hc hD s); have := mem_Ioi.mp hs; positivity) (cubic_tendsto hc _ _ _ _)
omit ha in
theorem integrable52 : IntegrableOn (fun s => 3*s^2/q a b c s^5) (Ioi (0:ℝ)) := by
  have hD := D_pos h1 h2
  exact integrableOn_Ioi_deriv_of_nonneg' (fun s _ => prim52 hc hD s)
    (fun s _ => by have := q_pos (Q_pos hc hD s); positivity) (cubic_tendsto hc _ _ _ _)
end

/-! ### the collinear case `b = -ac` (behind the start of the line) -/

theorem q_neg (ha : 0 < a) (hc : 0 < c) {s : ℝ} (hs : 0 ≤ s) : q a (-(a*c)) c s = a + c*s := by
  unfold q Q
  rw [show a^2 - 2*(-(a*c))*s + c^2*s^2 = (a+c*s)^2 by ring, Real.sqrt_sq (by positivity)]

theorem lin_deriv (a c s : ℝ) (n : ℕ) : HasDerivAt (fun s => (a + c*s)^n) (n*(a+c*s)^(n-1)*c) s := by
  have h1 : HasDerivAt (fun s : ℝ => a + c*s) (c*1) s := ((hasDerivAt_id s).const_mul c).const_add a
  have := h1.pow n
  refine HasDerivAt.congr_deriv this (by ring)

/-- derivative of a quadratic over `(a+cs)^n` -/
theorem quad_deriv (a c s p0 p1 p2 : ℝ) (n : ℕ) (h : a + c*s ≠ 0) :
    HasDerivAt (fun s => (p0 + p1*s + p2*s^2)/(a + c*s)^(n+1))
      (((p1 + 2*p2*s)*(a+c*s) - (p0+p1*s+p2*s^2)*((n+1)*c))/(a+c*s)^(n+2)) s := by
  have h1 : HasDerivAt (fun s : ℝ => p0 + p1*s + p2*s^2) (p1*1 + p2*(2*s^1*1)) s :=
    (((hasDerivAt_id s).const_mul p1).const_add p0).add (((hasDerivAt_id s).pow 2).const_mul p2)
  have h2 := h1.div (lin_deriv a c s (n+1)) (pow_ne_zero _ h)
  refine HasDerivAt.congr_deriv h2 ?_
  simp only [Nat.add_sub_cancel]
  push_cast
  clear h1 h2
  generalize a + c*s = w at *
  field_simp
  ring

theorem quad_tendsto (hc : 0 < c) (p0 p1 p2 : ℝ) (n : ℕ) :
    Tendsto (fun s => (p0 + p1*s + p2*s^2)/(a + c*s)^(n+3)) atTop (𝓝 0) := by
  have h0 : Tendsto (fun s : ℝ => s⁻¹) atTop (𝓝 0) := tendsto_inv_atTop_zero
  have hn : Tendsto (fun s : ℝ => (p0*s⁻¹^2 + p1*s⁻¹ + p2)*s⁻¹^(n+1)) atTop (𝓝 ((p0*0^2 + p1*0 + p2)*0^(n+1))) :=
    ((((h0.pow 2).const_mul p0).add (h0.const_mul p1)).add_const p2).mul (h0.pow (n+1))
  have hd : Tendsto (fun s : ℝ => (a*s⁻¹ + c)^(n+3)) atTop (𝓝 ((a*0 + c)^(n+3))) :=
    ((h0.const_mul a).add_const c).pow _
  have h := hn.div hd (by simp [hc.ne'])
  have e : (p0*0^2 + p1*0 + p2)*0^(n+1)/(a*0 + c)^(n+3) = (0:ℝ) := by simp
  rw [e] at h
  refine h.congr' ?_
  filter_upwards [eventually_gt_atTop 0] with s hs
  simp only [Pi.div_apply]
  have e1 : a*s⁻¹ + c = (a+c*s)/s := by field_simp
  rw [e1, div_pow, inv_pow, inv_pow]
  generalize a + c*s = w at *
  by_cases hz : w = 0
  · simp [hz]
  · field_simp
    ring

section
variable (ha : 0 < a) (hc : 0 < c)
include ha hc

theorem lin_pos {s : ℝ} (hs : 0 ≤ s) : 0 < a + c*s := by positivity

theorem int50' : ∫ s in Ioi (0:ℝ), 3/(a+c*s)^5 = 3/(4*c*a^4) := by
  have h : ∀ s ∈ Ici (0:ℝ), HasDerivAt (fun s => (-3/(4*c) + 0*s + 0*s^2)/(a + c*s)^4) (3/(a+c*s)^5) s := by
    intro s hs
    have hp := (lin_pos ha hc (mem_Ici.mp hs)).ne'
    refine HasDerivAt.congr_deriv (quad_deriv a c s _ _ _ 3 hp) ?_
    generalize hw : a + c*s = w at *
    push_cast
    field_simp
    rw [← hw]
    ring
  have := integral_Ioi_of_hasDerivAt_of_nonneg' (a := (0:ℝ)) h
    (fun s hs => by have := lin_pos ha hc (mem_Ioi.mp hs).le; positivity)
    (quad_tendsto hc _ _ _ 1)
  rw [this]; field_simp; ring

theorem int30' : ∫ s in Ioi (0:ℝ), 1/(a+c*s)^3 = 1/(2*c*a^2) := by
  have h : ∀ s ∈ Ici (0:ℝ), HasDerivAt (fun s => (-(a/(2*c)) + -(1/2)*s + 0*s^2)/(a + c*s)^3) (1/(a+c*s)^3) s := by
    intro s hs
    have hp := (lin_pos ha hc (mem_Ici.mp hs)).ne'
    refine HasDerivAt.congr_deriv (quad_deriv a c s _ _ _ 2 hp) ?_
    generalize hw : a + c*s = w at *
    push_cast
    field_simp
    rw [← hw]
    ring
  have := integral_Ioi_of_hasDerivAt_of_nonneg' (a := (0:ℝ)) h
    (fun s hs => by have := lin_pos ha hc (mem_Ioi.mp hs).le; positivity)
    (quad_tendsto hc _ _ _ 0)
  rw [this]; field_simp; ring

theorem int51' : ∫ s in Ioi (0:ℝ), 3*s/(a+c*s)^5 = 1/(4*c^2*a^3) := by
  have h : ∀ s ∈ Ici (0:ℝ), HasDerivAt (fun s => (-(a/(4*c^2)) + -(1/c)*s + 0*s^2)/(a + c*s)^4) (3*s/(a+c*s)^5) s := by
    intro s hs
    have hp := (lin_pos ha hc (mem_Ici.mp hs)).ne'
    refine HasDerivAt.congr_deriv (quad_deriv a c s _ _ _ 3 hp) ?_
    generalize hw : a + c*s = w at *
    push_cast
    field_simp
    rw [← hw]
    ring
  have := integral_Ioi_of_hasDerivAt_of_nonneg' (a := (0:ℝ)) h
    (fun s hs => by have := lin_pos ha hc (mem_Ioi.mp hs).le; have := mem_Ioi.mp hs; positivity)
    (quad_tendsto hc _ _ _ 1)
  rw [this]; field_simp; ring

theorem int52' : ∫ s in Ioi (0:ℝ), 3*s^2/(a+c*s)^5 = 1/(4*c^3*a^2) := by
  have h : ∀ s ∈ Ici (0:ℝ), HasDerivAt (fun s => (-(a^2/(4*c^3)) + -(a/c^2)*s + -(3/(2*c))*s^2)/(a + c*s)^4) (3*s^2/(a+c*s)^5) s := by
    intro s hs
    have hp := (lin_pos ha hc (mem_Ici.mp hs)).ne'
    refine HasDerivAt.congr_deriv (quad_deriv a c s _ _ _ 3 hp) ?_
    generalize hw : a + c*s = w at *
    push_cast
    field_simp
    rw [← hw]
    ring
  have := integral_Ioi_of_hasDerivAt_of_nonneg' (a := (0:ℝ)) h
    (fun s hs => by have := lin_pos ha hc (mem_Ioi.mp hs).le; positivity)
    (quad_tendsto hc _ _ _ 1)
  rw [this]; field_simp; ring
end

/-! ### both cases together -/
section
variable (ha : 0 < a) (hc : 0 < c) (h1 : -(a*c) ≤ b) (h2 : b < a*c)
include ha hc h1 h2

theorem int30g : ∫ s in Ioi (0:ℝ), 1/q a b c s^3 = 1/(a*(a*c-b)) := by
  rcases h1.lt_or_eq with h | h
  · exact int30 ha hc h h2
  · subst h
    rw [setIntegral_congr_fun (g := fun s => 1/(a+c*s)^3) measurableSet_Ioi
      (fun s hs => by simp only [q_neg ha hc (mem_Ioi.mp hs).le]), int30' ha hc]
    congr 1; ring
theorem int50g : ∫ s in Ioi (0:ℝ), 3/q a b c s^5 = (2*a*c-b)/(a^3*(a*c-b)^2) := by
  rcases h1.lt_or_eq with h | h
  · exact int50 ha hc h h2
  · subst h
    rw [setIntegral_congr_fun (g := fun s => 3/(a+c*s)^5) measurableSet_Ioi
      (fun s hs => by simp only [q_neg ha hc (mem_Ioi.mp hs).le]), int50' ha hc]
    rw [show 2*a*c - -(a*c) = 3*(a*c) by ring, show a*c - -(a*c) = 2*(a*c) by ring]
    field_simp; norm_num
theorem int51g : ∫ s in Ioi (0:ℝ), 3*s/q a b c s^5 = 1/(a*(a*c-b)^2) := by
  rcases h1.lt_or_eq with h | h
  · exact int51 ha hc h h2
  · subst h
    rw [setIntegral_congr_fun (g := fun s => 3*s/(a+c*s)^5) measurableSet_Ioi
      (fun s hs => by simp only [q_neg ha hc (mem_Ioi.mp hs).le]), int51' ha hc]
    congr 1; ring
theorem int52g : ∫ s in Ioi (0:ℝ), 3*s^2/q a b c s^5 = 1/(c*(a*c-b)^2) := by
  rcases h1.lt_or_eq with h | h
  · exact int52 ha hc h h2
  · subst h
    rw [setIntegral_congr_fun (g := fun s => 3*s^2/(a+c*s)^5) measurableSet_Ioi
      (fun s hs => by simp only [q_neg ha hc (mem_Ioi.mp hs).le]), int52' ha hc]
    congr 1; ring

omit ha hc h1 h2 in
theorem ig {f : ℝ → ℝ} {v : ℝ} (h : ∫ s in Ioi (0:ℝ), f s = v) (hv : v ≠ 0) : IntegrableOn f (Ioi 0) := by
  by_contra hn
  rw [integral_undef hn] at h
  exact hv h.symm

omit h1 in
theorem acb_pos : 0 < a*c - b ∧ 0 < 2*a*c - b := by
  have := mul_pos ha hc
  constructor <;> nlinarith

theorem integrable30g : IntegrableOn (fun s => 1/q a b c s^3) (Ioi (0:ℝ)) := by
  have := (acb_pos ha hc h2).1
  exact ig (int30g ha hc h1 h2) (by positivity)
theorem integrable50g : IntegrableOn (fun s => 3/q a b c s^5) (Ioi (0:ℝ)) := by
  have := acb_pos ha hc h2
  have h3 := this.1
  have h4 := this.2
  exact ig (int50g ha hc h1 h2) (by positivity)
theorem integrable51g : IntegrableOn (fun s => 3*s/q a b c s^5) (Ioi (0:ℝ)) := by
  have := (acb_pos ha hc h2).1
  exact ig (int51g ha hc h1 h2) (by positivity)
theorem integrable52g : IntegrableOn (fun s => 3*s^2/q a b c s^5) (Ioi (0:ℝ)) := by
  have := (acb_pos ha hc h2).1
  exact ig (int52g ha hc h1 h2) (by positivity)

/-- integral of a combination of the four integrands -/
theorem int_comb (k0 k1 k2 k3 : ℝ) :
    ∫ s in Ioi (0:ℝ), (k0*(3/q a b c s^5) + k1*(3*s/q a b c s^5) + k2*(3*s^2/q a b c s^5) + k3*(1/q a b c s^3))
      = k0*((2*a*c-b)/(a^3*(a*c-b)^2)) + k1*(1/(a*(a*c-b)^2)) + k2*(1/(c*(a*c-b)^2)) + k3*(1/(a*(a*c-b))) := by
  have i0 := (integrable50g ha hc h1 h2).const_mul k0
  have i1 := (integrable51g ha hc h1 h2).const_mul k1
  have i2 := (integrable52g ha hc h1 h2).const_mul k2
  have i3 := (integrable30g ha hc h1 h2).const_mul k3
  rw [integral_add (by exact (i0.add i1).add i2) i3, integral_add (by exact i0.add i1) i2, integral_add i0 i1,
    integral_const_mul, integral_const_mul, integral_const_mul, integral_const_mul, int50g ha hc h1 h2,
    int51g ha hc h1 h2, int52g ha hc h1 h2, int30g ha hc h1 h2]
end

/-! ### integrals over `[0,L]` -/

theorem q_continuous : Continuous (q a b c) := by
  unfold q Q; fun_prop

section
variable (hc : 0 < c) (hD : 0 < a^2*c^2 - b^2)
include hc hD

omit hc hD in
theorem fin_int {F g : ℝ → ℝ} (hF : ∀ s, HasDerivAt F (g s) s) (hg : Continuous g) (L : ℝ) :
    ∫ s in (0:ℝ)..L, g s = F L - F 0 :=
  intervalIntegral.integral_eq_sub_of_hasDerivAt (fun s _ => hF s) (hg.intervalIntegrable _ _)

theorem q_ne (s : ℝ) : q a b c s ≠ 0 := (q_pos (Q_pos hc hD s)).ne'

theorem cont30 : Continuous fun s => 1/q a b c s^3 :=
  continuous_const.div (q_continuous.pow 3) fun s => pow_ne_zero _ (q_ne hc hD s)
theorem cont50 : Continuous fun s => 3/q a b c s^5 :=
  continuous_const.div (q_continuous.pow 5) fun s => pow_ne_zero _ (q_ne hc hD s)
theorem cont51 : Continuous fun s => 3*s/q a b c s^5 :=
  (continuous_const.mul continuous_id).div (q_continuous.pow 5) fun s => pow_ne_zero _ (q_ne hc hD s)
theorem cont52 : Continuous fun s => 3*s^2/q a b c s^5 :=
  (continuous_const.mul (continuous_id.pow 2)).div (q_continuous.pow 5) fun s => pow_ne_zero _ (q_ne hc hD s)
end

end Wiz.LineInt
