import Verif.Lemmas.VortexCylinder

/-! # Properties of the right vortex cylinder (C40–C46) -/
namespace Wiz
open Spec Real Classical

/-- C40: on every batch of control points (axis, rotor edge, cylinder surface, anywhere) the
velocity of a cylinder of radius `R>0` is made of ordinary numbers, one per control point: no
`nan` placeholder, no `inf`. -/
theorem C40_finite (pts : List (V3 ℝ)) (γ R : ℝ) (hR : 0 < R) :
    ((vcTangPolar pts (.fin γ) R 0).length = pts.length ∧
      ∀ u ∈ vcTangPolar pts (.fin γ) R 0, u.1.IsFin ∧ u.2.IsFin) ∧
    ((vcTang pts (.fin γ) R 0).length = pts.length ∧ ∀ u ∈ vcTang pts (.fin γ) R 0, u.IsFin) := by
  rw [vcTangPolar_eval pts γ R hR, vcTang_eval pts γ R hR]
  refine ⟨⟨by simp, ?_⟩, by simp, ?_⟩
  · intro u hu
    simp only [List.mem_map] at hu
    obtain ⟨p, -, rfl⟩ := hu
    exact ⟨⟨_, rfl⟩, ⟨_, rfl⟩⟩
  · intro u hu
    simp only [List.mem_map] at hu
    obtain ⟨p, -, rfl⟩ := hu
    exact ⟨⟨_, rfl⟩, ⟨_, rfl⟩, ⟨_, rfl⟩⟩

theorem vcVal_linear (q : ℝ → ℝ → ℝ) (a γ1 γ2 R r z : ℝ) :
    vcVal q (a*γ1 + γ2) R r z =
      (a * (vcVal q γ1 R r z).1 + (vcVal q γ2 R r z).1, a * (vcVal q γ1 R r z).2 + (vcVal q γ2 R r z).2) := by
  unfold vcVal
  split_ifs
  · ext <;> simp; ring
  · ext <;> simp; ring
  · ext <;> simp only [vcUr, vcUz] <;> ring

/-- C41: the velocity is linear in the strength, on every batch. -/
theorem C41_linear (pts : List (V3 ℝ)) (a γ1 γ2 R : ℝ) (hR : 0 < R) :
    vcTang pts (.fin (a*γ1 + γ2)) R 0 =
      List.zipWith (fun u v => V3.smul (.fin a) u + v) (vcTang pts (.fin γ1) R 0) (vcTang pts (.fin γ2) R 0) ∧
    vcTangPolar pts (.fin (a*γ1 + γ2)) R 0 =
      List.zipWith (fun u v => (.fin a * u.1 + v.1, .fin a * u.2 + v.2))
        (vcTangPolar pts (.fin γ1) R 0) (vcTangPolar pts (.fin γ2) R 0) := by
  rw [vcTang_eval _ _ _ hR, vcTang_eval _ _ _ hR, vcTang_eval _ _ _ hR,
    vcTangPolar_eval _ _ _ hR, vcTangPolar_eval _ _ _ hR, vcTangPolar_eval _ _ _ hR]
  simp only [List.zipWith_map, List.zipWith_self]
  constructor
  · apply List.map_congr_left
    intro p _
    rw [vcVal_linear]
    ext <;> simp <;> ring
  · apply List.map_congr_left
    intro p _
    rw [vcVal_linear]
    simp

/-- C41: two co-located cylinders of opposite strengths cancel exactly. -/
theorem C41_cancel (pts : List (V3 ℝ)) (γ R : ℝ) (hR : 0 < R) :
    addFields (vcTang pts (.fin γ) R 0) (vcTang pts (.fin (-γ)) R 0) = pts.map fun _ => (0 : V3 Num) := by
  unfold addFields
  rw [vcTang_eval _ _ _ hR, vcTang_eval _ _ _ hR]
  simp only [List.zipWith_map, List.zipWith_self]
  apply List.map_congr_left
  intro p _
  have := vcVal_linear (piReal (vcBatch pts R 0)) (-1) γ 0 R (polarR p.x p.y) p.z
  have h0 : ∀ r z, vcVal (piReal (vcBatch pts R 0)) 0 R r z = (0, 0) := by
    intro r z; unfold vcVal vcUr vcUz; split_ifs <;> simp
  rw [h0, show (-1 * γ + 0) = -γ by ring] at this
  rw [this]
  ext <;> simp

/-- C42: the polar output depends only on the radii and heights of the control points. -/
theorem C42_polar (pts1 pts2 : List (V3 ℝ)) (g : Num) (R eps : ℝ)
    (h : pts1.map (fun p => (√(p.x^2 + p.y^2), p.z)) = pts2.map (fun p => (√(p.x^2 + p.y^2), p.z))) :
    vcTangPolar pts1 g R eps = vcTangPolar pts2 g R eps := by
  have h' : (pts1.map fun p => (polarR p.x p.y, p.z)) = pts2.map fun p => (polarR p.x p.y, p.z) := h
  unfold vcTangPolar
  rw [h']

example : ([⟨3, 4, 1⟩] : List (V3 ℝ)).map (fun p => (√(p.x^2 + p.y^2), p.z))
    = ([⟨-5, 0, 1⟩] : List (V3 ℝ)).map (fun p => (√(p.x^2 + p.y^2), p.z)) := by
  norm_num

theorem vcVal_axis (q : ℝ → ℝ → ℝ) (γ R z : ℝ) (hR : 0 < R) : (vcVal q γ R 0 z).1 = 0 := by
  unfold vcVal
  split_ifs with h1 h2
  · rfl
  · rfl
  · exfalso; apply h2; positivity

/-- the horizontal velocity is `ur` times the unit radial vector -/
theorem vcVal_dir (q : ℝ → ℝ → ℝ) (γ R x y z : ℝ) (hR : 0 < R) :
    (vcVal q γ R (polarR x y) z).1 * cos (arctan2 y x) = (vcVal q γ R (polarR x y) z).1 * (x / polarR x y) ∧
    (vcVal q γ R (polarR x y) z).1 * sin (arctan2 y x) = (vcVal q γ R (polarR x y) z).1 * (y / polarR x y) := by
  by_cases h : x = 0 ∧ y = 0
  · have h0 : polarR x y = 0 := polarR_eq_zero.mpr h
    rw [h0, vcVal_axis _ _ _ _ hR]; simp
  · have h' : x ≠ 0 ∨ y ≠ 0 := by tauto
    rw [cos_arctan2 h', sin_arctan2 h']; exact ⟨rfl, rfl⟩

/-- C42: the Cartesian output is the polar output placed along the radial direction:
`(ux,uy) = ur (x,y)/r` (with `0` on the axis), `uz` unchanged. -/
theorem C42_direction (pts : List (V3 ℝ)) (γ R : ℝ) (hR : 0 < R) :
    vcTang pts (.fin γ) R 0 = List.zipWith (fun p u =>
      ⟨u.1 * .fin (p.x / √(p.x^2 + p.y^2)), u.1 * .fin (p.y / √(p.x^2 + p.y^2)), u.2⟩)
      pts (vcTangPolar pts (.fin γ) R 0) := by
  rw [vcTang_eval _ _ _ hR, vcTangPolar_eval _ _ _ hR, List.zipWith_map_right, List.zipWith_self]
  apply List.map_congr_left
  intro p _
  obtain ⟨h1, h2⟩ := vcVal_dir (piReal (vcBatch pts R 0)) γ R p.x p.y p.z hR
  ext
  · exact congrArg Num.fin h1
  · exact congrArg Num.fin h2
  · rfl

/-- C42: rotating the control points about the axis rotates the velocities. -/
theorem C42_rotation (pts : List (V3 ℝ)) (γ R α : ℝ) (hR : 0 < R) :
    vcTang (pts.map fun p => ⟨p.x * cos α - p.y * sin α, p.x * sin α + p.y * cos α, p.z⟩) (.fin γ) R 0 =
      (vcTang pts (.fin γ) R 0).map fun u =>
        ⟨u.x * .fin (cos α) - u.y * .fin (sin α), u.x * .fin (sin α) + u.y * .fin (cos α), u.z⟩ := by
  have hr : ∀ p : V3 ℝ, polarR (p.x * cos α - p.y * sin α) (p.x * sin α + p.y * cos α) = polarR p.x p.y := by
    intro p; unfold polarR; congr 1
    linear_combination (p.x^2 + p.y^2) * sin_sq_add_cos_sq α
  have hp := C42_polar (pts.map fun p => ⟨p.x * cos α - p.y * sin α, p.x * sin α + p.y * cos α, p.z⟩) pts (.fin γ) R 0 (by
    rw [List.map_map]
    apply List.map_congr_left
    intro p _
    exact Prod.ext (hr p) rfl)
  rw [C42_direction _ _ _ hR, hp, C42_direction _ _ _ hR, List.zipWith_map_left, List.map_zipWith]
  rw [vcTangPolar_eval _ _ _ hR]
  simp only [List.zipWith_map_right, List.zipWith_self]
  apply List.map_congr_left
  intro p _
  have hr' := hr p
  unfold polarR at hr'
  rw [hr']
  ext <;> simp <;> ring

/-- C42: mirroring the control points in the plane `y=0` mirrors the velocities. -/
theorem C42_mirror (pts : List (V3 ℝ)) (γ R : ℝ) (hR : 0 < R) :
    vcTang (pts.map fun p => ⟨p.x, -p.y, p.z⟩) (.fin γ) R 0 =
      (vcTang pts (.fin γ) R 0).map fun u => ⟨u.x, -u.y, u.z⟩ := by
  have hp := C42_polar (pts.map fun p => ⟨p.x, -p.y, p.z⟩) pts (.fin γ) R 0 (by
    rw [List.map_map]
    apply List.map_congr_left
    intro p _
    simp)
  rw [C42_direction _ _ _ hR, hp, C42_direction _ _ _ hR, List.zipWith_map_left, List.map_zipWith]
  rw [vcTangPolar_eval _ _ _ hR]
  simp only [List.zipWith_map_right, List.zipWith_self]
  apply List.map_congr_left
  intro p _
  ext <;> simp; ring

/-- C43: in the rotor plane the axial velocity is `γ/2` inside the cylinder, `γ/4` on the edge
(the code's edge is the band `|r-R|<1e-8R`), `0` outside, for every point of every batch. -/
theorem C43_rotor_plane (pts : List (V3 ℝ)) (γ R : ℝ) (hR : 0 < R) (i : ℕ) (p : V3 ℝ) (hi : pts[i]? = some p)
    (hz : p.z = 0) :
    ∃ ur : ℝ, (vcTangPolar pts (.fin γ) R 0)[i]? = some (.fin ur, .fin (
      if |√(p.x^2 + p.y^2) - R| < 1e-8 * R then γ/4
      else if √(p.x^2 + p.y^2) < R then γ/2 else 0)) := by
  rw [vcTangPolar_eval _ _ _ hR, List.getElem?_map, hi, Option.map_some]
  refine ⟨_, congrArg some (pair_fin rfl ?_)⟩
  change _ = if |polarR p.x p.y - R| < 1e-8 * R then γ/4 else if polarR p.x p.y < R then γ/2 else 0
  have h0 : |p.z| < 1e-8 * R := by rw [hz, abs_zero]; positivity
  generalize polarR p.x p.y = r
  unfold vcVal
  simp only [h0, and_true]
  by_cases h1 : |r - R| < 1e-8 * R
  · simp only [if_pos h1]
  · simp only [if_neg h1]
    by_cases h2 : r < 1e-7 * R
    · have : r < R := by linarith
      simp only [if_pos h2, if_pos this, hz]; simp
    · simp only [if_neg h2, vcUz, hz, zero_mul, zero_div, add_zero, vcT]
      split_ifs with h3 h4
      · ring
      · exfalso; apply h1; rw [h4]; simp only [sub_self, abs_zero]; positivity
      · ring

example : ([⟨0.3, 0.4, 0⟩, ⟨3, 4, 0⟩] : List (V3 ℝ))[1]? = some ⟨3, 4, 0⟩ := rfl

theorem vcM_neg (R r z : ℝ) : vcM R r (-z) = vcM R r z := by unfold vcM; rw [neg_sq]

theorem vcBatch_congr {pts1 pts2 : List (V3 ℝ)} {R1 R2 : ℝ} (f : V3 ℝ → V3 ℝ) (h : pts2 = pts1.map f)
    (h1 : ∀ p ∈ pts1, (vcAxis R2 (polarR (f p).x (f p).y) ∨ vcEdge R2 (polarR (f p).x (f p).y) (f p).z) ↔
        (vcAxis R1 (polarR p.x p.y) ∨ vcEdge R1 (polarR p.x p.y) p.z))
    (h2 : ∀ p ∈ pts1, vcK02 R2 0 (polarR (f p).x (f p).y) (f p).z = vcK02 R1 0 (polarR p.x p.y) p.z ∧
      vcK2 R2 0 (polarR (f p).x (f p).y) (f p).z = vcK2 R1 0 (polarR p.x p.y) p.z) :
    vcBatch pts2 R2 0 = vcBatch pts1 R1 0 := by
  subst h
  unfold vcBatch
  induction pts1 with
  | nil => rfl
  | cons p ps ih =>
    have ih' := ih (fun q hq => h1 q (by simp [hq])) (fun q hq => h2 q (by simp [hq]))
    have e1 := h1 p (by simp)
    obtain ⟨e2, e3⟩ := h2 p (by simp)
    simp only [List.map_cons, List.filter_cons]
    simp only [e1]
    split_ifs
    · rw [List.map_cons, List.map_cons, ih', e2, e3]
    · exact ih'

/-- C44: a semi-infinite cylinder plus its mirror image in the rotor plane is the infinite
cylinder: at every point outside the edge band, `uz(r,z)+uz(r,-z)` is `γ` inside, `γ/2` on the
surface, `0` outside, and `ur(r,z)=ur(r,-z)`. -/
theorem C44_two_halves (pts : List (V3 ℝ)) (γ R : ℝ) (hR : 0 < R) (i : ℕ) (p : V3 ℝ) (hi : pts[i]? = some p)
    (hoff : ¬ (|√(p.x^2 + p.y^2) - R| < 1e-8 * R ∧ |p.z| < 1e-8 * R)) :
    ∃ ur uz uz' : ℝ, (vcTangPolar pts (.fin γ) R 0)[i]? = some (.fin ur, .fin uz) ∧
      (vcTangPolar (pts.map fun p => ⟨p.x, p.y, -p.z⟩) (.fin γ) R 0)[i]? = some (.fin ur, .fin uz') ∧
      uz + uz' = if √(p.x^2 + p.y^2) < R then γ else if √(p.x^2 + p.y^2) = R then γ/2 else 0 := by
  have hb : vcBatch (pts.map fun p => ⟨p.x, p.y, -p.z⟩) R 0 = vcBatch pts R 0 := by
    apply vcBatch_congr (fun p => ⟨p.x, p.y, -p.z⟩) rfl
    · intro p _; simp only [vcEdge_iff hR, abs_neg]
    · intro p _
      simp only [vcK2_fin hR (polarR_nonneg _ _), vcK02_fin hR (polarR_nonneg _ _), vcM_neg, and_self]
  rw [vcTangPolar_eval _ _ _ hR, vcTangPolar_eval _ _ _ hR, hb, List.getElem?_map, hi, Option.map_some, List.getElem?_map,
    List.getElem?_map, hi, Option.map_some, Option.map_some]
  generalize piReal (vcBatch pts R 0) = q
  have hoff1 : ¬ (|polarR p.x p.y - R| < 1e-8 * R ∧ |p.z| < 1e-8 * R) := hoff
  have hoff2 : ¬ (|polarR p.x p.y - R| < 1e-8 * R ∧ |-p.z| < 1e-8 * R) := by rwa [abs_neg]
  change ∃ ur uz uz' : ℝ, _ ∧ _ ∧ uz + uz' = if polarR p.x p.y < R then γ else if polarR p.x p.y = R then γ/2 else 0
  simp only
  generalize polarR p.x p.y = r at *
  generalize p.z = z at *
  refine ⟨_, _, _, rfl, congrArg some (pair_fin ?_ rfl), ?_⟩
  · simp only [vcVal, if_neg hoff1, if_neg hoff2]
    split_ifs
    · rfl
    · simp only [vcUr, vcM_neg]
  · simp only [vcVal, if_neg hoff1, if_neg hoff2]
    by_cases h2 : r < 1e-7 * R
    · have : r < R := by linarith
      simp only [if_pos h2, if_pos this, neg_sq]; ring
    · simp only [if_neg h2, vcUz, vcM_neg, vcT]
      split_ifs <;> ring

theorem vcM_scale {c : ℝ} (hc : 0 < c) (R r z : ℝ) : vcM (c*R) (c*r) (c*z) = vcM R r z := by
  unfold vcM
  rw [show 4*(c*r)*(c*R) = c^2*(4*r*R) by ring, show (c*R + c*r)^2 + (c*z)^2 = c^2*((R+r)^2+z^2) by ring,
    mul_div_mul_left _ _ (by positivity)]
theorem vcN_scale {c : ℝ} (hc : 0 < c) (R r : ℝ) : vcN (c*R) (c*r) = vcN R r := by
  unfold vcN
  rw [show 4*(c*r)*(c*R) = c^2*(4*r*R) by ring, show (c*R + c*r)^2 = c^2*((R+r)^2) by ring,
    mul_div_mul_left _ _ (by positivity)]
theorem polarR_scale {c : ℝ} (hc : 0 ≤ c) (x y : ℝ) : polarR (c*x) (c*y) = c * polarR x y := by
  unfold polarR
  rw [show (c*x)^2 + (c*y)^2 = c^2*(x^2+y^2) by ring, sqrt_mul (by positivity), sqrt_sq hc]
theorem scale_lt {c : ℝ} (hc : 0 < c) (k R r : ℝ) : c*r < k*(c*R) ↔ r < k*R := by
  rw [show k*(c*R) = c*(k*R) by ring]; exact mul_lt_mul_iff_right₀ hc

theorem vcVal_scale {c R : ℝ} (hc : 0 < c) (q : ℝ → ℝ → ℝ) (γ r z : ℝ) :
    vcVal q γ (c*R) (c*r) (c*z) = vcVal q γ R r z := by
  have e1 : |c*r - c*R| = c*|r-R| := by rw [← mul_sub, abs_mul, abs_of_pos hc]
  have e2 : |c*z| = c*|z| := by rw [abs_mul, abs_of_pos hc]
  have e3 : c*r < c*R ↔ r < R := mul_lt_mul_iff_right₀ hc
  have e4 : c*r = c*R ↔ r = R := mul_right_inj' hc.ne'
  have e5 : (c*z)/√((c*z)^2 + (c*R)^2) = z/√(z^2+R^2) := by
    rw [show (c*z)^2 + (c*R)^2 = c^2*(z^2+R^2) by ring, sqrt_mul (by positivity), sqrt_sq hc.le, mul_div_mul_left _ _ hc.ne']
  have e6 : c*R/(c*r) = R/r := mul_div_mul_left _ _ hc.ne'
  have e7 : √(c*r*(c*R)) = c*√(r*R) := by
    rw [show c*r*(c*R) = c^2*(r*R) by ring, sqrt_mul (by positivity), sqrt_sq hc.le]
  have e8 : (c*R-c*r)/(c*R+c*r) = (R-r)/(R+r) := by rw [← mul_sub, ← mul_add, mul_div_mul_left _ _ hc.ne']
  unfold vcVal vcUr vcUz vcT
  simp only [e1, e2, scale_lt hc, vcM_scale hc, vcN_scale hc, e3, e4, e5, e6, e7, e8]
  have e9 : ∀ m, c*z*m/(2*π*(c*√(r*R))) = z*m/(2*π*√(r*R)) := by
    intro m
    rw [show c*z*m = c*(z*m) by ring, show 2*π*(c*√(r*R)) = c*(2*π*√(r*R)) by ring, mul_div_mul_left _ _ hc.ne']
  simp only [e9]

/-- C46: scaling the points and the radius by a common factor leaves the velocities unchanged,
in every branch and on every batch. -/
theorem C46_scale (pts : List (V3 ℝ)) (γ R c : ℝ) (hR : 0 < R) (hc : 0 < c) :
    vcTang (pts.map fun p => ⟨c*p.x, c*p.y, c*p.z⟩) (.fin γ) (c*R) 0 = vcTang pts (.fin γ) R 0 := by
  have hcR : 0 < c*R := by positivity
  have hb : vcBatch (pts.map fun p => ⟨c*p.x, c*p.y, c*p.z⟩) (c*R) 0 = vcBatch pts R 0 := by
    apply vcBatch_congr (fun p => ⟨c*p.x, c*p.y, c*p.z⟩) rfl
    · intro p _
      simp only [vcEdge_iff hR, vcEdge_iff hcR, vcAxis, polarR_scale hc.le, ← mul_sub, abs_mul, abs_of_pos hc, scale_lt hc]
    · intro p _
      have h0 : 0 ≤ c * polarR p.x p.y := mul_nonneg hc.le (polarR_nonneg _ _)
      simp only [polarR_scale hc.le, vcK2_fin hR (polarR_nonneg _ _), vcK02_fin hR (polarR_nonneg _ _), vcK2_fin hcR h0,
        vcK02_fin hcR h0, vcM_scale hc, vcN_scale hc, and_self]
  rw [C42_direction _ _ _ hcR, C42_direction _ _ _ hR, vcTangPolar_eval _ _ _ hcR, vcTangPolar_eval _ _ _ hR, hb]
  rw [List.map_map, List.zipWith_map, List.zipWith_self, List.zipWith_map_right, List.zipWith_self]
  apply List.map_congr_left
  intro p _
  simp only [Function.comp_def, polarR_scale hc.le, vcVal_scale hc]
  have := polarR_scale hc.le p.x p.y
  unfold polarR at this
  rw [this]
  simp only [mul_div_mul_left _ _ hc.ne']

/-! ### Finite cylinders -/

theorem raw_map (pts : List (V3 ℝ)) (γ R : ℝ) (hR : 0 < R)
    (hreg : ∀ p ∈ pts, 0 < polarR p.x p.y ∧ polarR p.x p.y ≠ R) :
    cylinderTangSemiInfRaw pts (.fin γ) R = pts.map fun p =>
      (.fin (vcUr γ R (polarR p.x p.y) p.z),
       .fin (vcUz γ R (polarR p.x p.y) p.z (piReal (pts.map fun p => (vcK02 R 0 (polarR p.x p.y) p.z, vcK2 R 0 (polarR p.x p.y) p.z))
          (vcN R (polarR p.x p.y)) (vcM R (polarR p.x p.y) p.z)))) := by
  unfold cylinderTangSemiInfRaw
  simp only
  rw [piOf_map]
  simp only [List.map_map, List.zipWith_map, List.zipWith_self]
  apply List.map_congr_left
  intro p hp
  obtain ⟨hr, hne⟩ := hreg p hp
  simp only [Function.comp_def]
  generalize (pts.map fun p => (vcK02 R 0 (polarR p.x p.y) p.z, vcK2 R 0 (polarR p.x p.y) p.z)) = nm
  generalize polarR p.x p.y = r at *
  generalize p.z = z at *
  have hne2 : ¬ (r = R ∧ z = 0) := fun h => hne h.1
  have hm0 := vcM_pos hR hr z
  have hm := vcM_lt hR hr.le hne2
  have hs := sqrt_pos.mpr hm0
  have hpi := pi_pos
  have hrR : 0 < r*R := mul_pos hr hR
  have hsr := sqrt_pos.mpr hrR
  have d2 : ∀ a : ℝ, Num.fin a / Num.fin 2 = Num.fin (a/2) := fun a => Num.fin_div two_ne_zero
  have habs : 2*|R-r| ≠ 0 := by
    have : R - r ≠ 0 := fun h => hne (by linarith)
    positivity
  simp only [vcK2_fin hR hr.le, vcK02_fin hR hr.le, piReal_spec nm (vcN_lt hR hr.le hne) hm.le,
    ellipk_fin hm, ellipe_fin hm.le, Num.sqrt_fin hm0.le, Num.ofNat_def, Num.fin_mul, Num.fin_neg, Num.fin_sub, Num.fin_add, Num.fin_div (show 2*π ≠ 0 by positivity),
    Num.fin_div hr.ne', Num.fin_div hs.ne', d2, Num.sqrt_fin (show 0 ≤ R/r by positivity), Num.sqrt_fin hrR.le,
    Num.fin_div (show 2*π*√(r*R) ≠ 0 by positivity), Num.fin_div (show R + r ≠ 0 by positivity), Num.abs_fin, Num.fin_div habs]
  apply pair_fin
  · unfold vcUr; ring
  · unfold vcUz vcT
    have hT : (R - r + |R-r|)/(2*|R-r|) = if r < R then 1 else if r = R then 1/2 else 0 := by
      rw [if_neg hne]
      split_ifs with h
      · rw [abs_of_pos (by linarith)]
        have : R - r ≠ 0 := by linarith
        field_simp; ring
      · have : R - r < 0 := by
          rcases lt_trichotomy r R with h1 | h1 | h1
          · exact absurd h1 h
          · exact absurd h1 hne
          · linarith
        rw [abs_of_neg this]; simp
    rw [hT]

theorem cyl_map (pts : List (V3 ℝ)) (γ R z1 z2 : ℝ) (hR : 0 < R)
    (hreg : ∀ p ∈ pts, 0 < polarR p.x p.y ∧ polarR p.x p.y ≠ R) :
    cylinderTangPolar pts (.fin γ) R z1 z2 = pts.map fun p =>
      (.fin (vcUr γ R (polarR p.x p.y) (p.z-z1) - vcUr γ R (polarR p.x p.y) (p.z-z2)),
       .fin (vcUz γ R (polarR p.x p.y) (p.z-z1) (piReal (pts.map fun p => (vcK02 R 0 (polarR p.x p.y) (p.z-z1), vcK2 R 0 (polarR p.x p.y) (p.z-z1)))
          (vcN R (polarR p.x p.y)) (vcM R (polarR p.x p.y) (p.z-z1)))
        - vcUz γ R (polarR p.x p.y) (p.z-z2) (piReal (pts.map fun p => (vcK02 R 0 (polarR p.x p.y) (p.z-z2), vcK2 R 0 (polarR p.x p.y) (p.z-z2)))
          (vcN R (polarR p.x p.y)) (vcM R (polarR p.x p.y) (p.z-z2))))) := by
  unfold cylinderTangPolar
  simp only
  rw [piOf_map, piOf_map, List.zip]
  simp only [List.map_map, List.zipWith_map, List.zipWith_self]
  apply List.map_congr_left
  intro p hp
  obtain ⟨hr, hne⟩ := hreg p hp
  simp only [Function.comp_def]
  generalize (pts.map fun p => (vcK02 R 0 (polarR p.x p.y) (p.z-z1), vcK2 R 0 (polarR p.x p.y) (p.z-z1))) = nm1
  generalize (pts.map fun p => (vcK02 R 0 (polarR p.x p.y) (p.z-z2), vcK2 R 0 (polarR p.x p.y) (p.z-z2))) = nm2
  generalize polarR p.x p.y = r at *
  generalize p.z - z1 = w1 at *
  generalize p.z - z2 = w2 at *
  have hm01 := vcM_pos hR hr w1
  have hm1 := vcM_lt (z := w1) hR hr.le (fun h => hne h.1)
  have hs1 := sqrt_pos.mpr hm01
  have hm02 := vcM_pos hR hr w2
  have hm2 := vcM_lt (z := w2) hR hr.le (fun h => hne h.1)
  have hs2 := sqrt_pos.mpr hm02
  have hpi := pi_pos
  have hrR : 0 < r*R := mul_pos hr hR
  have hsr := sqrt_pos.mpr hrR
  have d2 : ∀ a : ℝ, Num.fin a / Num.fin 2 = Num.fin (a/2) := fun a => Num.fin_div two_ne_zero
  simp only [vcK2_fin hR hr.le, vcK02_fin hR hr.le, piReal_spec nm1 (vcN_lt hR hr.le hne) hm1.le, piReal_spec nm2 (vcN_lt hR hr.le hne) hm2.le,
    ellipk_fin hm1, ellipe_fin hm1.le, Num.sqrt_fin hm01.le, ellipk_fin hm2, ellipe_fin hm2.le, Num.sqrt_fin hm02.le, Num.ofNat_def, Num.fin_mul, Num.fin_neg, Num.fin_sub, Num.fin_add, Num.fin_div (show 2*π ≠ 0 by positivity),
    Num.fin_div hr.ne', Num.fin_div hs1.ne', Num.fin_div hs2.ne', d2, Num.sqrt_fin (show 0 ≤ R/r by positivity), Num.sqrt_fin hrR.le,
    Num.fin_div (show 4*π*√(r*R) ≠ 0 by positivity), Num.fin_div (show R + r ≠ 0 by positivity)]
  apply pair_fin
  · unfold vcUr; ring
  · unfold vcUz
    field_simp
    ring

/-- C45: away from the axis and from the radius `R`, the finite cylinder between `z1` and `z2`
is the raw semi-infinite cylinder starting at `z1` minus the one starting at `z2`. -/
theorem C45_difference_raw (pts : List (V3 ℝ)) (γ R z1 z2 : ℝ) (hR : 0 < R)
    (hreg : ∀ p ∈ pts, 0 < √(p.x^2 + p.y^2) ∧ √(p.x^2 + p.y^2) ≠ R) :
    cylinderTangPolar pts (.fin γ) R z1 z2 =
      List.zipWith (fun u v => (u.1 - v.1, u.2 - v.2))
        (cylinderTangSemiInfRaw (pts.map fun p => ⟨p.x, p.y, p.z - z1⟩) (.fin γ) R)
        (cylinderTangSemiInfRaw (pts.map fun p => ⟨p.x, p.y, p.z - z2⟩) (.fin γ) R) := by
  have hreg' : ∀ z, ∀ p ∈ (pts.map fun p => (⟨p.x, p.y, p.z - z⟩ : V3 ℝ)), 0 < polarR p.x p.y ∧ polarR p.x p.y ≠ R := by
    intro z p hp
    simp only [List.mem_map] at hp
    obtain ⟨q, hq, rfl⟩ := hp
    exact hreg q hq
  rw [cyl_map pts γ R z1 z2 hR hreg, raw_map _ _ _ hR (hreg' z1), raw_map _ _ _ hR (hreg' z2)]
  simp only [List.map_map, List.zipWith_map, List.zipWith_self]
  apply List.map_congr_left
  intro p _
  simp only [Function.comp_def, Num.fin_sub]

/-- C45: the same for `vc_tang_u`, when no point falls in its axis region or in the edge band of
either end. -/
theorem C45_difference (pts : List (V3 ℝ)) (γ R z1 z2 : ℝ) (hR : 0 < R)
    (hreg : ∀ p ∈ pts, 1e-7 * R ≤ √(p.x^2 + p.y^2) ∧ √(p.x^2 + p.y^2) ≠ R)
    (hedge : ∀ p ∈ pts, 1e-8 * R ≤ |√(p.x^2 + p.y^2) - R| ∨ (1e-8 * R ≤ |p.z - z1| ∧ 1e-8 * R ≤ |p.z - z2|)) :
    cylinderTangPolar pts (.fin γ) R z1 z2 =
      List.zipWith (fun u v => (u.1 - v.1, u.2 - v.2))
        (vcTangPolar (pts.map fun p => ⟨p.x, p.y, p.z - z1⟩) (.fin γ) R 0)
        (vcTangPolar (pts.map fun p => ⟨p.x, p.y, p.z - z2⟩) (.fin γ) R 0) := by
  have hpos : 0 < 1e-7 * R := by positivity
  have hreg' : ∀ p ∈ pts, 0 < polarR p.x p.y ∧ polarR p.x p.y ≠ R := fun p hp =>
    ⟨lt_of_lt_of_le hpos (hreg p hp).1, (hreg p hp).2⟩
  have hb : ∀ z, (∀ p ∈ pts, ¬ (|polarR p.x p.y - R| < 1e-8 * R ∧ |p.z - z| < 1e-8 * R)) →
      vcBatch (pts.map fun p => ⟨p.x, p.y, p.z - z⟩) R 0
        = pts.map fun p => (vcK02 R 0 (polarR p.x p.y) (p.z-z), vcK2 R 0 (polarR p.x p.y) (p.z-z)) := by
    intro z hz
    unfold vcBatch
    rw [List.filter_eq_self.mpr, List.map_map, List.map_map]
    · apply List.map_congr_left
      intro p hp
      obtain ⟨h1, h2⟩ := hreg' p hp
      simp only [Function.comp_def, vcK2_fin hR h1.le, clip1_fin (vcM_lt (z := p.z - z) hR h1.le (fun h => h2 h.1)).le]
    · intro q hq
      simp only [List.map_map, List.mem_map, Function.comp_def] at hq
      obtain ⟨p, hp, rfl⟩ := hq
      have h1 : ¬ polarR p.x p.y < 1e-7 * R := not_lt.mpr (hreg p hp).1
      simp only [vcAxis, vcEdge_iff hR, h1, hz p hp, or_self, not_false_iff, decide_true]
  have ev : ∀ z, (∀ p ∈ pts, ¬ (|polarR p.x p.y - R| < 1e-8 * R ∧ |p.z - z| < 1e-8 * R)) →
      vcTangPolar (pts.map fun p => ⟨p.x, p.y, p.z - z⟩) (.fin γ) R 0 = pts.map fun p =>
      (.fin (vcUr γ R (polarR p.x p.y) (p.z-z)), .fin (vcUz γ R (polarR p.x p.y) (p.z-z) (piReal (pts.map fun p => (vcK02 R 0 (polarR p.x p.y) (p.z-z), vcK2 R 0 (polarR p.x p.y) (p.z-z)))
          (vcN R (polarR p.x p.y)) (vcM R (polarR p.x p.y) (p.z-z))))) := by
    intro z hz
    rw [vcTangPolar_eval _ _ _ hR, hb z hz, List.map_map]
    apply List.map_congr_left
    intro p hp
    have h1 : ¬ polarR p.x p.y < 1e-7 * R := not_lt.mpr (hreg p hp).1
    simp only [Function.comp_def, vcVal, if_neg (hz p hp), if_neg h1]
  have z1h : ∀ p ∈ pts, ¬ (|polarR p.x p.y - R| < 1e-8 * R ∧ |p.z - z1| < 1e-8 * R) := by
    rintro p hp ⟨a, b⟩
    have a' : |√(p.x^2 + p.y^2) - R| < 1e-8 * R := a
    rcases hedge p hp with h | h <;> linarith [h]
  have z2h : ∀ p ∈ pts, ¬ (|polarR p.x p.y - R| < 1e-8 * R ∧ |p.z - z2| < 1e-8 * R) := by
    rintro p hp ⟨a, b⟩
    have a' : |√(p.x^2 + p.y^2) - R| < 1e-8 * R := a
    rcases hedge p hp with h | h <;> linarith [h]
  rw [cyl_map pts γ R z1 z2 hR hreg', ev z1 z1h, ev z2 z2h]
  simp only [List.zipWith_map, List.zipWith_self, Num.fin_sub]

example : ∀ p ∈ ([⟨3, 4, 1⟩, ⟨0.6, 0.8, -7⟩] : List (V3 ℝ)), (1e-7 * 2 ≤ √(p.x^2 + p.y^2) ∧ √(p.x^2 + p.y^2) ≠ 2) ∧
    ((1e-8:ℝ) * 2 ≤ |√(p.x^2 + p.y^2) - 2| ∨ ((1e-8:ℝ) * 2 ≤ |p.z - 0| ∧ (1e-8:ℝ) * 2 ≤ |p.z - 5|)) := by
  intro p hp
  simp only [List.mem_cons, List.not_mem_nil, or_false] at hp
  rcases hp with rfl | rfl
  · rw [show (3:ℝ)^2 + 4^2 = 5^2 by norm_num, sqrt_sq (by norm_num)]
    norm_num [abs_of_pos]
  · rw [show (0.6:ℝ)^2 + 0.8^2 = 1^2 by norm_num, sqrt_sq (by norm_num)]
    norm_num [abs_of_pos]

end Wiz
