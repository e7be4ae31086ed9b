import Verif.Props.VortexPoint
import Verif.Spec.PointVortexMaps
import Mathlib.Analysis.SpecialFunctions.Exp
import Mathlib.Analysis.SpecialFunctions.Sqrt

/-! # `vps_u` in other axes, units, with a wall; bounds (C162) -/
namespace Wiz
open Spec

theorem V2.rot_sum (a b : ℝ) (l : List (V2 ℝ)) : V2.rot a b l.sum = (l.map (V2.rot a b)).sum := by
  induction l with
  | nil => ext <;> simp [V2.rot]
  | cons v l ih => rw [List.map_cons, List.sum_cons, List.sum_cons, ← ih]; ext <;> simp [V2.rot] <;> ring
theorem V2.refl_sum (l : List (V2 ℝ)) : V2.refl l.sum = (l.map V2.refl).sum := by
  induction l with
  | nil => ext <;> simp [V2.refl]
  | cons v l ih => rw [List.map_cons, List.sum_cons, List.sum_cons, ← ih]; ext <;> simp [V2.refl]; ring
theorem V2.scale_sum (k : ℝ) (l : List (V2 ℝ)) : V2.scale k l.sum = (l.map (V2.scale k)).sum := by
  induction l with
  | nil => ext <;> simp [V2.scale]
  | cons v l ih => rw [List.map_cons, List.sum_cons, List.sum_cons, ← ih]; ext <;> simp [V2.scale] <;> ring

/-- C162, axes: turning and shifting the control points and the vortices together turns the
velocities of `vps_u`; nothing else changes.  For every system, kernel and set of points. -/
theorem C162_axes (sm ko : ℤ) (hd : coreFunction sm ko ≠ none) (a b : ℝ) (hab : a ^ 2 + b ^ 2 = 1) (s : V2 ℝ)
    (CP : List (V2 ℝ)) (vs : List Vortex) (hc : sm = 0 ∨ ∀ v ∈ vs, v.core ≠ 0) :
    ∃ us : List (V2 ℝ),
      vpsU CP (vs.map Vortex.pos) (vs.map Vortex.circ) sm ko (some (vs.map Vortex.core)) = .ok (us.map V2.fin) ∧
      vpsU (CP.map fun p => V2.rot a b p + s) (vs.map fun v => V2.rot a b v.pos + s) (vs.map Vortex.circ) sm ko
        (some (vs.map Vortex.core)) = .ok ((us.map (V2.rot a b)).map V2.fin) := by
  obtain ⟨w, hw⟩ := Option.ne_none_iff_exists'.mp hd
  refine ⟨CP.map fun p => (vs.map (vortexVelocity w p)).sum, ?_, ?_⟩
  · rw [vpsU_eval sm ko w hw CP vs _ (hc.imp id fun h => ⟨rfl, h⟩), List.map_map]; rfl
  · have e := vpsU_eval sm ko w hw (CP.map fun p => V2.rot a b p + s)
      (vs.map fun v => ⟨V2.rot a b v.pos + s, v.circ, v.core⟩) (some (vs.map Vortex.core))
      (hc.imp id fun h => ⟨by rw [List.map_map]; rfl, by
        intro v hv; obtain ⟨u, hu, rfl⟩ := List.mem_map.mp hv; exact h u hu⟩)
    rw [List.map_map, List.map_map] at e
    refine e.trans ?_
    rw [List.map_map, List.map_map, List.map_map]
    congr 1
    apply List.map_congr_left
    intro p _
    simp only [Function.comp_def, V2.rot_sum, List.map_map]
    congr 2
    apply List.map_congr_left
    intro v _
    have hr : (a * p.x - b * p.y + s.x - (a * v.pos.x - b * v.pos.y + s.x)) ^ 2
        + (b * p.x + a * p.y + s.y - (b * v.pos.x + a * v.pos.y + s.y)) ^ 2
        = (p.x - v.pos.x) ^ 2 + (p.y - v.pos.y) ^ 2 := by linear_combination ((p.x - v.pos.x) ^ 2 + (p.y - v.pos.y) ^ 2) * hab
    simp only [vortexVelocity, V2.rot, V2.add_x, V2.add_y, hr]
    split_ifs
    · simp
    · ext <;> simp only <;> ring

/-- C162, mirror: reflecting all points and reversing the circulations reflects the velocities. -/
theorem C162_mirror (sm ko : ℤ) (hd : coreFunction sm ko ≠ none)
    (CP : List (V2 ℝ)) (vs : List Vortex) (hc : sm = 0 ∨ ∀ v ∈ vs, v.core ≠ 0) :
    ∃ us : List (V2 ℝ),
      vpsU CP (vs.map Vortex.pos) (vs.map Vortex.circ) sm ko (some (vs.map Vortex.core)) = .ok (us.map V2.fin) ∧
      vpsU (CP.map V2.refl) (vs.map fun v => V2.refl v.pos) (vs.map fun v => -v.circ) sm ko
        (some (vs.map Vortex.core)) = .ok ((us.map V2.refl).map V2.fin) := by
  obtain ⟨w, hw⟩ := Option.ne_none_iff_exists'.mp hd
  refine ⟨CP.map fun p => (vs.map (vortexVelocity w p)).sum, ?_, ?_⟩
  · rw [vpsU_eval sm ko w hw CP vs _ (hc.imp id fun h => ⟨rfl, h⟩), List.map_map]; rfl
  · have e := vpsU_eval sm ko w hw (CP.map V2.refl)
      (vs.map fun v => ⟨V2.refl v.pos, -v.circ, v.core⟩) (some (vs.map Vortex.core))
      (hc.imp id fun h => ⟨by rw [List.map_map]; rfl, by
        intro v hv; obtain ⟨u, hu, rfl⟩ := List.mem_map.mp hv; exact h u hu⟩)
    rw [List.map_map, List.map_map] at e
    refine e.trans ?_
    rw [List.map_map, List.map_map, List.map_map]
    congr 1
    apply List.map_congr_left
    intro p _
    simp only [Function.comp_def, V2.refl_sum, List.map_map]
    congr 2
    apply List.map_congr_left
    intro v _
    have hr : (p.x - v.pos.x) ^ 2 + (-p.y - -v.pos.y) ^ 2 = (p.x - v.pos.x) ^ 2 + (p.y - v.pos.y) ^ 2 := by ring
    simp only [vortexVelocity, V2.refl, hr]
    split_ifs
    · simp
    · ext <;> simp only <;> ring

/-- C162, wall: a system of vortices together with its opposite images blows nothing through the
line between them. -/
theorem C162_wall (sm ko : ℤ) (hd : coreFunction sm ko ≠ none) (vs : List Vortex)
    (hc : sm = 0 ∨ ∀ v ∈ vs, v.core ≠ 0) (xs : List ℝ) :
    ∃ us : List ℝ, us.length = xs.length ∧
      vpsU (xs.map fun x => ⟨x, 0⟩) (vs.map Vortex.pos ++ vs.map fun v => V2.refl v.pos)
        (vs.map Vortex.circ ++ vs.map fun v => -v.circ) sm ko (some (vs.map Vortex.core ++ vs.map Vortex.core))
        = .ok (us.map fun u => V2.fin ⟨u, 0⟩) := by
  obtain ⟨w, hw⟩ := Option.ne_none_iff_exists'.mp hd
  have e := vpsU_eval sm ko w hw (xs.map fun x => ⟨x, 0⟩)
      (vs ++ vs.map fun v => ⟨V2.refl v.pos, -v.circ, v.core⟩) (some (vs.map Vortex.core ++ vs.map Vortex.core))
      (hc.imp id fun h => ⟨by rw [List.map_append, List.map_map]; rfl, by
        intro v hv
        rcases List.mem_append.mp hv with hv | hv
        · exact h v hv
        · obtain ⟨u, hu, rfl⟩ := List.mem_map.mp hv; exact h u hu⟩)
  rw [List.map_append, List.map_map, List.map_append, List.map_map] at e
  refine ⟨xs.map fun x => ((vs ++ vs.map fun v => (⟨V2.refl v.pos, -v.circ, v.core⟩ : Vortex)).map
    (vortexVelocity w ⟨x, 0⟩)).sum.x, by simp, e.trans ?_⟩
  rw [List.map_map, List.map_map]
  congr 1
  apply List.map_congr_left
  intro x _
  simp only [Function.comp_def]
  congr 1
  ext
  · rfl
  · simp only [V2.sum_y, List.map_append, List.sum_append, List.map_map, Function.comp_def, ← List.sum_map_add]
    apply List.sum_eq_zero
    intro y hy
    obtain ⟨v, _, rfl⟩ := List.mem_map.mp hy
    have hr : (x - v.pos.x) ^ 2 + (0 - -v.pos.y) ^ 2 = (x - v.pos.x) ^ 2 + (0 - v.pos.y) ^ 2 := by ring
    simp only [vortexVelocity, V2.refl, hr]
    split_ifs
    · simp
    · rw [V2.add_y]; ring

/-- C162, strength: multiplying all circulations by a number multiplies all velocities by it. -/
theorem C162_linear (sm ko : ℤ) (hd : coreFunction sm ko ≠ none) (k : ℝ)
    (CP : List (V2 ℝ)) (vs : List Vortex) (hc : sm = 0 ∨ ∀ v ∈ vs, v.core ≠ 0) :
    ∃ us : List (V2 ℝ),
      vpsU CP (vs.map Vortex.pos) (vs.map Vortex.circ) sm ko (some (vs.map Vortex.core)) = .ok (us.map V2.fin) ∧
      vpsU CP (vs.map Vortex.pos) (vs.map fun v => k * v.circ) sm ko
        (some (vs.map Vortex.core)) = .ok ((us.map (V2.scale k)).map V2.fin) := by
  obtain ⟨w, hw⟩ := Option.ne_none_iff_exists'.mp hd
  refine ⟨CP.map fun p => (vs.map (vortexVelocity w p)).sum, ?_, ?_⟩
  · rw [vpsU_eval sm ko w hw CP vs _ (hc.imp id fun h => ⟨rfl, h⟩), List.map_map]; rfl
  · have e := vpsU_eval sm ko w hw CP
      (vs.map fun v => ⟨v.pos, k * v.circ, v.core⟩) (some (vs.map Vortex.core))
      (hc.imp id fun h => ⟨by rw [List.map_map]; rfl, by
        intro v hv; obtain ⟨u, hu, rfl⟩ := List.mem_map.mp hv; exact h u hu⟩)
    rw [List.map_map, List.map_map] at e
    refine e.trans ?_
    rw [List.map_map, List.map_map]
    congr 1
    apply List.map_congr_left
    intro p _
    simp only [Function.comp_def, V2.scale_sum, List.map_map]
    congr 2
    apply List.map_congr_left
    intro v _
    simp only [vortexVelocity, V2.scale]
    split_ifs
    · simp
    · ext <;> simp only <;> ring

/-- C162, units: with all lengths (also the cores) multiplied by `k > 0` the velocities are divided
by `k`, as long as no control point is within the cut-off distance of a vortex in either unit. -/
theorem C162_units_partial (sm ko : ℤ) (hd : coreFunction sm ko ≠ none) (k : ℝ) (hk : 0 < k)
    (CP : List (V2 ℝ)) (vs : List Vortex) (hc : sm = 0 ∨ ∀ v ∈ vs, v.core ≠ 0)
    (hfar : ∀ p ∈ CP, ∀ v ∈ vs, 1e-15 ≤ (p.x - v.pos.x) ^ 2 + (p.y - v.pos.y) ^ 2 ∧
      1e-15 ≤ k ^ 2 * ((p.x - v.pos.x) ^ 2 + (p.y - v.pos.y) ^ 2)) :
    ∃ us : List (V2 ℝ),
      vpsU CP (vs.map Vortex.pos) (vs.map Vortex.circ) sm ko (some (vs.map Vortex.core)) = .ok (us.map V2.fin) ∧
      vpsU (CP.map (V2.scale k)) (vs.map fun v => V2.scale k v.pos) (vs.map Vortex.circ) sm ko
        (some (vs.map fun v => k * v.core)) = .ok ((us.map (V2.scale k⁻¹)).map V2.fin) := by
  obtain ⟨w, hw⟩ := Option.ne_none_iff_exists'.mp hd
  refine ⟨CP.map fun p => (vs.map (vortexVelocity w p)).sum, ?_, ?_⟩
  · rw [vpsU_eval sm ko w hw CP vs _ (hc.imp id fun h => ⟨rfl, h⟩), List.map_map]; rfl
  · have e := vpsU_eval sm ko w hw (CP.map (V2.scale k))
      (vs.map fun v => ⟨V2.scale k v.pos, v.circ, k * v.core⟩) (some (vs.map fun v => k * v.core))
      (hc.imp id fun h => ⟨by rw [List.map_map]; rfl, by
        intro v hv; obtain ⟨u, hu, rfl⟩ := List.mem_map.mp hv; exact mul_ne_zero hk.ne' (h u hu)⟩)
    rw [List.map_map, List.map_map] at e
    refine e.trans ?_
    rw [List.map_map, List.map_map, List.map_map]
    congr 1
    apply List.map_congr_left
    intro p hp
    simp only [Function.comp_def, V2.scale_sum, List.map_map]
    congr 2
    apply List.map_congr_left
    intro v hv
    obtain ⟨h1, h2⟩ := hfar p hp v hv
    have hr : (k * p.x - k * v.pos.x) ^ 2 + (k * p.y - k * v.pos.y) ^ 2
        = k ^ 2 * ((p.x - v.pos.x) ^ 2 + (p.y - v.pos.y) ^ 2) := by ring
    have hq : k ^ 2 * ((p.x - v.pos.x) ^ 2 + (p.y - v.pos.y) ^ 2) / (k * v.core) ^ 2
        = ((p.x - v.pos.x) ^ 2 + (p.y - v.pos.y) ^ 2) / v.core ^ 2 := by
      rw [mul_pow, mul_div_mul_left _ _ (pow_ne_zero 2 hk.ne')]
    have hne : (p.x - v.pos.x) ^ 2 + (p.y - v.pos.y) ^ 2 ≠ 0 := by
      intro h0; rw [h0] at h1; norm_num at h1
    simp only [vortexVelocity, V2.scale, hr, not_lt.mpr h1, not_lt.mpr h2, if_false, hq]
    ext <;> (simp only; field_simp)

/-- C162: the cut-off distance is an absolute length, so that the units matter close to a vortex:
at `1e-8` of a vortex the velocity is zero, in other units it is not. -/
theorem C162_units_refuted : ∃ (k : ℝ) (p : V2 ℝ), 0 < k ∧
    vpsU [p] [⟨0, 0⟩] [1] 0 2 none = .ok [V2.fin ⟨0, 0⟩] ∧
    ∃ u : ℝ, 0 < u ∧ vpsU [V2.scale k p] [V2.scale k ⟨0, 0⟩] [1] 0 2 none = .ok [V2.fin ⟨0, u⟩] := by
  have h0 : coreFunction 0 2 = some (fun _ => 1) := by simp [coreFunction]
  refine ⟨1e8, ⟨1e-8, 0⟩, by norm_num, ?_, 1 / (2 * Real.pi), by positivity, ?_⟩
  · have e := vpsU_eval 0 2 _ h0 [⟨1e-8, 0⟩] [⟨⟨0, 0⟩, 1, 1⟩] none (Or.inl rfl)
    refine e.trans ?_
    have : ((1e-8 - 0 : ℝ)) ^ 2 + (0 - 0) ^ 2 < 1e-15 := by norm_num
    simp only [List.map_cons, List.map_nil, List.sum_cons, List.sum_nil, add_zero, vortexVelocity, this, if_true]
  · have e := vpsU_eval 0 2 _ h0 [V2.scale 1e8 ⟨1e-8, 0⟩] [⟨V2.scale 1e8 ⟨0, 0⟩, 1, 1⟩] none (Or.inl rfl)
    refine e.trans ?_
    have : ¬ ((1e8 * 1e-8 - 1e8 * 0 : ℝ)) ^ 2 + (1e8 * 0 - 1e8 * 0) ^ 2 < 1e-15 := by norm_num
    simp only [List.map_cons, List.map_nil, List.sum_cons, List.sum_nil, add_zero, vortexVelocity, V2.scale, this, if_false]
    congr 3
    ext <;> norm_num

theorem V2.len_add (u v : V2 ℝ) : (u + v).len ≤ u.len + v.len := by
  unfold V2.len
  have hu := Real.sq_sqrt (show 0 ≤ u.x ^ 2 + u.y ^ 2 by positivity)
  have hv := Real.sq_sqrt (show 0 ≤ v.x ^ 2 + v.y ^ 2 by positivity)
  have h0 := Real.sqrt_nonneg (u.x ^ 2 + u.y ^ 2)
  have h1 := Real.sqrt_nonneg (v.x ^ 2 + v.y ^ 2)
  rw [Real.sqrt_le_left (by positivity), V2.add_x, V2.add_y]
  have hcs : u.x * v.x + u.y * v.y ≤ Real.sqrt (u.x ^ 2 + u.y ^ 2) * Real.sqrt (v.x ^ 2 + v.y ^ 2) := by
    rw [← Real.sqrt_mul (by positivity)]
    apply Real.le_sqrt_of_sq_le
    nlinarith [sq_nonneg (u.x * v.y - u.y * v.x)]
  nlinarith

theorem V2.len_sum (l : List (V2 ℝ)) : l.sum.len ≤ (l.map V2.len).sum := by
  induction l with
  | nil => simp [V2.len]
  | cons a l ih =>
    rw [List.sum_cons, List.map_cons, List.sum_cons]
    exact (V2.len_add _ _).trans (by linarith)

theorem vortex_len (w : ℝ → ℝ) (p : V2 ℝ) (v : Vortex) :
    (vortexVelocity w p v).len = if (p.x - v.pos.x) ^ 2 + (p.y - v.pos.y) ^ 2 < 1e-15 then 0 else
      |v.circ| / (2 * Real.pi) * |w (((p.x - v.pos.x) ^ 2 + (p.y - v.pos.y) ^ 2) / v.core ^ 2)|
        / Real.sqrt ((p.x - v.pos.x) ^ 2 + (p.y - v.pos.y) ^ 2) := by
  simp only [vortexVelocity]
  split_ifs with h
  · simp [V2.len]
  · set q := (p.x - v.pos.x) ^ 2 + (p.y - v.pos.y) ^ 2 with hq
    have hqp : 0 < q := lt_of_lt_of_le (by norm_num) (not_lt.mp h)
    have hs : 0 < Real.sqrt q := Real.sqrt_pos.mpr hqp
    have hsq : Real.sqrt q ^ 2 = q := Real.sq_sqrt hqp.le
    unfold V2.len
    set W := w (q / v.core ^ 2)
    have e : (v.circ / (2 * Real.pi) * -(p.y - v.pos.y) / q * W) ^ 2
        + (v.circ / (2 * Real.pi) * (p.x - v.pos.x) / q * W) ^ 2
        = (|v.circ| / (2 * Real.pi) * |W| / Real.sqrt q) ^ 2 := by
      have e1 : (|v.circ| / (2 * Real.pi) * |W| / Real.sqrt q) ^ 2 = v.circ ^ 2 / (2 * Real.pi) ^ 2 * W ^ 2 / q := by
        rw [div_pow, mul_pow, div_pow, sq_abs, sq_abs, hsq]
      rw [e1]
      have e2 : (v.circ / (2 * Real.pi) * -(p.y - v.pos.y) / q * W) ^ 2
        + (v.circ / (2 * Real.pi) * (p.x - v.pos.x) / q * W) ^ 2
        = v.circ ^ 2 / (2 * Real.pi) ^ 2 * W ^ 2 * q / q ^ 2 := by
        have e3 : (v.circ / (2 * Real.pi) * -(p.y - v.pos.y) / q * W) ^ 2
          + (v.circ / (2 * Real.pi) * (p.x - v.pos.x) / q * W) ^ 2
          = v.circ ^ 2 / (2 * Real.pi) ^ 2 * W ^ 2 * ((p.x - v.pos.x) ^ 2 + (p.y - v.pos.y) ^ 2) / q ^ 2 := by
          clear_value q
          ring
        rw [e3, ← hq]
      rw [e2, sq q, mul_div_mul_right _ _ hqp.ne']
    rw [e, Real.sqrt_sq (by positivity)]

theorem core2_le (q : ℝ) (hq : 0 ≤ q) : |1 - Real.exp (-q)| ≤ Real.sqrt q := by
  have h1 : Real.exp (-q) ≤ 1 := Real.exp_le_one_iff.mpr (by linarith)
  have h2 : 1 - q ≤ Real.exp (-q) := by linarith [Real.add_one_le_exp (-q)]
  have h3 := Real.exp_pos (-q)
  rw [abs_of_nonneg (by linarith)]
  apply Real.le_sqrt_of_sq_le
  nlinarith

/-- C162, bounds: with second-order smoothing (both models) no velocity exceeds
`Σ |Γᵢ|/(2π |coreᵢ|)`, however close the points are to the vortices; without smoothing the
velocity at a distance of at least `d` from all vortices is at most `Σ |Γᵢ|/(2π d)`. -/
theorem C162_bounded (CP : List (V2 ℝ)) (vs : List Vortex) :
    (∀ sm : ℤ, sm = 1 ∨ sm = 2 → (∀ v ∈ vs, v.core ≠ 0) → ∃ us : List (V2 ℝ),
      vpsU CP (vs.map Vortex.pos) (vs.map Vortex.circ) sm 2 (some (vs.map Vortex.core)) = .ok (us.map V2.fin) ∧
      us.length = CP.length ∧
      ∀ u ∈ us, u.len ≤ (vs.map fun v => |v.circ| / (2 * Real.pi * |v.core|)).sum) ∧
    (∀ (ko : ℤ) (SP : Option (List ℝ)) (d : ℝ), 0 < d →
      (∀ p ∈ CP, ∀ v ∈ vs, d ^ 2 ≤ (p.x - v.pos.x) ^ 2 + (p.y - v.pos.y) ^ 2) → ∃ us : List (V2 ℝ),
      vpsU CP (vs.map Vortex.pos) (vs.map Vortex.circ) 0 ko SP = .ok (us.map V2.fin) ∧
      us.length = CP.length ∧
      ∀ u ∈ us, u.len ≤ (vs.map fun v => |v.circ| / (2 * Real.pi * d)).sum) := by
  constructor
  · intro sm hsm hc
    have hw : coreFunction sm 2 = some (fun q => 1 - Real.exp (-q)) := by
      rcases hsm with rfl | rfl
      · simp [coreFunction, laguerre0]
      · simp [coreFunction]
    refine ⟨CP.map fun p => (vs.map (vortexVelocity (fun q => 1 - Real.exp (-q)) p)).sum, ?_, by simp, ?_⟩
    · rw [vpsU_eval sm 2 _ hw CP vs _ (Or.inr ⟨rfl, hc⟩), List.map_map]; rfl
    · intro u hu
      obtain ⟨p, _, rfl⟩ := List.mem_map.mp hu
      refine (V2.len_sum _).trans ?_
      rw [List.map_map]
      apply List.sum_le_sum
      intro v hv
      have hcv := hc v hv
      simp only [Function.comp_def]
      rw [vortex_len]
      split_ifs with h
      · positivity
      · set q := (p.x - v.pos.x) ^ 2 + (p.y - v.pos.y) ^ 2
        have hqp : 0 < q := lt_of_lt_of_le (by norm_num) (not_lt.mp h)
        have hs : 0 < Real.sqrt q := Real.sqrt_pos.mpr hqp
        have hcp : 0 < |v.core| := abs_pos.mpr hcv
        have hk := core2_le (q / v.core ^ 2) (by positivity)
        rw [Real.sqrt_div hqp.le, Real.sqrt_sq_eq_abs] at hk
        rw [div_le_div_iff₀ hs (by positivity)]
        have h1 : |1 - Real.exp (-(q / v.core ^ 2))| * |v.core| ≤ Real.sqrt q := by
          rw [le_div_iff₀ hcp] at hk; exact hk
        have e : |v.circ| / (2 * Real.pi) * |1 - Real.exp (-(q / v.core ^ 2))| * (2 * Real.pi * |v.core|)
            = |v.circ| * (|1 - Real.exp (-(q / v.core ^ 2))| * |v.core|) := by field_simp
        rw [e]
        exact mul_le_mul_of_nonneg_left h1 (abs_nonneg _)
  · intro ko SP d hd hfar
    have hw : coreFunction 0 ko = some (fun _ => 1) := by simp [coreFunction]
    refine ⟨CP.map fun p => (vs.map (vortexVelocity (fun _ => 1) p)).sum, ?_, by simp, ?_⟩
    · rw [vpsU_eval 0 ko _ hw CP vs SP (Or.inl rfl), List.map_map]; rfl
    · intro u hu
      obtain ⟨p, hp, rfl⟩ := List.mem_map.mp hu
      refine (V2.len_sum _).trans ?_
      rw [List.map_map]
      apply List.sum_le_sum
      intro v hv
      simp only [Function.comp_def]
      rw [vortex_len]
      split_ifs with h
      · positivity
      · have hdq := hfar p hp v hv
        set q := (p.x - v.pos.x) ^ 2 + (p.y - v.pos.y) ^ 2
        have hds : d ≤ Real.sqrt q := Real.le_sqrt_of_sq_le hdq
        rw [abs_one, mul_one, div_div]
        exact div_le_div_of_nonneg_left (abs_nonneg _) (by positivity)
          (mul_le_mul_of_nonneg_left hds (by positivity))

/-- C162: the smoothing acts with the core of the inducing vortex, so that action and reaction
differ between vortices of different cores: two vortices of circulation 1 at a distance of 1, with
cores 1 and 2, have a net impulse rate.  The common core of C71 and C161 cannot be dropped. -/
theorem C162_cores : ∃ u v : ℝ, u + v ≠ 0 ∧
    vpsU [⟨0, 0⟩, ⟨1, 0⟩] [⟨0, 0⟩, ⟨1, 0⟩] [1, 1] 1 2 (some [1, 2])
      = .ok [V2.fin ⟨0, u⟩, V2.fin ⟨0, v⟩] := by
  have hw : coreFunction 1 2 = some (fun q => 1 - Real.exp (-q)) := by simp [coreFunction, laguerre0]
  have e := vpsU_eval 1 2 _ hw [⟨0, 0⟩, ⟨1, 0⟩] [⟨⟨0, 0⟩, 1, 1⟩, ⟨⟨1, 0⟩, 1, 2⟩] (some [1, 2])
    (Or.inr ⟨rfl, by simp⟩)
  have hpi : (2 : ℝ) * Real.pi ≠ 0 := by positivity
  refine ⟨-(1 / (2 * Real.pi) * (1 - Real.exp (-(1 / 4)))), 1 / (2 * Real.pi) * (1 - Real.exp (-1)), ?_, ?_⟩
  · have hlt : Real.exp (-1) < Real.exp (-(1 / 4)) := Real.exp_lt_exp.mpr (by norm_num)
    have hp : 0 < 1 / (2 * Real.pi) := by positivity
    have : -(1 / (2 * Real.pi) * (1 - Real.exp (-(1 / 4)))) + 1 / (2 * Real.pi) * (1 - Real.exp (-1))
        = 1 / (2 * Real.pi) * (Real.exp (-(1 / 4)) - Real.exp (-1)) := by ring
    rw [this]
    exact (mul_pos hp (by linarith)).ne'
  · refine e.trans ?_
    have c0 : ((0:ℝ) - 0) ^ 2 + (0 - 0) ^ 2 < 1e-15 := by norm_num
    have c1 : ((1:ℝ) - 1) ^ 2 + (0 - 0) ^ 2 < 1e-15 := by norm_num
    have d0 : ¬ ((0:ℝ) - 1) ^ 2 + (0 - 0) ^ 2 < 1e-15 := by norm_num
    have d1 : ¬ ((1:ℝ) - 0) ^ 2 + (0 - 0) ^ 2 < 1e-15 := by norm_num
    simp only [List.map_cons, List.map_nil, List.sum_cons, List.sum_nil, add_zero, vortexVelocity, c0, c1, d0, d1,
      if_true, if_false]
    have q0 : (((0:ℝ) - 1) ^ 2 + (0 - 0) ^ 2) / 2 ^ 2 = 1 / 4 := by norm_num
    have q1 : (((1:ℝ) - 0) ^ 2 + (0 - 0) ^ 2) / 1 ^ 2 = 1 := by norm_num
    rw [q0, q1]
    congr 3
    · ext <;> simp
    · congr 1
      ext <;> simp

theorem laguerre_exp_tendsto (n : ℕ) :
    Filter.Tendsto (fun q : ℝ => laguerre n q * Real.exp (-q)) Filter.atTop (nhds 0) := by
  have h : ∀ k ∈ Finset.range (n + 1), Filter.Tendsto
      (fun q : ℝ => (-1) ^ k * (n.choose k : ℝ) / (k.factorial : ℝ) * (q ^ k * Real.exp (-q))) Filter.atTop (nhds 0) := by
    intro k _
    simpa using (Real.tendsto_pow_mul_exp_neg_atTop_nhds_zero k).const_mul ((-1) ^ k * (n.choose k : ℝ) / (k.factorial : ℝ))
  have hs := tendsto_finsetSum (Finset.range (n + 1)) h
  simp only [Finset.sum_const_zero] at hs
  refine hs.congr fun q => ?_
  simp only [laguerre, Finset.sum_mul]
  exact Finset.sum_congr rfl fun k _ => by ring

theorem core_tendsto (sm ko : ℤ) (w : ℝ → ℝ) (hw : coreFunction sm ko = some w) :
    Filter.Tendsto w Filter.atTop (nhds 1) := by
  have half : Filter.Tendsto (fun q : ℝ => q / 2) Filter.atTop Filter.atTop :=
    Filter.tendsto_id.atTop_div_const (by norm_num)
  unfold coreFunction at hw
  split_ifs at hw <;> (simp only [Option.some.injEq] at hw; subst hw)
  · exact tendsto_const_nhds
  · simpa using (laguerre_exp_tendsto _).const_sub (1:ℝ)
  · simpa [laguerre0] using (laguerre_exp_tendsto 0).const_sub (1:ℝ)
  · simpa using ((laguerre_exp_tendsto _).comp half).const_sub (1:ℝ)

/-- C162, circulation: whatever the kernel and the core, far from a vortex the velocity of `vps_u`
is that of its full circulation: `2 π r v(r)` tends to `Γ`. -/
theorem C162_circulation (sm ko : ℤ) (hd : coreFunction sm ko ≠ none) (Γ c : ℝ) (hc : c ≠ 0) :
    ∃ v : ℝ → ℝ, (∀ r : ℝ, 1 ≤ r →
      vpsU [⟨r, 0⟩] [⟨0, 0⟩] [Γ] sm ko (some [c]) = .ok [V2.fin ⟨0, v r⟩]) ∧
      Filter.Tendsto (fun r => 2 * Real.pi * r * v r) Filter.atTop (nhds Γ) := by
  obtain ⟨w, hw⟩ := Option.ne_none_iff_exists'.mp hd
  refine ⟨fun r => Γ / (2 * Real.pi) / r * w (r ^ 2 / c ^ 2), fun r hr => ?_, ?_⟩
  · have e := vpsU_eval sm ko w hw [⟨r, 0⟩] [⟨⟨0, 0⟩, Γ, c⟩] (some [c]) (Or.inr ⟨rfl, by simpa using hc⟩)
    refine e.trans ?_
    have hn : ¬ (r - 0) ^ 2 + ((0:ℝ) - 0) ^ 2 < 1e-15 := by
      have : (1:ℝ) ≤ r ^ 2 := by nlinarith
      norm_num; linarith
    have hr0 : r ≠ 0 := by linarith
    simp only [List.map_cons, List.map_nil, List.sum_cons, List.sum_nil, add_zero, vortexVelocity, hn, if_false]
    congr 3
    ext
    · simp
    · simp only [sub_zero, ne_eq, OfNat.ofNat_ne_zero, not_false_eq_true, zero_pow, add_zero]
      field_simp
  · have hq : Filter.Tendsto (fun r : ℝ => r ^ 2 / c ^ 2) Filter.atTop Filter.atTop :=
      (Filter.tendsto_pow_atTop (by norm_num)).atTop_div_const (by positivity)
    have h := ((core_tendsto sm ko w hw).comp hq).const_mul Γ
    rw [mul_one] at h
    refine h.congr' ?_
    filter_upwards [Filter.eventually_gt_atTop 0] with r hr
    have hpi := Real.pi_ne_zero
    simp only [Function.comp_def]
    field_simp

/-- The hypotheses of C162 are met by two different vortices with cores. -/
example : ∃ (vs : List Vortex) (p : V2 ℝ), vs.length = 2 ∧ (∀ v ∈ vs, v.core ≠ 0) ∧ coreFunction 2 6 ≠ none ∧
    (∀ v ∈ vs, 1e-15 ≤ (p.x - v.pos.x) ^ 2 + (p.y - v.pos.y) ^ 2 ∧
      1e-15 ≤ (2:ℝ) ^ 2 * ((p.x - v.pos.x) ^ 2 + (p.y - v.pos.y) ^ 2)) :=
  ⟨[⟨⟨0, 0⟩, 1, 1⟩, ⟨⟨1, 0⟩, -3, 2⟩], ⟨0, 1⟩, rfl, by simp, by simp [coreFunction], by norm_num⟩

end Wiz
