import Verif.Lemmas.CylinderReg
/-! # C82: the regularised vortex cylinder -/
namespace Wiz
open Real Classical Filter Topology

/-- C82: with a nonzero regularisation parameter no control point gives `inf` or `nan`. -/
theorem C82_finite (pts : List (V3 ℝ)) (γ R ε : ℝ) (hR : 0 < R) (hε : ε ≠ 0) :
    (vcTangPolar pts (.fin γ) R ε).length = pts.length ∧ (vcTang pts (.fin γ) R ε).length = pts.length ∧
      (∀ u ∈ vcTangPolar pts (.fin γ) R ε, u.1.IsFin ∧ u.2.IsFin) ∧ ∀ u ∈ vcTang pts (.fin γ) R ε, u.IsFin := by
  rw [vcTangPolar_reg pts γ R ε hR hε, vcTang_reg pts γ R ε hR hε]
  refine ⟨by simp, by simp, ?_, ?_⟩
  · intro u hu
    simp only [List.mem_map] at hu
    obtain ⟨p, -, rfl⟩ := hu
    exact ⟨⟨_, rfl⟩, ⟨_, rfl⟩⟩
  · intro u hu
    simp only [List.mem_map] at hu
    obtain ⟨p, -, rfl⟩ := hu
    exact ⟨⟨_, rfl⟩, ⟨_, rfl⟩, ⟨_, rfl⟩⟩

example : ∃ u, vcTangPolar [⟨1, 0, 3⟩] (.fin 1) 1 (1/10) = [u] ∧ u.1.IsFin ∧ u.2.IsFin := by
  have h := C82_finite [⟨1, 0, 3⟩] 1 1 (1/10) one_pos (by norm_num)
  obtain ⟨u, hu⟩ := List.length_eq_one_iff.mp h.1
  exact ⟨u, hu, h.2.2.1 u (by rw [hu]; simp)⟩

/-- C82: the regularisation leaves the velocity upstream of the rotor plane unchanged. -/
theorem C82_upstream (pts : List (V3 ℝ)) (g : Num) (R ε : ℝ) (hR : 0 < R) (hz : ∀ p ∈ pts, p.z < 0) :
    vcTangPolar pts g R ε = vcTangPolar pts g R 0 ∧ vcTang pts g R ε = vcTang pts g R 0 := by
  by_cases hε : ε = 0
  · subst hε; exact ⟨rfl, rfl⟩
  have k2 : ∀ r z, 0 ≤ r → z < 0 → vcK2 R ε r z = vcK2 R 0 r z := by
    intro r z hr hz
    rw [vcK2_reg hR hr hε, vcK2_fin hR hr]; unfold vcMe vcM; rw [vcEps2_up hz, add_zero]
  have k0 : ∀ r z, 0 ≤ r → z < 0 → vcK02 R ε r z = vcK02 R 0 r z := by
    intro r z hr hz
    rw [vcK02_reg hR hr hε, vcK02_fin hR hr]; unfold vcNe vcN; rw [vcEps2_up hz, add_zero]
  have t1 : ∀ r z, z < 0 → vcT1 R ε r z = vcT1 R 0 r z := by
    intro r z hz
    unfold vcT1
    simp only [not_le.mpr hz, and_false, if_false]
  have hb : vcBatch pts R ε = vcBatch pts R 0 := by
    unfold vcBatch
    apply List.map_congr_left
    intro q hq
    simp only [List.mem_filter, List.mem_map] at hq
    obtain ⟨⟨p, hp, rfl⟩, -⟩ := hq
    simp only
    rw [k0 _ _ (polarR_nonneg _ _) (hz p hp), k2 _ _ (polarR_nonneg _ _) (hz p hp)]
  have hP : vcTangPolar pts g R ε = vcTangPolar pts g R 0 := by
    rw [vcTangPolar_map, vcTangPolar_map, hb]
    apply List.map_congr_left
    intro p hp
    unfold vcPt vcRegular
    rw [k0 _ _ (polarR_nonneg _ _) (hz p hp), k2 _ _ (polarR_nonneg _ _) (hz p hp), t1 _ _ (hz p hp)]
  refine ⟨hP, ?_⟩
  unfold vcTang
  rw [hP]

example : ∀ p ∈ ([⟨1, 0, -2⟩, ⟨0, 3, -1⟩] : List (V3 ℝ)), p.z < 0 := by
  intro p hp
  simp only [List.mem_cons, List.not_mem_nil, or_false] at hp
  rcases hp with rfl | rfl <;> norm_num

/-- C82: downstream of (or in) the rotor plane, off the axis and the edge, the regularised radial
velocity is the unregularised one at the height `√(z²+ε²)`: the sheet is smoothed as if every
distance `d` to a vortex element were `√(d²+ε²)`. -/
theorem C82_radial (pts : List (V3 ℝ)) (γ R ε : ℝ) (hR : 0 < R) (hε : ε ≠ 0) (i : ℕ) (p : V3 ℝ) (hi : pts[i]? = some p)
    (hz : 0 ≤ p.z) (haxis : 1e-7 * R ≤ √(p.x^2 + p.y^2))
    (hedge : 1e-8 * R ≤ |√(p.x^2 + p.y^2) - R| ∨ 1e-8 * R ≤ |p.z|) :
    ∃ ur uz uz' : ℝ, (vcTangPolar pts (.fin γ) R ε)[i]? = some (.fin ur, .fin uz) ∧
      vcTangPolar [⟨p.x, p.y, √(p.z^2 + ε^2)⟩] (.fin γ) R 0 = [(.fin ur, .fin uz')] := by
  have hr : ∀ x y : ℝ, √(x^2 + y^2) = polarR x y := fun _ _ => rfl
  rw [hr] at haxis hedge
  rw [vcTangPolar_reg _ _ _ _ hR hε, vcTangPolar_eval _ _ _ hR, List.getElem?_map, hi, Option.map_some]
  have n1 : ¬ (|polarR p.x p.y - R| < 1e-8 * R ∧ |p.z| < 1e-8 * R) := by
    rintro ⟨a, b⟩; rcases hedge with h | h <;> linarith
  have n2 : ¬ (|polarR p.x p.y - R| < 1e-8 * R ∧ |√(p.z^2 + ε^2)| < 1e-8 * R) := by
    rintro ⟨a, b⟩
    have : |p.z| ≤ |√(p.z^2 + ε^2)| := by
      rw [abs_of_nonneg (sqrt_nonneg _)]
      apply le_sqrt_of_sq_le
      rw [sq_abs]; nlinarith
    exact n1 ⟨a, lt_of_le_of_lt this b⟩
  simp only [List.map_cons, List.map_nil]
  refine ⟨_, _, _, congrArg some (pair_fin rfl rfl), congrArg (fun a => [a]) (pair_fin ?_ rfl)⟩
  unfold vcVal vcVale
  simp only [if_neg n1, if_neg n2, if_neg (not_lt.mpr haxis), vcEps2_down hz]

example : (0:ℝ) ≤ (⟨2, 0, 1⟩ : V3 ℝ).z ∧ (1e-7:ℝ) * 1 ≤ √((2:ℝ)^2 + 0^2) := by
  rw [show ((2:ℝ)^2 + 0^2) = 2^2 by norm_num, sqrt_sq (by norm_num)]; norm_num

/-- the smoothed step of the axial velocity in the rotor plane -/
theorem step_bounds {R r ε : ℝ} (hR : 0 < R) (hr : 0 < r) (hε : ε ≠ 0) :
    |(R-r)*√(1 + ε^2/(R+r)^2)/√((R-r)^2+ε^2)| < 1 := by
  have h1 : 0 < (R-r)^2+ε^2 := by positivity
  have h2 : 0 < (R+r)^2 := by positivity
  have h3 : 0 ≤ 1 + ε^2/(R+r)^2 := by positivity
  have hs := sqrt_pos.mpr h1
  rw [← sq_lt_one_iff_abs_lt_one, div_pow, mul_pow, sq_sqrt h1.le, sq_sqrt h3, div_lt_one h1]
  have hε2 : 0 < ε^2 := by positivity
  rw [mul_add, mul_one, add_lt_add_iff_left, ← mul_div_assoc, div_lt_iff₀ h2, mul_comm]
  apply mul_lt_mul_of_pos_left _ hε2
  nlinarith [mul_pos hR hr]

/-- C82: in the rotor plane, off the axis and the edge, the regularised axial velocity is a smoothed
step: `γ/2` times a number strictly between 0 and 1 which is larger than `1/2` inside the rim,
smaller outside and equal to it on the rim; the value is given explicitly. -/
theorem C82_rotor_plane (pts : List (V3 ℝ)) (γ R ε : ℝ) (hR : 0 < R) (hε : ε ≠ 0) (i : ℕ) (p : V3 ℝ) (hi : pts[i]? = some p)
    (hz : p.z = 0) (r : ℝ) (hr : r = √(p.x^2 + p.y^2)) (haxis : 1e-7 * R ≤ r) (hedge : 1e-8 * R ≤ |r - R|) :
    ∃ ur t : ℝ, (vcTangPolar pts (.fin γ) R ε)[i]? = some (.fin ur, .fin (γ/2*t)) ∧
      0 < t ∧ t < 1 ∧ (r < R → 1/2 < t) ∧ (R < r → t < 1/2) ∧
      t = 1/2 * (1 + (R-r)*√(1 + ε^2/(R+r)^2)/√((R-r)^2+ε^2)) := by
  have hr' : r = polarR p.x p.y := hr
  have hr0 : 0 < r := lt_of_lt_of_le (by positivity) haxis
  rw [vcTangPolar_reg _ _ _ _ hR hε, List.getElem?_map, hi, Option.map_some, ← hr']
  refine ⟨_, 1/2 * (1 + (R-r)*√(1 + ε^2/(R+r)^2)/√((R-r)^2+ε^2)), congrArg some (pair_fin rfl ?_), ?_, ?_, ?_, ?_, rfl⟩
  · unfold vcVale
    have n1 : ¬ (|r - R| < 1e-8 * R ∧ |p.z| < 1e-8 * R) := by rintro ⟨a, -⟩; linarith
    rw [if_neg n1, if_neg (not_lt.mpr haxis)]
    unfold vcUze vcTe
    rw [hz]
    simp
  · have := (abs_lt.mp (step_bounds hR hr0 hε)).1; linarith
  · have := (abs_lt.mp (step_bounds hR hr0 hε)).2; linarith
  · intro h
    have h1 : 0 < (R-r)*√(1 + ε^2/(R+r)^2)/√((R-r)^2+ε^2) := by
      have := sub_pos.mpr h
      positivity
    linarith
  · intro h
    have h1 : 0 < (r-R)*√(1 + ε^2/(R+r)^2)/√((R-r)^2+ε^2) := by
      have := sub_pos.mpr h
      positivity
    have h2 : (R-r)*√(1 + ε^2/(R+r)^2)/√((R-r)^2+ε^2) = -((r-R)*√(1 + ε^2/(R+r)^2)/√((R-r)^2+ε^2)) := by ring
    rw [h2]; linarith

example : (0:ℝ) = (⟨2, 0, 0⟩ : V3 ℝ).z ∧ (2:ℝ) = √((2:ℝ)^2 + 0^2) ∧ (1e-7:ℝ) * 1 ≤ 2 ∧ (1e-8:ℝ) * 1 ≤ |(2:ℝ) - 1| := by
  rw [show ((2:ℝ)^2 + 0^2) = 2^2 by norm_num, sqrt_sq (by norm_num)]; norm_num

theorem step_tendsto {R r : ℝ} (h : r ≠ R) :
    Tendsto (fun ε : ℝ => (R-r)*√(1 + ε^2/(R+r)^2)/√((R-r)^2+ε^2)) (𝓝 0) (𝓝 ((R-r)/|R-r|)) := by
  have hne : R - r ≠ 0 := sub_ne_zero.mpr h.symm
  have hc : ContinuousAt (fun ε : ℝ => (R-r)*√(1 + ε^2/(R+r)^2)/√((R-r)^2+ε^2)) 0 := by
    apply ContinuousAt.div
    · fun_prop
    · fun_prop
    · rw [sqrt_ne_zero']; positivity
  have := hc.tendsto
  simp only [ne_eq, OfNat.ofNat_ne_zero, not_false_eq_true, zero_pow, zero_div, add_zero, sqrt_one, mul_one, sqrt_sq_eq_abs] at this
  exact this

/-- C82: in the rotor plane the regularised axial velocity tends to the unregularised one as the
regularisation parameter tends to 0, at every control point of every batch (also on the axis and on the rim). -/
theorem C82_limit (pts : List (V3 ℝ)) (γ R : ℝ) (hR : 0 < R) (i : ℕ) (p : V3 ℝ) (hi : pts[i]? = some p) (hz : p.z = 0) :
    ∀ δ > 0, ∃ η > 0, ∀ ε : ℝ, ε ≠ 0 → |ε| < η → ∃ ur uz ur0 uz0 : ℝ,
      (vcTangPolar pts (.fin γ) R ε)[i]? = some (.fin ur, .fin uz) ∧
      (vcTangPolar pts (.fin γ) R 0)[i]? = some (.fin ur0, .fin uz0) ∧ |uz - uz0| < δ := by
  intro δ hδ
  have ev : ∀ ε : ℝ, ε ≠ 0 → (vcTangPolar pts (.fin γ) R ε)[i]? =
      some (.fin (vcVale (piReal (vcBatch pts R ε)) γ R ε (polarR p.x p.y) p.z).1,
       .fin (vcVale (piReal (vcBatch pts R ε)) γ R ε (polarR p.x p.y) p.z).2) := by
    intro ε hε
    rw [vcTangPolar_reg _ _ _ _ hR hε, List.getElem?_map, hi, Option.map_some]
  have ev0 : (vcTangPolar pts (.fin γ) R 0)[i]? =
      some (.fin (vcVal (piReal (vcBatch pts R 0)) γ R (polarR p.x p.y) p.z).1,
       .fin (vcVal (piReal (vcBatch pts R 0)) γ R (polarR p.x p.y) p.z).2) := by
    rw [vcTangPolar_eval _ _ _ hR, List.getElem?_map, hi, Option.map_some]
  by_cases n1 : |polarR p.x p.y - R| < 1e-8 * R ∧ |p.z| < 1e-8 * R
  · refine ⟨1, one_pos, fun ε hε _ => ⟨_, _, _, _, ev ε hε, ev0, ?_⟩⟩
    unfold vcVale vcVal
    simp only [if_pos n1, sub_self, abs_zero, hδ]
  by_cases n2 : polarR p.x p.y < 1e-7 * R
  · refine ⟨1, one_pos, fun ε hε _ => ⟨_, _, _, _, ev ε hε, ev0, ?_⟩⟩
    unfold vcVale vcVal
    simp only [if_neg n1, if_pos n2, sub_self, abs_zero, hδ]
  have hrR : polarR p.x p.y ≠ R := by
    intro h
    apply n1
    rw [h, hz, sub_self, abs_zero, and_self]; positivity
  have ht := ((step_tendsto hrR).const_add 1).const_mul (γ/2*(1/2))
  rw [Metric.tendsto_nhds_nhds] at ht
  obtain ⟨η, h0, h⟩ := ht δ hδ
  refine ⟨η, h0, fun ε hε hlt => ⟨_, _, _, _, ev ε hε, ev0, ?_⟩⟩
  have := h (x := ε) (by rwa [Real.dist_eq, sub_zero])
  rw [Real.dist_eq] at this
  unfold vcVale vcVal
  simp only [if_neg n1, if_neg n2]
  unfold vcUze vcUz vcTe
  simp only [hz, le_refl, if_true, zero_mul, zero_div, add_zero]
  refine lt_of_eq_of_lt ?_ this
  congr 1
  have hT : vcT R (polarR p.x p.y) = 1/2*(1 + (R - polarR p.x p.y)/|R - polarR p.x p.y|) := by
    unfold vcT
    rcases lt_or_gt_of_ne hrR with h | h
    · rw [if_pos h, abs_of_pos (sub_pos.mpr h), div_self (sub_pos.mpr h).ne']; norm_num
    · rw [if_neg (not_lt.mpr h.le), if_neg hrR, abs_of_neg (sub_neg.mpr h), div_neg, div_self (sub_neg.mpr h).ne]; norm_num
  rw [hT]; ring

end Wiz
