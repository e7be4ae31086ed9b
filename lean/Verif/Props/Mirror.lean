import Verif.Props.VortexCylinderLongi
import Verif.Props.VortexLine
import Verif.Props.VortexRing
import Verif.Props.VortexCylinder
/-! C105: reflection in the plane of the rotor.

A semi-infinite cylinder and its mirror image make up the infinite cylinder, whose field is known
exactly: `γ` inside, nothing outside.  The routines reproduce this identity exactly, truncation of
the third-kind integral included, because the recursion is run on the squares of the heights. -/
namespace Wiz
open Spec Real Classical

theorem longiBatch_mirror (pts : List (V3 ℝ)) (R : ℝ) :
    longiBatch (pts.map fun p => ⟨p.x, p.y, -p.z⟩) R = longiBatch pts R := by
  unfold longiBatch
  simp only [List.map_map, Function.comp_def, Num.fin_pow, neg_sq]

/-- C105, longitudinal vorticity: the swirl at a point and at its mirror image add up to that of the
infinite cylinder of axial vorticity, `γ_l R/r` outside and nothing inside. -/
theorem C105_longitudinal (pts : List (V3 ℝ)) (γ R : ℝ) (hR : 0 < R) (i : ℕ) (p : V3 ℝ) (hi : pts[i]? = some p)
    (hr : 0 < √(p.x^2 + p.y^2)) (hne : √(p.x^2 + p.y^2) ≠ R) :
    ∃ u v : ℝ, (vcLongi pts (.fin γ) R true)[i]? = some (V3.fin ⟨0, u, 0⟩) ∧
      (vcLongi (pts.map fun p => ⟨p.x, p.y, -p.z⟩) (.fin γ) R true)[i]? = some (V3.fin ⟨0, v, 0⟩) ∧
      u + v = if √(p.x^2 + p.y^2) < R then 0 else γ * R/√(p.x^2 + p.y^2) := by
  obtain ⟨c, hc, -, h1⟩ := vcLongi_real pts γ R hR i p hi hr hne
  obtain ⟨c', hc', -, h2⟩ := vcLongi_real (pts.map fun p => ⟨p.x, p.y, -p.z⟩) γ R hR i ⟨p.x, p.y, -p.z⟩
    (by rw [List.getElem?_map, hi]; rfl) hr hne
  have e : c' = c := by rw [hc, hc', longiBatch_mirror]; simp only [vcM_neg]
  refine ⟨_, _, h1, h2, ?_⟩
  rw [e]
  simp only
  change _ = if polarR p.x p.y < R then 0 else γ * R/polarR p.x p.y
  have hne' : polarR p.x p.y ≠ R := hne
  generalize polarR p.x p.y = r at *
  unfold vcUpsi
  rw [vcM_neg]
  unfold vcT
  rw [if_neg hne']
  split_ifs <;> ring

/-- C105, root vortex: the two half-lines make the infinite line vortex, `Γ/(2πr)`. -/
theorem C105_line (p : V3 ℝ) (Γ : ℝ) (hr : 0 < √(p.x^2 + p.y^2)) :
    ∃ u v : ℝ, vlSemiinfStraight p (.fin Γ) true = V3.fin ⟨0, u, 0⟩ ∧
      vlSemiinfStraight ⟨p.x, p.y, -p.z⟩ (.fin Γ) true = V3.fin ⟨0, v, 0⟩ ∧
      u + v = Γ/(2*π*√(p.x^2 + p.y^2)) := by
  have key : ∀ z, vlSemiinfStraight ⟨p.x, p.y, z⟩ (.fin Γ) true =
      V3.fin ⟨0, Γ/(4*π*√(p.x^2 + p.y^2)) * (1 + z/√(√(p.x^2 + p.y^2)^2 + z^2)), 0⟩ := by
    intro z
    unfold vlSemiinfStraight vlSemiinfStraightPolar
    simp only [Num.zero_def, Num.eqv_fin]
    change (if Γ = 0 then _ else _) = _
    have hp : polarR p.x p.y = √(p.x^2 + p.y^2) := rfl
    by_cases h0 : Γ = 0
    · rw [if_pos h0, h0]
      simp only [Num.fin_mul, mul_zero, zero_div, zero_mul]; rfl
    · rw [if_neg h0, if_pos trivial, hp]
      generalize √(p.x^2 + p.y^2) = r at *
      have hpi := pi_pos
      have hs : 0 < r^2 + z^2 := by positivity
      simp only [Num.one_def, Num.fin_pow, Num.fin_add, Num.sqrt_fin hs.le, Num.fin_mul, Num.fin_div (sqrt_pos.mpr hs).ne',
        Num.fin_div (show 4*π*r ≠ 0 by positivity)]
      rfl
  refine ⟨_, _, key p.z, key (-p.z), ?_⟩
  rw [neg_sq]
  generalize √(p.x^2 + p.y^2) = r at *
  have hpi := pi_pos
  generalize √(r^2 + p.z^2) = d
  rw [neg_div]
  field_simp
  ring

/-- C105, ring: reflected across its plane, the ring's axial velocity is unchanged and its
transverse velocity changes sign — everywhere the ring is evaluated, core and axis included. -/
theorem C105_ring (p : V3 ℝ) (Γ R ε : ℝ) (hR : 0 < R) (hε : 0 ≤ ε) :
    ∃ u : V3 ℝ, ringU p Γ R ε = V3.fin u ∧ ringU ⟨p.x, p.y, -p.z⟩ Γ R ε = V3.fin ⟨-u.x, -u.y, u.z⟩ := by
  have key : ∃ a b : ℝ, ringUPolarOut p Γ R ε = (.fin a, .fin b) ∧ ringUPolarOut ⟨p.x, p.y, -p.z⟩ Γ R ε = (.fin (-a), .fin b) := by
    have hr := polarR_nonneg p.x p.y
    have hpi := pi_pos
    unfold ringUPolarOut
    simp only [abs_neg]
    generalize polarR p.x p.y = r at *
    generalize p.z = z
    by_cases h1 : |r - R| < 1e-07 * R ∧ |z| < 1e-07
    · simp only [if_pos h1]
      by_cases he : ε = 0
      · simp only [if_pos he, Num.ofNat_def, Num.fin_mul, Num.fin_div (show 4*R ≠ 0 by positivity)]
        exact ⟨0, _, rfl, by rw [neg_zero]; rfl⟩
      · have he' : 0 < ε := lt_of_le_of_ne hε (Ne.symm he)
        have hl : 0 < 8*R/ε := by positivity
        simp only [if_neg he, Num.ofNat_def, Num.one_def, Num.fin_mul, Num.fin_div he, Num.log, if_pos hl,
          Num.fin_div (show (4:ℝ) ≠ 0 by norm_num), Num.fin_sub, Num.fin_div (show 4*π*R ≠ 0 by positivity)]
        exact ⟨0, _, rfl, by rw [neg_zero]; rfl⟩
    · simp only [if_neg h1]
      by_cases h2 : r < 1e-07 * R
      · simp only [if_pos h2, ringAxis_eval _ _ _ hR, neg_div, neg_sq]
        exact ⟨0, _, rfl, by rw [neg_zero]; rfl⟩
      · simp only [if_neg h2]
        have hr0 : 0 < r := by have : 0 < 1e-07 * R := by positivity
                               linarith
        have hne : ¬ (r = R ∧ z = 0) := by
          rintro ⟨rfl, rfl⟩; apply h1; simp only [sub_self, abs_zero]; constructor <;> positivity
        have hm := ring_m_lt hr0.le hR hne
        have hs : 0 < (r+R)^2 + z^2 := by positivity
        have hsq := sqrt_pos.mpr hs
        have hsq2 : √((r+R)^2 + z^2)^2 = (r+R)^2 + z^2 := sq_sqrt hs.le
        have hm1 : 1 - 4*r*R/((r+R)^2+z^2) ≠ 0 := by linarith
        have hB : -2*r*R ≠ 0 := by
          have := mul_pos hr0 hR
          intro h; nlinarith
        simp only [Num.ofNat_def, Num.one_def, Num.fin_mul, Num.fin_pow, Num.fin_add, Num.fin_neg, neg_sq, Num.sqrt_fin hs.le, hsq2,
          Num.fin_div hs.ne', Num.fin_div hsq.ne', ellipk_fin hm, ellipe_fin hm.le, Num.fin_sub, Num.fin_div hm1,
          Num.fin_div (pow_pos hsq 3).ne', Num.fin_div hB, Num.fin_div (show 4*π ≠ 0 by positivity)]
        refine ⟨_, _, rfl, pair_fin ?_ rfl⟩
        ring
  obtain ⟨a, b, h1, h2⟩ := key
  unfold ringU
  rw [h1, h2]
  simp only [Num.cos_fin, Num.sin_fin, Num.fin_mul, neg_mul]
  exact ⟨⟨_, _, _⟩, rfl, rfl⟩

/-- C105, finite cylinder: reflected across its mid-plane, the axial velocity is unchanged and the
radial velocity changes sign. -/
theorem C105_finite (pts : List (V3 ℝ)) (γ R z1 z2 : ℝ) (hR : 0 < R) (hreg : ∀ p ∈ pts, 0 < √(p.x^2 + p.y^2) ∧ √(p.x^2 + p.y^2) ≠ R)
    (i : ℕ) (p : V3 ℝ) (hi : pts[i]? = some p) :
    ∃ ur uz : ℝ, (cylinderTangPolar pts (.fin γ) R z1 z2)[i]? = some (.fin ur, .fin uz) ∧
      (cylinderTangPolar (pts.map fun p => ⟨p.x, p.y, z1 + z2 - p.z⟩) (.fin γ) R z1 z2)[i]? = some (.fin (-ur), .fin uz) := by
  have hreg' : ∀ p ∈ (pts.map fun p => (⟨p.x, p.y, z1 + z2 - p.z⟩ : V3 ℝ)), 0 < polarR p.x p.y ∧ polarR p.x p.y ≠ R := by
    intro p hp
    simp only [List.mem_map] at hp
    obtain ⟨q, hq, rfl⟩ := hp
    exact hreg q hq
  have h2 : ∀ r z, vcK2 R 0 r (-z) = vcK2 R 0 r z := fun r z => by
    unfold vcK2; simp only [if_true, Num.fin_pow, neg_sq]
  have h02 : ∀ r z, vcK02 R 0 r (-z) = vcK02 R 0 r z := fun r z => by unfold vcK02; simp only [if_true]
  have e1 : ∀ z : ℝ, z1 + z2 - z - z1 = -(z - z2) := fun z => by ring
  have e2 : ∀ z : ℝ, z1 + z2 - z - z2 = -(z - z1) := fun z => by ring
  rw [cyl_map pts γ R z1 z2 hR hreg, cyl_map _ γ R z1 z2 hR hreg', List.getElem?_map, List.getElem?_map, List.getElem?_map, hi]
  simp only [List.map_map, Function.comp_def, Option.map_some, e1, e2, h2, h02]
  generalize piReal (pts.map fun p => (vcK02 R 0 (polarR p.x p.y) (p.z-z1), vcK2 R 0 (polarR p.x p.y) (p.z-z1))) = q1
  generalize piReal (pts.map fun p => (vcK02 R 0 (polarR p.x p.y) (p.z-z2), vcK2 R 0 (polarR p.x p.y) (p.z-z2))) = q2
  refine ⟨_, _, rfl, congrArg some (pair_fin ?_ ?_)⟩
  · unfold vcUr; simp only [vcM_neg]; ring
  · unfold vcUz; simp only [vcM_neg]; ring

/-- a batch meeting the hypotheses of the reflection theorems: one point inside, one outside -/
example : ∀ p ∈ [(⟨0.3, 0.4, 2⟩ : V3 ℝ), ⟨3, 4, -1⟩], 0 < √(p.x^2 + p.y^2) ∧ √(p.x^2 + p.y^2) ≠ 1 := by
  intro p hp
  simp only [List.mem_cons, List.not_mem_nil, or_false] at hp
  rcases hp with rfl | rfl
  · simp only; rw [show (0.3:ℝ)^2 + 0.4^2 = 0.5^2 by norm_num, sqrt_sq (by norm_num)]; norm_num
  · simp only; rw [show (3:ℝ)^2 + 4^2 = 5^2 by norm_num, sqrt_sq (by norm_num)]; norm_num

end Wiz
