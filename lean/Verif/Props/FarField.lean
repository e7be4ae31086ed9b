import Verif.Lemmas.FarField
import Verif.Props.VortexDoublet
import Verif.Props.RotorDisk
/-! # C101–C103: near-axis and far-field approximations of the ring, of the cylinder and of the skewed cylinder

The validation routines of the library (`test_VC_axis_approx`, `test_Ring_axis_approx`, `test_Ring_doublet_approx`,
`examples/VortexDoublet_CompareCylinder.py`, the wake models `VCFF` and `VD`) compare the exact kernels with approximate
formulas at a few points.  Here the differences are bounded at every point of the stated regions. -/
namespace Wiz
open Spec Real MeasureTheory Set Filter Topology

theorem norm_sq_add (x y z : ℝ) : V3.norm (⟨x, y, z⟩ : V3 ℝ) ^ 2 = x^2 + y^2 + z^2 := by
  unfold V3.norm; rw [sq_sqrt (by positivity)]

/-! ### C101: near the axis -/

/-- C101 (ring): within `R/5` of the axis `ring_u` returns the linearised field — axial velocity `ΓR²/2a³`, radial
velocity `3ΓR² r z/4a⁵` with `a² = R²+z²` — up to `40|Γ|R²r²/a⁵` per component (in the routine's axis cut-off `r < 1e-7 R`:
the axial velocity is exactly `ΓR²/2a³`, the horizontal one is zero). -/
theorem C101_ring (p : V3 ℝ) (Γ R ε : ℝ) (hR : 0 < R) (hr : √(p.x^2 + p.y^2) ≤ R/5) :
    ∃ u : V3 ℝ, ringU p Γ R ε = V3.fin u ∧
      (1e-7 * R ≤ √(p.x^2 + p.y^2) →
        |u.x - 3*Γ*R^2*p.x*p.z/(4*√(R^2 + p.z^2)^5)| ≤ 40 * |Γ| * (R^2 * (p.x^2 + p.y^2)/√(R^2 + p.z^2)^5) ∧
        |u.y - 3*Γ*R^2*p.y*p.z/(4*√(R^2 + p.z^2)^5)| ≤ 40 * |Γ| * (R^2 * (p.x^2 + p.y^2)/√(R^2 + p.z^2)^5) ∧
        |u.z - Γ*R^2/(2*√(R^2 + p.z^2)^3)| ≤ 40 * |Γ| * (R^2 * (p.x^2 + p.y^2)/√(R^2 + p.z^2)^5)) ∧
      (√(p.x^2 + p.y^2) < 1e-7 * R → u.x = 0 ∧ u.y = 0 ∧ u.z = Γ*R^2/(2*√(R^2 + p.z^2)^3)) := by
  have ha : 0 < √(R^2 + p.z^2) := sqrt_pos.mpr (by positivity)
  have ha2 : √(R^2 + p.z^2)^2 = R^2 + p.z^2 := sq_sqrt (by positivity)
  have hr2 : √(p.x^2 + p.y^2)^2 = p.x^2 + p.y^2 := sq_sqrt (by positivity)
  by_cases h : √(p.x^2 + p.y^2) < 1e-7 * R
  · refine ⟨_, (C52_axis p Γ R ε "Oseen" hR h).1, fun h' => absurd h (not_lt.mpr h'), fun _ => ?_⟩
    obtain ⟨k1, k2, k3⟩ := ring_near_axis (x := 0) (y := 0) (z := p.z) (r := 0) Γ hR le_rfl (by ring) (by positivity) ha ha2
    norm_num at k1 k2 k3
    refine ⟨k1, k2, ?_⟩
    linarith
  · refine ⟨_, C52_biot_savart p Γ R ε hR (not_lt.mp h) (Or.inl ?_), fun _ => ?_, fun h' => absurd h' h⟩
    · rw [abs_sub_comm, abs_of_nonneg (by linarith)]; norm_num at *; linarith
    · have := ring_near_axis (x := p.x) (y := p.y) (z := p.z) Γ hR (sqrt_nonneg _) hr2 hr ha ha2
      rwa [hr2] at this

example : √((1:ℝ)^2 + 0^2) ≤ 10/5 ∧ 1e-7 * (10:ℝ) ≤ √((1:ℝ)^2 + 0^2) := by
  rw [show (1:ℝ)^2 + 0^2 = 1^2 by norm_num, sqrt_sq (by norm_num)]; norm_num

/-- C101 (cylinder): within `R/5` of the axis (outside the routine's axis cut-off) the horizontal velocity of `vc_tang_u` is
`-γ/4 · R² r/a³` up to `5/2 |γ| R³r²/a⁵`, and the axial velocity is `γ/2 (1+z/a)` up to `5/2 |γ| |z| R²r²/a⁵` and the
truncation error `γ/2 · z√m/(2π√(rR)) · (R-r)/(R+r) · (c-Π(n,m))` of the Carlson recursion, `a² = R²+z²`. -/
theorem C101_cylinder (pts : List (V3 ℝ)) (γ R : ℝ) (hR : 0 < R) :
    ∃ (kF kJ : ℕ) (kC : ℕ → ℕ), (1 ≤ kF ∧ kF ≤ 20) ∧ (1 ≤ kJ ∧ kJ ≤ 20) ∧ (∀ j, 1 ≤ kC j ∧ kC j ≤ 20) ∧
    ∀ (i : ℕ) (p : V3 ℝ), pts[i]? = some p → 1e-7 * R ≤ √(p.x^2 + p.y^2) → √(p.x^2 + p.y^2) ≤ R/5 →
      ∃ (r a n m c : ℝ) (u : V3 ℝ), r = √(p.x^2 + p.y^2) ∧ a = √(R^2 + p.z^2) ∧ n = 4*r*R/(R+r)^2 ∧ m = 4*r*R/((R+r)^2 + p.z^2) ∧
        carlsonPi kF kJ kC (.fin n) (.fin m) = .fin c ∧ (vcTang pts (.fin γ) R 0)[i]? = some (V3.fin u) ∧
        |u.x - -(γ/4 * (p.x * R^2/a^3))| ≤ 5/2 * |γ| * (R^3 * r^2/a^5) ∧
        |u.y - -(γ/4 * (p.y * R^2/a^3))| ≤ 5/2 * |γ| * (R^3 * r^2/a^5) ∧
        |u.z - γ/2 * (1 + p.z/a) - γ/2 * (p.z * √m / (2*π*√(r*R))) * ((R - r)/(R + r)) * (c - ellPi n m)|
          ≤ 5/2 * |γ| * (|p.z| * R^2 * r^2/a^5) := by
  obtain ⟨kF, kJ, kC, hF, hJ, hC, H⟩ := C47_batch pts γ R hR
  refine ⟨kF, kJ, kC, hF, hJ, hC, fun i p hi h1 h2 => ?_⟩
  have ha : 0 < √(R^2 + p.z^2) := sqrt_pos.mpr (by positivity)
  have ha2 : √(R^2 + p.z^2)^2 = R^2 + p.z^2 := sq_sqrt (by positivity)
  have hr2 : √(p.x^2 + p.y^2)^2 = p.x^2 + p.y^2 := sq_sqrt (by positivity)
  obtain ⟨r, n, m, c, e1, e2, e3, e4, e5⟩ := H i p hi h1 (by linarith) (by
    rintro ⟨h, -⟩
    rw [abs_lt] at h
    norm_num at h
    linarith [h.1])
  have hoff : OffWake R 0 ⟨p.x, p.y, p.z⟩ := offWake_axis' hR (sqrt_nonneg _) hr2 h2
  have hc := (C78_fields γ R hR p hoff).1
  obtain ⟨k1, k2⟩ := cyl_near_axis_xy (x := p.x) (y := p.y) (z := p.z) γ hR (sqrt_nonneg _) hr2 h2 ha ha2
  have k3 := cyl_near_axis_z (x := p.x) (y := p.y) (z := p.z) γ hR (sqrt_nonneg _) hr2 h2 ha ha2
  change skewTangField γ R 0 ⟨p.x, p.y, p.z⟩ = _ at hc
  rw [hc] at k1 k2 k3
  subst e1
  refine ⟨_, _, n, m, c, _, rfl, rfl, e2, e3, e4, e5, ?_, ?_, ?_⟩
  · simpa using k1
  · simpa using k2
  · simp only [V3.add_z]
    refine le_trans (le_of_eq ?_) k3
    congr 1; ring

/-- C101 (cylinder, inside the axis cut-off of the routine): the horizontal velocity is zero and the axial one exactly
`γ/2 (1+z/a)`, for every batch. -/
theorem C101_cylinder_cutoff (pts : List (V3 ℝ)) (γ R : ℝ) (hR : 0 < R) (i : ℕ) (p : V3 ℝ) (hi : pts[i]? = some p)
    (hax : √(p.x^2 + p.y^2) < 1e-7 * R) (a : ℝ) (ha : a = √(R^2 + p.z^2)) :
    (vcTang pts (.fin γ) R 0)[i]? = some (V3.fin ⟨0, 0, γ/2 * (1 + p.z/a)⟩) := by
  rw [ha, add_comm (R^2)]; exact vcTang_axis pts γ R hR i p hi hax

example : √((0:ℝ)^2 + 0^2) < 1e-7 * 10 := by norm_num

/-! ### C102: a ring seen from afar is a doublet -/

theorem cutoff_sq {R a r : ℝ} (Γ : ℝ) (hR : 0 < R) (ha : 0 < a) (hr0 : 0 ≤ r) (hrR : r ≤ 1/10000000 * R) (hRa : R ≤ a) :
    40 * |Γ| * (R^2 * r^2/a^5) ≤ 40/1000 * (|Γ| * (R^3/a^4)) := by
  have q1 : R^2 * r^2/a^5 ≤ 1/1000 * (R^3/a^4) := by
    rw [div_le_iff₀ (by positivity)]
    have : 1/1000 * (R^3/a^4) * a^5 = 1/1000 * (R^3 * a) := by field_simp
    rw [this]
    have h1 : r^2 ≤ (1/10000000 * R)^2 := by gcongr
    have h2 : R^2 * r^2 ≤ R^2 * (1/10000000 * R)^2 := by gcongr
    have h3 : R^3 * R ≤ R^3 * a := by gcongr
    have h4 : R^2 * (1/10000000 * R)^2 = 1/100000000000000 * (R^3 * R) := by ring
    have h5 : 0 < R^3 * R := by positivity
    linarith
  have := mul_le_mul_of_nonneg_left q1 (abs_nonneg Γ)
  linarith

theorem cutoff_lin {R a x z : ℝ} (Γ : ℝ) (hR : 0 < R) (ha : 0 < a) (hx : |x| ≤ 1/10000000 * R) (hz : |z| ≤ a) :
    |3*Γ*R^2*x*z/(4*a^5)| ≤ 1/1000 * (|Γ| * (R^3/a^4)) := by
  have e : |3*Γ*R^2*x*z/(4*a^5)| = |Γ| * (3/4 * (R^2 * (|x| * |z|)/a^5)) := by
    rw [abs_div, abs_mul, abs_mul, abs_mul, abs_mul, abs_of_pos (show (0:ℝ) < 3 by norm_num),
      abs_of_pos (show (0:ℝ) < R^2 by positivity), abs_of_pos (show (0:ℝ) < 4*a^5 by positivity)]
    field_simp
  rw [e]
  have h1 : R^2 * (|x| * |z|)/a^5 ≤ 1/10000000 * (R^3/a^4) := by
    rw [div_le_iff₀ (by positivity)]
    have e2 : 1/10000000 * (R^3/a^4) * a^5 = R^2 * ((1/10000000 * R) * a) := by field_simp
    rw [e2]
    gcongr
  have hp : 0 ≤ R^3/a^4 := by positivity
  have h2 : 3/4 * (R^2 * (|x| * |z|)/a^5) ≤ 1/1000 * (R^3/a^4) := by linarith
  have := mul_le_mul_of_nonneg_left h2 (abs_nonneg Γ)
  linarith

theorem cutoff_tri {u v w t A C G B : ℝ} (h1 : |w - v| ≤ 40 * G * B) (h2 : |w - t| ≤ C) (h3 : |u - t| ≤ 1/1000 * A)
    (h4 : C ≤ 40/1000 * A) (h5 : A ≤ G * B) : |u - v| ≤ 41 * G * B := by
  have h0 : 0 ≤ A := by linarith [abs_nonneg (u - t)]
  rw [abs_le] at *
  constructor <;> linarith [h1.1, h1.2, h2.1, h2.2, h3.1, h3.2]

/-- C102: at least five radii away from its centre (and outside the cut-off `d³ < 1e-8` of `doublet_u`), the velocity
`ring_u` gives is the one `doublet_u` gives for the moment `(0,0,ΓπR²)`, up to `41|Γ|R³/d⁴` per component, `d` the distance to
the centre — inside the axis cut-off of the routine as well. -/
theorem C102_ring_doublet (p : V3 ℝ) (Γ R ε : ℝ) (hR : 0 < R) (hd : 5 * R ≤ V3.norm p) (hd8 : 1e-8 ≤ V3.norm p^3) :
    ∃ u v : V3 ℝ, ringU p Γ R ε = V3.fin u ∧ doubletU p (V3.fin ⟨0, 0, Γ * (π*R^2)⟩) 0 = V3.fin v ∧
      |u.x - v.x| ≤ 41 * |Γ| * (R^3/V3.norm p^4) ∧ |u.y - v.y| ≤ 41 * |Γ| * (R^3/V3.norm p^4) ∧
      |u.z - v.z| ≤ 41 * |Γ| * (R^3/V3.norm p^4) := by
  have e0 : p - 0 = p := by ext <;> simp
  have hd2 : V3.norm p^2 = p.x^2 + p.y^2 + p.z^2 := norm_sq_add p.x p.y p.z
  have hpos : 0 ≤ |Γ| * (R^3/V3.norm p^4) := by positivity
  obtain ⟨f1, f2, f3⟩ := ring_far Γ hR hd hd2
  rcases le_or_gt (1e-7 * R) (√(p.x^2 + p.y^2)) with h | h
  · refine ⟨ringField Γ R p, _, ?_, (C55_field p _ 0).1 (by rwa [e0]), by linarith, by linarith, by linarith⟩
    refine C52_biot_savart p Γ R ε hR h ?_
    by_contra hcon
    push Not at hcon
    obtain ⟨c1, c2⟩ := hcon
    have hr2 : √(p.x^2 + p.y^2)^2 = p.x^2 + p.y^2 := sq_sqrt (by positivity)
    have hs := sqrt_nonneg (p.x^2 + p.y^2)
    rw [abs_lt] at c1 c2
    rw [← hr2] at hd2
    generalize √(p.x^2 + p.y^2) = r at *
    have hn : 0 ≤ V3.norm p := sqrt_nonneg _
    generalize V3.norm p = d at *
    norm_num at c1 c2 hd8
    have hr' : r ≤ 2*R := by linarith [c1.2]
    have hz2 : p.z^2 ≤ (1/10000000)^2 := by nlinarith
    -- d² ≤ 4R² + 1e-14, d ≥ 5R : 21 d²/25 ≤ 1e-14
    have h4 : r^2 ≤ 4*R^2 := by nlinarith
    have h5 : 25*R^2 ≤ d^2 := by nlinarith
    have h6 : d^2 ≤ (1/1000000)^2 := by nlinarith
    have h7 : d ≤ 1/1000000 := by
      by_contra hh; push Not at hh; nlinarith
    have h8 : d^3 ≤ (1/1000000)^3 := by gcongr
    norm_num at h8
    linarith
  · refine ⟨_, _, (C52_axis p Γ R ε "Oseen" hR h).1, (C55_field p _ 0).1 (by rwa [e0]), ?_⟩
    have ha : 0 < √(R^2 + p.z^2) := sqrt_pos.mpr (by positivity)
    have ha2 : √(R^2 + p.z^2)^2 = R^2 + p.z^2 := sq_sqrt (by positivity)
    have hr2 : √(p.x^2 + p.y^2)^2 = p.x^2 + p.y^2 := sq_sqrt (by positivity)
    have hr0 := sqrt_nonneg (p.x^2 + p.y^2)
    obtain ⟨k1, k2, k3⟩ := ring_near_axis (x := 0) (y := 0) (z := p.z) (r := 0) Γ hR le_rfl (by ring) (by positivity) ha ha2
    norm_num at k1 k2 k3
    obtain ⟨l1, l2, l3⟩ := ring_near_axis (x := p.x) (y := p.y) (z := p.z) (r := √(p.x^2 + p.y^2)) Γ hR hr0 hr2
      (by norm_num at h; linarith) ha ha2
    have hn : 0 < V3.norm p := by linarith
    have hx : |p.x| ≤ √(p.x^2 + p.y^2) := abs_le_sqrt (by nlinarith [sq_nonneg p.y])
    have hy : |p.y| ≤ √(p.x^2 + p.y^2) := abs_le_sqrt (by nlinarith [sq_nonneg p.x])
    have hz : |p.z| ≤ √(R^2 + p.z^2) := abs_le_sqrt (by nlinarith [sq_nonneg R])
    have hRa : R ≤ √(R^2 + p.z^2) := le_sqrt_of_sq_le (by nlinarith [sq_nonneg p.z])
    have hda : V3.norm p ≤ √(R^2 + p.z^2) := by
      apply le_sqrt_of_sq_le
      rw [hd2, ← hr2]
      norm_num at h
      nlinarith
    generalize √(p.x^2 + p.y^2) = r at *
    generalize √(R^2 + p.z^2) = a at *
    generalize V3.norm p = d at *
    have hrR : r ≤ 1/10000000 * R := by norm_num at h; linarith
    have hR3 : R^3/a^4 ≤ R^3/d^4 := by gcongr
    have q3 := cutoff_sq Γ hR ha hr0 hrR hRa
    have q2 : ∀ x : ℝ, |x| ≤ r → |3*Γ*R^2*x*p.z/(4*a^5)| ≤ 1/1000 * (|Γ| * (R^3/a^4)) :=
      fun x hx => cutoff_lin Γ hR ha (hx.trans hrR) hz
    have q4 : |Γ| * (R^3/a^4) ≤ |Γ| * (R^3/d^4) := mul_le_mul_of_nonneg_left hR3 (abs_nonneg Γ)
    have m1 := q2 p.x hx
    have m2 := q2 p.y hy
    have hA : 0 ≤ 1/1000 * (|Γ| * (R^3/a^4)) := by positivity
    have hS : |Γ*R^2/(2*a^3) - Γ*R^2/(2*a^3)| ≤ 1/1000 * (|Γ| * (R^3/a^4)) := by rw [sub_self, abs_zero]; exact hA
    refine ⟨?_, ?_, ?_⟩
    · rw [k1]; exact cutoff_tri f1 l1 (by rw [zero_sub, abs_neg]; exact m1) q3 q4
    · rw [k2]; exact cutoff_tri f2 l2 (by rw [zero_sub, abs_neg]; exact m2) q3 q4
    · rw [sub_eq_zero.mp k3]; exact cutoff_tri f3 l3 hS q3 q4

example : 1e-7 * (10:ℝ) ≤ √((120:ℝ)^2 + 0^2) ∧ 5 * (10:ℝ) ≤ V3.norm (⟨120, 0, 160⟩ : V3 ℝ) ∧ (1e-8:ℝ) ≤ V3.norm (⟨120, 0, 160⟩ : V3 ℝ)^3 := by
  unfold V3.norm
  simp only
  rw [show (120:ℝ)^2 + 0^2 = 120^2 by norm_num, show (120:ℝ)^2 + 160^2 = 200^2 by norm_num, sqrt_sq (by norm_num), sqrt_sq (by norm_num)]
  norm_num

/-! ### C103: a wake seen from afar is a line of doublets -/

theorem far_off_line {m δ : ℝ} {p : V3 ℝ} (hδ8 : 2e-8 ≤ δ) (h : ∀ z, 0 ≤ z → δ ≤ V3.norm (p - ⟨m*z, 0, z⟩)) :
    ¬ (|p.y| < 1e-8 ∧ |p.x - m*p.z| < 1e-8 ∧ 0 ≤ p.z) := by
  rintro ⟨h1, h2, h3⟩
  have h4 := h p.z h3
  have h5 : V3.norm (p - ⟨m*p.z, 0, p.z⟩)^2 = (p.x - m*p.z)^2 + p.y^2 := by
    unfold V3.norm; rw [sq_sqrt (by positivity)]
    simp only [V3.sub_x, V3.sub_y, V3.sub_z, sub_zero, sub_self]; ring
  generalize V3.norm (p - ⟨m*p.z, 0, p.z⟩) = d at *
  generalize p.x - m*p.z = q at *
  rw [abs_lt] at h1 h2
  norm_num at *
  have : p.y^2 ≤ (1/100000000)^2 := by nlinarith
  have : q^2 ≤ (1/100000000)^2 := by nlinarith
  nlinarith

/-- C103 (skewed): at a point `P` at least `δ ≥ 5R` away from every point of the wake axis, the velocity of `svc_tang_u`
converges, as the number of quadrature points grows, to within `126 |γ| √(1+m²) (R/δ)³` of the one `doublet_line_u` gives for
the half-line of slope `m` carrying the moment `γ√(1+m²) πR²` per unit height. -/
theorem C103_skewed (P : V3 ℝ) (γ R m δ : ℝ) (hR : 0 < R) (hδ : 5*R ≤ δ) (hδ8 : 2e-8 ≤ δ)
    (h : ∀ z, 0 ≤ z → δ ≤ V3.norm (P - ⟨m*z, 0, z⟩)) :
    ∃ (u : ℕ → V3 ℝ) (F D : V3 ℝ), (∀ n, svcTang [P] (.fin γ) R (.fin m) (n+1) false = [V3.fin (u n)]) ∧
      Tendsto (fun n => (u n).x) atTop (𝓝 F.x) ∧ Tendsto (fun n => (u n).y) atTop (𝓝 F.y) ∧ Tendsto (fun n => (u n).z) atTop (𝓝 F.z) ∧
      doubletLineU P (.fin (γ * √(1+m^2) * (π*R^2))) m none = V3.fin D ∧
      |F.x - D.x| ≤ 126 * (|γ| * √(1+m^2)) * (R/δ)^3 ∧ |F.y - D.y| ≤ 126 * (|γ| * √(1+m^2)) * (R/δ)^3 ∧
      |F.z - D.z| ≤ 126 * (|γ| * √(1+m^2)) * (R/δ)^3 := by
  obtain ⟨u, hu, t1, t2, t3⟩ := svcTang_tendsto γ hR (offWake_far hR hδ h)
  exact ⟨u, _, _, hu, t1, t2, t3, (C58_semi_infinite P _ m).1 (far_off_line hδ8 h),
    sheet_far γ hR hδ h V3.x (by simp), sheet_far γ hR hδ h V3.y (by simp), sheet_far γ hR hδ h V3.z (by simp)⟩

theorem sink_value (p : V3 ℝ) (γ R : ℝ) :
    V3.smul (-(γ * (π*R^2)/(4*π)) / V3.norm p^3) p = V3.smul (-(γ * R^2 / 4) / √(p.x^2 + p.y^2 + p.z^2)^3) p := by
  have := pi_pos
  have e : γ * (π*R^2)/(4*π) = γ * R^2/4 := by field_simp
  rw [e]; rfl

/-- C103 (straight): far from the wake axis the three wake models of an unyawed turbine agree: the cylinder (`VC`,
`vc_tang_u`), the doublet line (`VD`, `doublet_line_u`) and the cylinder with far field (`VCFF`, `vc_tang_u_doublet`, beyond its
cut-off).  `D` is the doublet velocity, common to the last two; the cylinder differs from it by at most `126|γ|(R/δ)³` per
component (up to the Carlson truncation term in the axial component). -/
theorem C103_straight (pts : List (V3 ℝ)) (γ R rCut : ℝ) (hR : 0 < R) :
    ∃ (kF kJ : ℕ) (kC : ℕ → ℕ), (1 ≤ kF ∧ kF ≤ 20) ∧ (1 ≤ kJ ∧ kJ ≤ 20) ∧ (∀ j, 1 ≤ kC j ∧ kC j ≤ 20) ∧
    ∀ (i : ℕ) (p : V3 ℝ) (δ : ℝ), pts[i]? = some p → 5*R ≤ δ → 2e-8 ≤ δ → (∀ z, 0 ≤ z → δ ≤ V3.norm (p - ⟨0, 0, z⟩)) →
      1e-7 * R ≤ √(p.x^2 + p.y^2) → √(p.x^2 + p.y^2) ≠ R →
      ∃ (r n m c : ℝ) (F D : V3 ℝ), r = √(p.x^2 + p.y^2) ∧ n = 4*r*R/(R+r)^2 ∧ m = 4*r*R/((R+r)^2 + p.z^2) ∧
        carlsonPi kF kJ kC (.fin n) (.fin m) = .fin c ∧
        (vcTang pts (.fin γ) R 0)[i]? = some (V3.fin (F + ⟨0, 0, γ/2 * (p.z * √m / (2*π*√(r*R))) * ((R - r)/(R + r)) * (c - ellPi n m)⟩)) ∧
        doubletLineU p (.fin γ * .fin (π*R^2)) 0 none = V3.fin D ∧
        (rCut * R < √(p.x^2 + p.y^2 + p.z^2) → 1e-8 ≤ √(p.x^2 + p.y^2) → 1e-8 ≤ |p.z| →
          (vcTangDoublet pts (.fin γ) R rCut)[i]? = some (V3.fin D)) ∧
        |F.x - D.x| ≤ 126 * |γ| * (R/δ)^3 ∧ |F.y - D.y| ≤ 126 * |γ| * (R/δ)^3 ∧ |F.z - D.z| ≤ 126 * |γ| * (R/δ)^3 := by
  obtain ⟨kF, kJ, kC, hF, hJ, hC, H⟩ := C47_batch pts γ R hR
  refine ⟨kF, kJ, kC, hF, hJ, hC, fun i p δ hi hδ hδ8 hfar hax hne => ?_⟩
  have hfar' : ∀ z, 0 ≤ z → δ ≤ V3.norm (p - ⟨0*z, 0, z⟩) := by simpa using hfar
  have hr2 : √(p.x^2 + p.y^2)^2 = p.x^2 + p.y^2 := sq_sqrt (by positivity)
  have hs := sqrt_nonneg (p.x^2 + p.y^2)
  have hge : ∀ z, 0 ≤ z → δ^2 ≤ √(p.x^2 + p.y^2)^2 + (p.z - z)^2 := by
    intro z hz
    have h1 := hfar z hz
    have h2 : V3.norm (p - ⟨0, 0, z⟩)^2 = √(p.x^2 + p.y^2)^2 + (p.z - z)^2 := by
      rw [hr2]; unfold V3.norm; rw [sq_sqrt (by positivity)]; simp only [V3.sub_x, V3.sub_y, V3.sub_z, sub_zero]
    rw [← h2]; gcongr
  obtain ⟨r, n, m, c, e1, e2, e3, e4, e5⟩ := H i p hi hax hne (by
    rintro ⟨h1, h2⟩
    have h3 := hge 0 le_rfl
    rw [abs_lt] at h1 h2
    generalize √(p.x^2 + p.y^2) = r at *
    norm_num at h1 h2
    nlinarith)
  have hoff := offWake_far hR hδ hfar'
  have hc := (C78_fields γ R hR p hoff).1
  have hline := far_off_line hδ8 hfar'
  have hK : γ * √(1+0^2) * (π*R^2) = γ * (π*R^2) := by norm_num
  have hb : ∀ π', (π' = V3.x ∨ π' = V3.y ∨ π' = V3.z) → _ := fun π' hπ => sheet_far γ hR hδ hfar' π' hπ
  simp only [hK, hc, show (|γ| * √(1+0^2)) = |γ| by norm_num] at hb
  subst e1
  refine ⟨_, n, m, c, cylinderField γ R p, _, rfl, e2, e3, e4, e5, ?_, ?_, hb V3.x (by simp), hb V3.y (by simp), hb V3.z (by simp)⟩
  · rw [Num.fin_mul]; exact (C58_semi_infinite p _ 0).1 hline
  · intro g1 g2 g3
    rw [C49_outside pts γ R rCut hR i p hi g1 g2 g3, doublet_line_straight, sink_value]
    rintro ⟨q1, q2, q3⟩
    rw [q1, q2] at g2
    norm_num at g2

/-- the point `(3,4,12)` and a rotor of radius 1: distance 5 to the wake axis -/
example : (∀ z, (0:ℝ) ≤ z → (5:ℝ) ≤ V3.norm ((⟨3, 4, 12⟩ : V3 ℝ) - ⟨0, 0, z⟩)) ∧ (1e-7:ℝ) * 1 ≤ √((3:ℝ)^2 + 4^2) ∧ √((3:ℝ)^2 + 4^2) ≠ 1 ∧
    (6:ℝ) * 1 < √((3:ℝ)^2 + 4^2 + 12^2) := by
  refine ⟨fun z _ => ?_, ?_, ?_, ?_⟩
  · unfold V3.norm
    apply le_sqrt_of_sq_le
    simp only [V3.sub_x, V3.sub_y, V3.sub_z]
    nlinarith [sq_nonneg (12 - z)]
  all_goals
    first
      | rw [show (3:ℝ)^2 + 4^2 + 12^2 = 13^2 by norm_num, sqrt_sq (by norm_num)]; norm_num
      | rw [show (3:ℝ)^2 + 4^2 = 5^2 by norm_num, sqrt_sq (by norm_num)]; norm_num

/-- C103 (limit of validity): the agreement fails inside the wake, at any distance downstream.  At a point within `R/5` of the
axis and beyond the cut-off the doublet model and the `VCFF` model give an axial velocity `d` of the sign opposite to that of `γ`
whereas the vortex cylinder (its Biot–Savart field, `vc_tang_u` up to the truncation of C47) gives at least `0.4 γ` in the
direction of `γ`: the velocity deficit of the wake is lost. -/
theorem C103_inside_wake (pts : List (V3 ℝ)) (γ R rCut : ℝ) (hR : 0 < R) (i : ℕ) (p : V3 ℝ) (hi : pts[i]? = some p)
    (hout : rCut * R < √(p.x^2 + p.y^2 + p.z^2)) (hr8 : 2e-8 ≤ √(p.x^2 + p.y^2)) (hz : 1e-8 ≤ p.z) (hrR : √(p.x^2 + p.y^2) ≤ R/5) :
    ∃ D : V3 ℝ, (vcTangDoublet pts (.fin γ) R rCut)[i]? = some (V3.fin D) ∧ doubletLineU p (.fin γ * .fin (π*R^2)) 0 none = V3.fin D ∧
      γ * D.z ≤ 0 ∧ 2/5 * γ^2 ≤ γ * (cylinderField γ R p).z := by
  have ha : 0 < √(R^2 + p.z^2) := sqrt_pos.mpr (by positivity)
  have ha2 : √(R^2 + p.z^2)^2 = R^2 + p.z^2 := sq_sqrt (by positivity)
  have hr2 : √(p.x^2 + p.y^2)^2 = p.x^2 + p.y^2 := sq_sqrt (by positivity)
  have hz0 : 0 < p.z := lt_of_lt_of_le (by norm_num) hz
  refine ⟨_, C49_outside pts γ R rCut hR i p hi hout (le_trans (by norm_num) hr8) (hz.trans (le_abs_self _)), ?_, ?_, ?_⟩
  · rw [Num.fin_mul, C59_point_source p _ ?_, sink_value]
    rintro ⟨h1, h2, -⟩
    have hs := sqrt_nonneg (p.x^2 + p.y^2)
    generalize √(p.x^2 + p.y^2) = r at *
    rw [abs_lt] at h1 h2
    norm_num at h1 h2 hr8
    have : p.y^2 ≤ (1/100000000)^2 := by nlinarith
    have : p.x^2 ≤ (1/100000000)^2 := by nlinarith
    nlinarith
  · simp only [V3.smul_z]
    have : 0 < √(p.x^2 + p.y^2 + p.z^2) := sqrt_pos.mpr (by positivity)
    have e : γ * (-(γ * R^2/4) / √(p.x^2 + p.y^2 + p.z^2)^3 * p.z) = -(γ^2 * (R^2/4 / √(p.x^2 + p.y^2 + p.z^2)^3 * p.z)) := by ring
    rw [e]
    have : 0 ≤ γ^2 * (R^2/4 / √(p.x^2 + p.y^2 + p.z^2)^3 * p.z) := by positivity
    linarith
  · have hoff : OffWake R 0 ⟨p.x, p.y, p.z⟩ := offWake_axis' hR (sqrt_nonneg _) hr2 hrR
    have hc := (C78_fields γ R hR p hoff).1
    have k3 := cyl_near_axis_z (x := p.x) (y := p.y) (z := p.z) γ hR (sqrt_nonneg _) hr2 hrR ha ha2
    change skewTangField γ R 0 ⟨p.x, p.y, p.z⟩ = _ at hc
    rw [hc] at k3
    have hs := sqrt_nonneg (p.x^2 + p.y^2)
    generalize (cylinderField γ R p).z = w at *
    generalize √(p.x^2 + p.y^2) = r at *
    have hw : γ * (γ/2 * (1 + p.z/√(R^2 + p.z^2))) - |γ| * (5/2 * |γ| * (|p.z| * R^2 * r^2/√(R^2 + p.z^2)^5)) ≤ γ * w := by
      have h1 : |γ * (w - γ/2 * (1 + p.z/√(R^2 + p.z^2)))| ≤ |γ| * (5/2 * |γ| * (|p.z| * R^2 * r^2/√(R^2 + p.z^2)^5)) := by
        rw [abs_mul]; gcongr
      have h2 := (abs_le.mp h1).1
      linarith
    refine le_trans ?_ hw
    generalize √(R^2 + p.z^2) = a at *
    rw [abs_of_pos hz0]
    have e : |γ| * (5/2 * |γ| * (p.z * R^2 * r^2/a^5)) = γ^2 * (5/2 * (p.z * R^2 * r^2/a^5)) := by rw [← sq_abs γ]; ring
    rw [e, show γ * (γ/2 * (1 + p.z/a)) = γ^2 * ((1 + p.z/a)/2) by ring, ← mul_sub, mul_comm (2/5)]
    refine mul_le_mul_of_nonneg_left ?_ (sq_nonneg γ)
    have hza : p.z ≤ a := by nlinarith
    have hRa : R ≤ a := by nlinarith
    have h3 : p.z * R^2 * r^2/a^5 ≤ 1/25 := by
      rw [div_le_div_iff₀ (by positivity) (by norm_num)]
      have : r^2 ≤ (R/5)^2 := by gcongr
      calc p.z * R^2 * r^2 * 25 ≤ p.z * R^2 * (R/5)^2 * 25 := by gcongr
        _ = p.z * R^2 * R^2 := by ring
        _ ≤ a * a^2 * a^2 := by gcongr
        _ = 1 * a^5 := by ring
    have h4 : 0 ≤ p.z/a := by positivity
    linarith

example : (6:ℝ) * 10 < √((1:ℝ)^2 + 0^2 + 100^2) ∧ (2e-8:ℝ) ≤ √((1:ℝ)^2 + 0^2) ∧ (1e-8:ℝ) ≤ 100 ∧ √((1:ℝ)^2 + 0^2) ≤ 10/5 := by
  refine ⟨lt_sqrt_of_sq_lt (by norm_num), ?_, by norm_num, ?_⟩ <;>
  · rw [show (1:ℝ)^2 + 0^2 = 1^2 by norm_num, sqrt_sq (by norm_num)]; norm_num
end Wiz
