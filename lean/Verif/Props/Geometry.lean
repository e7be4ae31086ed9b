import Verif.Lemmas.Geometry
import Mathlib.Tactic.NormNum

/-!
# Properties C01, C03, C04: geometry helpers
-/
namespace Wiz
open Classical

/-- C01 (1/5): the matrix acts as the Rodrigues rotation about `u`. -/
theorem C01_rodrigues (u v : V3 ℝ) (t : ℝ) :
    M3.mulVec (rotMatAxisAngle u t) v =
      V3.smul (Real.cos t) v + V3.smul (Real.sin t) (V3.cross u v)
        + V3.smul ((1 - Real.cos t) * V3.dot u v) u := rot_mulVec u v t

/-- C01 (2/5): dot products (hence lengths and angles) are preserved. -/
theorem C01_isometry (u : V3 ℝ) (hu : V3.dot u u = 1) (t : ℝ) (v w : V3 ℝ) :
    V3.dot (M3.mulVec (rotMatAxisAngle u t) v) (M3.mulVec (rotMatAxisAngle u t) w) = V3.dot v w :=
  rot_dot u v w hu t

/-- C01 (3/5): proper rotation, axis fixed. -/
theorem C01_proper (u : V3 ℝ) (hu : V3.dot u u = 1) (t : ℝ) :
    M3.det (rotMatAxisAngle u t) = 1 ∧ M3.mulVec (rotMatAxisAngle u t) u = u :=
  ⟨rot_det u hu t, rot_axis u hu t⟩

/-- C01 (4/5): angle zero is the identity. -/
theorem C01_zero (u : V3 ℝ) : rotMatAxisAngle u 0 = M3.id := by
  ext <;> simp [rotMatAxisAngle, M3.id]

/-- C01 (5/5): rotations about one axis compose by adding angles. -/
theorem C01_compose (u : V3 ℝ) (hu : V3.dot u u = 1) (s t : ℝ) (v : V3 ℝ) :
    M3.mulVec (rotMatAxisAngle u s) (M3.mulVec (rotMatAxisAngle u t) v)
      = M3.mulVec (rotMatAxisAngle u (s + t)) v := rot_comp u v hu s t

/-- the hypotheses of C01 are met by an oblique axis, and the rotation is not trivial. -/
example : V3.dot (⟨3/5, 0, 4/5⟩ : V3 ℝ) ⟨3/5, 0, 4/5⟩ = 1 ∧
    M3.mulVec (rotMatAxisAngle ⟨3/5, 0, 4/5⟩ (Real.pi/2)) ⟨0, 1, 0⟩ = (⟨-4/5, 0, 3/5⟩ : V3 ℝ) := by
  constructor
  · norm_num [V3.dot]
  · ext <;> simp [rot_mulVec, V3.cross, V3.dot] <;> norm_num

/-- C03: `orth_vect` returns a unit vector orthogonal to `u` for every non-zero `u`, and
raises for the zero vector only. -/
theorem C03_orth_vect (u : V3 ℝ) :
    (u ≠ 0 → ∃ v : V3 ℝ, orthVect u = .ok (V3.fin v) ∧ V3.norm v = 1 ∧ V3.dot v u = 0) ∧
    ((∃ e, orthVect u = .error e) ↔ u = 0) := by
  constructor
  · intro h
    obtain ⟨v, e, p, q⟩ := orthVect_ok u h
    exact ⟨v, e, by rw [norm_eq_sqrt_dot, p, Real.sqrt_one], q⟩
  · constructor
    · rintro ⟨e, he⟩
      by_contra h
      obtain ⟨v, e', _⟩ := orthVect_ok u h
      rw [he] at e'; cases e'
    · rintro rfl; exact ⟨_, orthVect_zero⟩

/-- a vector in each of the three branches meets the hypothesis of C03. -/
example : (⟨1, 0, 0⟩ : V3 ℝ) ≠ 0 ∧ (⟨0, 2, 0⟩ : V3 ℝ) ≠ 0 ∧ (⟨0, 0, -3⟩ : V3 ℝ) ≠ 0 := by
  refine ⟨fun h => ?_, fun h => ?_, fun h => ?_⟩
  · have := congrArg V3.x h; simp at this
  · have := congrArg V3.y h; simp at this
  · have := congrArg V3.z h; simp at this

/-- C04: the points returned by `rotor_disk_points(nP)` are `nP` ordinary points at
distance `R` from the hub, in the plane through the hub normal to the shaft; point `i` is
the first point rotated about the shaft by `2 pi i/(nP-1)`, so for `nP >= 2` the last point
is the first one again. -/
theorem C04_rotor_disk (R : ℝ) (hR : 0 ≤ R) (hub e : V3 ℝ) (he : V3.dot e e = 1) (nP : ℕ) :
    ∃ pts : List (V3 ℝ), rotorDiskPoints R hub e nP = .ok (pts.map V3.fin) ∧ pts.length = nP ∧
      (∀ p ∈ pts, V3.norm (p - hub) = R ∧ V3.dot (p - hub) e = 0) ∧
      (∀ i (h : i < pts.length), pts[i] - hub =
        M3.mulVec (rotMatAxisAngle e (2 * Real.pi * i / ((nP : ℝ) - 1))) (pts[0] - hub)) ∧
      (2 ≤ nP → pts.head? = pts.getLast?) := by
  have hne : e ≠ 0 := by
    rintro rfl; simp [V3.dot] at he
  obtain ⟨v, ev, hvv, hve⟩ := orthVect_ok e hne
  have hadd : ∀ a : V3 ℝ, hub + a - hub = a := by intro a; ext <;> simp
  let f : ℝ → V3 ℝ := fun t => hub + M3.mulVec (rotMatAxisAngle e t) (V3.smul R v)
  have hlen : ((linspace 0 (2 * Real.pi) nP).map f).length = nP := by simp [linspace_length]
  have hget : ∀ i (h : i < ((linspace 0 (2 * Real.pi) nP).map f).length),
      ((linspace 0 (2 * Real.pi) nP).map f)[i] = f (2 * Real.pi * i / ((nP : ℝ) - 1)) := by
    intro i h
    simp only [linspace, List.getElem_map, List.getElem_range]
    congr 1; ring
  refine ⟨(linspace 0 (2 * Real.pi) nP).map f, ?_, hlen, ?_, ?_, ?_⟩
  · unfold rotorDiskPoints
    rw [ev]
    simp only [List.map_map]
    apply congrArg Except.ok
    apply List.map_congr_left
    intro t _
    have : V3.smul (Num.fin R) (V3.fin v) = V3.fin (V3.smul R v) := by ext <;> simp
    simp only [Function.comp_apply, f, this, fin_mulVec, fin_addV]
  · intro p hp
    obtain ⟨t, _, rfl⟩ := List.mem_map.mp hp
    simp only [f, hadd]
    constructor
    · rw [norm_eq_sqrt_dot, rot_dot _ _ _ he, dot_smul_left, dot_smul_right, hvv]
      rw [show R * (R * 1) = R ^ 2 by ring, Real.sqrt_sq hR]
    · rw [dot_comm, rot_dot_axis _ _ he, dot_smul_right, dot_comm, hve, mul_zero]
  · intro i h
    rw [hget i h, hget 0 (by omega)]
    simp only [f, hadd]
    rw [rot_comp _ _ he]
    simp
  · intro h2
    have hpos : 0 < ((linspace 0 (2 * Real.pi) nP).map f).length := by omega
    rw [List.head?_eq_getElem?, List.getLast?_eq_getElem?, List.getElem?_eq_getElem hpos,
      List.getElem?_eq_getElem (by omega), hget, hget]
    congr 1
    simp only [f]
    congr 1
    have hn : (((List.map f (linspace 0 (2 * Real.pi) nP)).length - 1 : ℕ) : ℝ) = (nP : ℝ) - 1 := by
      rw [hlen, Nat.cast_sub (by omega)]; simp
    rw [hn]
    have h1 : (nP : ℝ) - 1 ≠ 0 := by
      have : (2 : ℝ) ≤ nP := by exact_mod_cast h2
      linarith
    rw [mul_div_assoc (2 * Real.pi) ((nP : ℝ) - 1), div_self h1]
    rw [rot_mulVec, rot_mulVec]
    simp

/-- the hypotheses of C04 are met by a real rotor. -/
example : (0 : ℝ) ≤ 65 ∧ V3.dot (⟨0, 0, 1⟩ : V3 ℝ) ⟨0, 0, 1⟩ = 1 ∧ 2 ≤ 100 := by
  norm_num [V3.dot]

end Wiz
