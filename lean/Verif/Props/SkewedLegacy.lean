import Verif.Props.VortexCylinderSkewed
/-! # C83, C84: the legacy interface and the complete skewed wake -/
namespace Wiz
open Spec Set Filter Topology

/-- what the legacy functions return for a finite velocity -/
theorem fVOutputs_fin (u : V3 ℝ) (m ψ : ℝ) (nout : ℕ) (hn : 2 ≤ nout) :
    fVOutputs (V3.fin u) (.fin m) ψ nout = ([u.z, V3.dot u ⟨-Real.sin ψ, Real.cos ψ, 0⟩, u.x, u.y,
      V3.dot u (skewDir m), V3.dot u ⟨1 / Real.sqrt (1 + m^2), 0, -(m / Real.sqrt (1 + m^2))⟩,
      V3.dot u ⟨Real.cos ψ, Real.sin ψ, 0⟩].map Num.fin).take nout := by
  have hs : 0 < Real.sqrt (1+m^2) := by positivity
  unfold fVOutputs skewComponents polarComponents
  rw [if_neg (by omega)]
  simp only [V3.fin_x, V3.fin_y, V3.fin_z, Num.fin_pow, Num.fin_add, Num.fin_mul, Num.one_def, Num.fin_neg]
  rw [Num.sqrt_fin (by positivity)]
  simp only [Num.fin_div hs.ne', Num.fin_mul, Num.fin_add, List.map_cons, List.map_nil]
  congr 1
  simp only [List.cons.injEq, Num.fin.injEq, and_true, true_and, V3.dot, skewDir]
  refine ⟨?_, ?_, ?_, ?_⟩ <;> ring

/-- C83: at every point off the wake surface of the cylinder of unit radius, the legacy functions return the first `nout` of:
the axial and azimuthal components, the components along `x` and `y`, the components along the wake direction and along the
perpendicular direction `(cos χ,0,-sin χ)`, and the radial component — all of one and the same velocity: the quadrature (along azimuth) of
the exact Biot–Savart integrals along the generators.  For `nout=1` only the axial component is returned. -/
theorem C83_legacy_outputs (q : PolarPt) (γ m : ℝ) (n nout : ℕ) (hnout : 2 ≤ nout)
    (hoff : ∀ θ s, 0 ≤ s → polarPoint q.r q.psi q.z ≠ wakePoint 1 m θ s) :
    ∃ ut ul : V3 ℝ,
      ut = turnRuleV (Real.pi/2) n (tangGenerator γ 1 m (polarPoint q.r q.psi q.z)) ∧
      ul = turnRuleV (Real.pi/((n:ℝ)+1)) n (longiGenerator γ 1 m (polarPoint q.r q.psi q.z)) ∧
      (fVTangential q (.fin m) (.fin γ) (n+1) 1 = [.fin ut.z] ∧ fVTrailed q (.fin m) (.fin γ) (n+1) 1 = [.fin ul.z]) ∧
      fVTangential q (.fin m) (.fin γ) (n+1) nout = ([ut.z, V3.dot ut ⟨-Real.sin q.psi, Real.cos q.psi, 0⟩, ut.x, ut.y,
        V3.dot ut (skewDir m), V3.dot ut ⟨1 / Real.sqrt (1 + m^2), 0, -(m / Real.sqrt (1 + m^2))⟩,
        V3.dot ut ⟨Real.cos q.psi, Real.sin q.psi, 0⟩].map Num.fin).take nout ∧
      fVTrailed q (.fin m) (.fin γ) (n+1) nout = ([ul.z, V3.dot ul ⟨-Real.sin q.psi, Real.cos q.psi, 0⟩, ul.x, ul.y,
        V3.dot ul (skewDir m), V3.dot ul ⟨1 / Real.sqrt (1 + m^2), 0, -(m / Real.sqrt (1 + m^2))⟩,
        V3.dot ul ⟨Real.cos q.psi, Real.sin q.psi, 0⟩].map Num.fin).take nout := by
  refine ⟨_, _, rfl, rfl, ⟨?_, ?_⟩, ?_, ?_⟩
  · unfold fVTangential
    rw [svcTang_cart q γ 1 m n hoff]; rfl
  · unfold fVTrailed
    rw [svcLongi_cart q γ 1 m n one_pos hoff]; rfl
  · unfold fVTangential
    rw [svcTang_cart q γ 1 m n hoff, fVOutputs_fin _ _ _ _ hnout]
  · unfold fVTrailed
    rw [svcLongi_cart q γ 1 m n one_pos hoff, fVOutputs_fin _ _ _ _ hnout]

/-- C83 for the root vortex: at a point outside the guard of the half-line routine, whatever the rest of the batch. -/
theorem C83_legacy_root (pts : List PolarPt) (Γ m : ℝ) (i : ℕ) (q : PolarPt) (hi : pts[i]? = some q) (nout : ℕ) (hnout : 2 ≤ nout)
    (hr : 1e-7 < q.r)
    (h1 : 1e-12 ≤ V3.norm (polarPoint q.r q.psi q.z) * (V3.norm (polarPoint q.r q.psi q.z)
      - V3.dot (polarPoint q.r q.psi q.z) (skewDir m)))
    (h2 : 1e-5 ≤ V3.norm (polarPoint q.r q.psi q.z)) (u : V3 ℝ)
    (hu : u = biotSavart Γ (Ioi 0) (fun s => V3.smul s (skewDir m)) (fun _ => skewDir m) (polarPoint q.r q.psi q.z)) :
    ∃ o1 o, fVRoot pts (.fin m) (.fin Γ) 1 = .ok o1 ∧ o1[i]? = some [.fin u.z] ∧
      fVRoot pts (.fin m) (.fin Γ) nout = .ok o ∧ o[i]? = some (([u.z, V3.dot u ⟨-Real.sin q.psi, Real.cos q.psi, 0⟩, u.x, u.y,
        V3.dot u (skewDir m), V3.dot u ⟨1 / Real.sqrt (1 + m^2), 0, -(m / Real.sqrt (1 + m^2))⟩,
        V3.dot u ⟨Real.cos q.psi, Real.sin q.psi, 0⟩].map Num.fin).take nout) := by
  obtain ⟨us, ws, e1, -, e2, -⟩ := C67_root_biot_savart pts Γ m i q hi hr h1 h2
  rw [← hu] at e2
  have hz : ∀ k, (List.zipWith (fun q u => fVOutputs u (.fin m) q.psi k) pts us)[i]? = some (fVOutputs (V3.fin u) (.fin m) q.psi k) := by
    intro k
    rw [List.getElem?_zipWith, hi, e2]
  unfold fVRoot
  rw [e1]
  refine ⟨_, _, rfl, ?_, rfl, ?_⟩
  · rw [hz]; rfl
  · rw [hz, fVOutputs_fin _ _ _ _ hnout]

theorem root_length (pts : List PolarPt) (G m : Num) (b : Bool) (us : List (V3 Num)) (h : svcRootPolar pts G m b = .ok us) :
    us.length = pts.length := by
  unfold svcRootPolar at h
  simp only at h
  split_ifs at h <;> first | (have h := Except.ok.inj h; subst h; simp) | exact nomatch h

/-- C84: `svc_u_polar` returns at every point off the wake surface and outside the guard of the half-line routine the sum of the three
velocities: the tangential sheet, the trailed sheet (each: quadrature in azimuth of exact line integrals) and the root vortex
(exact Biot–Savart integral). -/
theorem C84_complete_wake (pts : List PolarPt) (γt γl Γ R m : ℝ) (hR : 0 < R) (n i : ℕ) (q : PolarPt) (hi : pts[i]? = some q) (b : Bool)
    (hoff : ∀ θ s, 0 ≤ s → polarPoint q.r q.psi q.z ≠ wakePoint R m θ s)
    (hr : 1e-7 < q.r)
    (h1 : 1e-12 ≤ V3.norm (polarPoint q.r q.psi q.z) * (V3.norm (polarPoint q.r q.psi q.z)
      - V3.dot (polarPoint q.r q.psi q.z) (skewDir m)))
    (h2 : 1e-5 ≤ V3.norm (polarPoint q.r q.psi q.z)) :
    ∃ us, svcUPolar pts (.fin γt) (.fin γl) (.fin Γ) R (.fin m) (n+1) b = .ok us ∧ us.length = pts.length ∧
      us[i]? = some (V3.fin (
        turnRuleV (Real.pi/2) n (tangGenerator γt R m (polarPoint q.r q.psi q.z)) +
        turnRuleV (Real.pi/((n:ℝ)+1)) n (longiGenerator γl R m (polarPoint q.r q.psi q.z)) +
        biotSavart Γ (Ioi 0) (fun s => V3.smul s (skewDir m)) (fun _ => skewDir m) (polarPoint q.r q.psi q.z))) := by
  obtain ⟨us, ws, e1, -, e2, -⟩ := C67_root_biot_savart pts Γ m i q hi hr h1 h2
  have hl := root_length _ _ _ _ _ e1
  unfold svcUPolar
  simp only [e1]
  refine ⟨_, rfl, ?_, ?_⟩
  · unfold addFields; simp [hl]
  · unfold addFields
    rw [List.getElem?_zipWith, List.getElem?_zipWith, List.getElem?_map, List.getElem?_map, hi, e2]
    simp only [Option.map_some]
    rw [svcTang_cart q γt R m n hoff, svcLongi_cart q γl R m n hR hoff]
    congr 1
    ext <;> simp [add_comm]

/-- C84: no exception, and the flag `polar_out` has no effect: the output is Cartesian either way. -/
theorem C84_polar_flag_ignored (pts : List PolarPt) (gt gl G : Num) (R : ℝ) (m : Num) (n : ℕ) :
    svcUPolar pts gt gl G R m n true = svcUPolar pts gt gl G R m n false := rfl

/-- a point off the wake used as a witness -/
theorem offWake_up (ψ R m : ℝ) : ∀ θ s, 0 ≤ s → polarPoint 1 ψ (-1) ≠ wakePoint R m θ s := by
  intro θ s hs h
  have h := congrArg V3.z h
  have h' : (-1:ℝ) = 0 + s * (1 / Real.sqrt (1 + m^2)) := h
  have : 0 ≤ s * (1 / Real.sqrt (1 + m^2)) := by positivity
  linarith

example : ∀ θ s, 0 ≤ s → polarPoint 1 1 (-1) ≠ wakePoint 1 1 θ s := offWake_up 1 1 1

/-- a point outside the guard of the half-line routine used as a witness -/
theorem guard_up (ψ m : ℝ) : (1:ℝ) ≤ V3.norm (polarPoint 1 ψ (-1)) ∧ (m = 0 →
    1e-12 ≤ V3.norm (polarPoint 1 ψ (-1)) * (V3.norm (polarPoint 1 ψ (-1)) - V3.dot (polarPoint 1 ψ (-1)) (skewDir m))) := by
  have hn : V3.norm (polarPoint 1 ψ (-1)) = Real.sqrt 2 := by
    unfold V3.norm polarPoint
    congr 1
    linear_combination Real.sin_sq_add_cos_sq ψ
  have h2 : (1:ℝ) ≤ Real.sqrt 2 := by rw [Real.one_le_sqrt]; norm_num
  refine ⟨by rw [hn]; exact h2, ?_⟩
  rintro rfl
  have hd : V3.dot (polarPoint 1 ψ (-1)) (skewDir 0) = -1 := by simp [V3.dot, polarPoint, skewDir]
  rw [hn, hd]
  nlinarith

example : (1e-7:ℝ) < 1 ∧ 1e-12 ≤ V3.norm (polarPoint 1 1 (-1)) * (V3.norm (polarPoint 1 1 (-1)) - V3.dot (polarPoint 1 1 (-1)) (skewDir 0)) ∧
    1e-5 ≤ V3.norm (polarPoint 1 1 (-1)) :=
  ⟨by norm_num, (guard_up 1 0).2 rfl, le_trans (by norm_num) (guard_up 1 0).1⟩

/-- C84 (polar output) is violated: with `polar_out` the caller gets Cartesian components.  Straight wake made of a root vortex of
unit circulation only, control point upstream at azimuth `π/2`: the velocity has no radial component, but the first
output is not zero. -/
theorem C84_polar_out_refuted : ¬ ∀ (q : PolarPt) (γt γl Γ R m : ℝ) (n : ℕ) (u w : V3 ℝ), 0 < R →
    (∀ θ s, 0 ≤ s → polarPoint q.r q.psi q.z ≠ wakePoint R m θ s) →
    svcUPolar [q] (.fin γt) (.fin γl) (.fin Γ) R (.fin m) (n+1) false = .ok [V3.fin u] →
    svcUPolar [q] (.fin γt) (.fin γl) (.fin Γ) R (.fin m) (n+1) true = .ok [V3.fin w] → w = inPolar q.psi u := by
  intro H
  have hp := Real.pi_pos
  have h2 : 0 < Real.sqrt 2 := by positivity
  have hlt : 1 < Real.sqrt 2 := by rw [Real.lt_sqrt (by norm_num)]; norm_num
  have hoff := offWake_up (Real.pi/2) 1 0
  have ht : svcTangPolar ⟨1, Real.pi/2, -1⟩ (.fin 0) 1 (.fin 0) 1 false = V3.fin 0 := by
    rw [svcTang_cart ⟨1, Real.pi/2, -1⟩ 0 1 0 0 hoff]
    ext <;> simp [turnRuleV, turnRule]
  have hl : svcLongiPolar ⟨1, Real.pi/2, -1⟩ (.fin 0) 1 (.fin 0) 1 false = V3.fin 0 := by
    rw [svcLongi_cart ⟨1, Real.pi/2, -1⟩ 0 1 0 0 one_pos hoff]
    ext <;> simp [turnRuleV, turnRule]
  have hr : svcRootPolar [⟨1, Real.pi/2, -1⟩] (.fin 1) (.fin 0) false =
      .ok [V3.fin ⟨-(1/(4*Real.pi)*(1 - 1/Real.sqrt 2)), 0, 0⟩] := by
    unfold svcRootPolar
    rw [if_neg (by simp), if_pos (by simp)]
    simp only [List.map_cons, List.map_nil]
    congr 2
    unfold svcRootOut svcRootStraight
    have e : (1:ℝ)^2 + (-1)^2 = 2 := by norm_num
    simp only [Bool.false_eq_true, if_false, Num.ofNat_def, Num.one_def, Num.fin_mul, Num.fin_pow, Num.fin_add, e,
      Num.sqrt_fin (show (0:ℝ) ≤ 2 by norm_num), Num.fin_div h2.ne', Num.fin_div (show 4*Real.pi*1 ≠ 0 by positivity)]
    ext
    · simp only [V3.fin_x, Num.fin_mul]; congr 1; rw [Real.sin_pi_div_two]; ring
    · simp only [V3.fin_y, Num.fin_mul]; congr 1; rw [Real.cos_pi_div_two]; ring
    · rfl
  have hU : ∀ b, svcUPolar [⟨1, Real.pi/2, -1⟩] (.fin 0) (.fin 0) (.fin 1) 1 (.fin 0) (0+1) b =
      .ok [V3.fin ⟨-(1/(4*Real.pi)*(1 - 1/Real.sqrt 2)), 0, 0⟩] := by
    intro b
    unfold svcUPolar
    simp only [List.map_cons, List.map_nil, zero_add, ht, hl, hr, addFields, List.zipWith_cons_cons, List.zipWith_nil_left]
    congr 2
    ext <;> simp
  have := H ⟨1, Real.pi/2, -1⟩ 0 0 1 1 0 0 _ _ one_pos hoff (hU false) (hU true)
  have := congrArg V3.x this
  have e : (-(1/(4*Real.pi)*(1 - 1/Real.sqrt 2)) : ℝ) = 0 := by
    simpa [inPolar, V3.dot] using this
  have : 0 < 1 - 1/Real.sqrt 2 := by
    rw [sub_pos, div_lt_one h2]; exact hlt
  have : 0 < 1/(4*Real.pi)*(1 - 1/Real.sqrt 2) := by positivity
  linarith

end Wiz
