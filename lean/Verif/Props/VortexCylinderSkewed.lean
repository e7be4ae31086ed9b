import Verif.Lemmas.SkewedConv
import Verif.Props.VortexCylinder2
import Verif.Props.VortexLine

/-!
# Properties C63–C67, C69: skewed vortex cylinders and skewed root vortex
-/
namespace Wiz
open Classical Set Filter Topology

/-- no quadrature point -/
theorem svcTang_zero (q : PolarPt) (g : Num) (R : ℝ) (m : Num) (b : Bool) : svcTangPolar q g R m 0 b = V3.fin 0 := by
  unfold svcTangPolar svcTangTheta trapzOf linspace
  cases b <;> rfl
theorem svcLongi_zero (q : PolarPt) (g : Num) (R : ℝ) (m : Num) (b : Bool) : svcLongiPolar q g R m 0 b = V3.fin 0 := by
  unfold svcLongiPolar svcLongiTheta trapzOf linspace
  cases b <;> rfl

theorem inPolar_turn (ψ θ0 : ℝ) (n : ℕ) (f : ℝ → V3 ℝ) :
    Spec.turnRuleV θ0 n (fun t => Spec.inPolar ψ (f t)) = Spec.inPolar ψ (Spec.turnRuleV θ0 n f) := by
  unfold Spec.turnRuleV Spec.inPolar V3.dot
  ext
  · simp only [mul_zero, add_zero]
    rw [← show Spec.turnRule θ0 n (fun t => Real.cos ψ * (f t).x + Real.sin ψ * (f t).y)
      = Spec.turnRule θ0 n (fun t => (f t).x) * Real.cos ψ + Spec.turnRule θ0 n (fun t => (f t).y) * Real.sin ψ by rw [turnRule_add]; ring]
    congr 1; funext t; ring
  · simp only [mul_zero, add_zero]
    rw [← show Spec.turnRule θ0 n (fun t => -Real.sin ψ * (f t).x + Real.cos ψ * (f t).y)
      = Spec.turnRule θ0 n (fun t => (f t).x) * -Real.sin ψ + Spec.turnRule θ0 n (fun t => (f t).y) * Real.cos ψ by rw [turnRule_add]; ring]
    congr 1; funext t; ring
  · rfl

/-- C63: at every point off the wake surface, for every strength, radius, skew and number of quadrature points, the
Cartesian output is a finite velocity `u` and the polar output holds exactly its radial, azimuthal and
axial components at that point. -/
theorem C63_tang_polar_agrees (q : PolarPt) (γ R m : ℝ) (ntheta : ℕ)
    (hoff : ∀ θ s, 0 ≤ s → Spec.polarPoint q.r q.psi q.z ≠ Spec.wakePoint R m θ s) :
    ∃ u : V3 ℝ, svcTangPolar q (.fin γ) R (.fin m) ntheta false = V3.fin u ∧
      svcTangPolar q (.fin γ) R (.fin m) ntheta true =
        V3.fin ⟨u.x * Real.cos q.psi + u.y * Real.sin q.psi, -u.x * Real.sin q.psi + u.y * Real.cos q.psi, u.z⟩ := by
  cases ntheta with
  | zero => exact ⟨0, svcTang_zero _ _ _ _ _, by rw [svcTang_zero]; ext <;> simp⟩
  | succ n =>
    refine ⟨_, svcTang_cart q γ R m n hoff, ?_⟩
    rw [svcTang_polar q γ R m n hoff, inPolar_turn]
    congr 1
    ext <;> simp only [Spec.inPolar, V3.dot] <;> ring

/-- a point inside the wake of a skewed rotor is off its surface. -/
theorem offWake_axis (R m d : ℝ) (hR : 0 < R) : Spec.OffWake R m ⟨m*d, 0, d⟩ := by
  intro θ s _ h
  have hs : Real.sqrt (1+m^2) ≠ 0 := by positivity
  have hx := congrArg V3.x h; have hy := congrArg V3.y h; have hz := congrArg V3.z h
  simp only [Spec.wakePoint, Spec.rim, Spec.skewDir, V3.add_x, V3.add_y, V3.add_z, V3.smul_x, V3.smul_y, V3.smul_z] at hx hy hz
  have h1 := Real.sin_sq_add_cos_sq θ
  have hd : d = s * (1 / Real.sqrt (1+m^2)) := by linarith
  have hc : R * Real.cos θ = 0 := by
    rw [hd] at hx
    have : s * (m / Real.sqrt (1+m^2)) = m * (s * (1 / Real.sqrt (1+m^2))) := by ring
    linarith
  have hsn : R * Real.sin θ = 0 := by linarith [mul_zero s]
  have k1 := (mul_eq_zero.mp hc).resolve_left hR.ne'
  have k2 := (mul_eq_zero.mp hsn).resolve_left hR.ne'
  rw [k1, k2] at h1
  norm_num at h1

/-- the hypothesis of C63 holds at the point of polar coordinates (1,0,2) for a rotor of radius 3 and `m=1/2` -/
example : ∀ θ s, 0 ≤ s → Spec.polarPoint 1 0 2 ≠ Spec.wakePoint 3 (1/2) θ s := by
  have := offWake_axis 3 (1/2) 2 (by norm_num)
  have e : Spec.polarPoint 1 0 2 = ⟨1/2*2, 0, 2⟩ := by simp [Spec.polarPoint]
  rw [e]; exact this

/-- C64, what holds: at every point off the wake surface the azimuthal and axial entries of the polar
output are the components of the Cartesian output `u`.  Missing: the radial entry, which is a copy of the azimuthal
one (the radial component that the code computes and then discards is right). -/
theorem C64_longi_polar_partial (q : PolarPt) (γ R m : ℝ) (hR : 0 < R) (ntheta : ℕ)
    (hoff : ∀ θ s, 0 ≤ s → Spec.polarPoint q.r q.psi q.z ≠ Spec.wakePoint R m θ s) :
    ∃ u : V3 ℝ, svcLongiPolar q (.fin γ) R (.fin m) ntheta false = V3.fin u ∧
      svcLongiPolar q (.fin γ) R (.fin m) ntheta true =
        V3.fin ⟨-u.x * Real.sin q.psi + u.y * Real.cos q.psi, -u.x * Real.sin q.psi + u.y * Real.cos q.psi, u.z⟩ ∧
      svcLongiUr q (.fin γ) R (.fin m) ntheta = .fin (u.x * Real.cos q.psi + u.y * Real.sin q.psi) := by
  cases ntheta with
  | zero => refine ⟨0, svcLongi_zero _ _ _ _ _, by rw [svcLongi_zero]; ext <;> simp, ?_⟩
            unfold svcLongiUr svcLongiTheta trapzOf linspace; simp [trapz]
  | succ n =>
    obtain ⟨w, hw, h1, h2⟩ := svcLongi_polar q γ R m n hR hoff
    rw [inPolar_turn] at hw
    refine ⟨_, svcLongi_cart q γ R m n hR hoff, ?_, ?_⟩
    · rw [h1, hw]; congr 1
      ext <;> simp only [Spec.inPolar, V3.dot] <;> ring
    · rw [h2, hw]; congr 1
      simp only [Spec.inPolar, V3.dot]; ring

/-- one panel: the rule takes twice the value at the starting azimuth -/
theorem turnRule_one (θ0 : ℝ) (f : ℝ → ℝ) (h : f (θ0 + 2*Real.pi) = f θ0) : Spec.turnRule θ0 1 f = 2*Real.pi * f θ0 := by
  unfold Spec.turnRule
  simp [h]

/-- C64 is violated: at the rotor centre, `psi=0`, straight cylinder of radius 1 with `ntheta=2`, the Cartesian output has
`u_x = gamma_l/2` but the polar output has `u_r = 0`. -/
theorem C64_longi_polar_refuted : ¬ ∀ (q : PolarPt) (γ R m : ℝ) (ntheta : ℕ) (u w : V3 ℝ), 0 < R →
    (∀ θ s, 0 ≤ s → Spec.polarPoint q.r q.psi q.z ≠ Spec.wakePoint R m θ s) →
    svcLongiPolar q (.fin γ) R (.fin m) ntheta false = V3.fin u →
    svcLongiPolar q (.fin γ) R (.fin m) ntheta true = V3.fin w →
    w.x = u.x * Real.cos q.psi + u.y * Real.sin q.psi := by
  intro H
  have hoff : Spec.OffWake 1 0 (Spec.polarPoint 0 0 0) := by
    have := offWake_axis 1 0 0 one_pos
    have e : Spec.polarPoint 0 0 0 = ⟨0*0, 0, 0⟩ := by simp [Spec.polarPoint]
    rw [e]; exact this
  have hc := svcLongi_cart ⟨0, 0, 0⟩ 1 1 0 1 one_pos hoff
  obtain ⟨w, hw, h1, -⟩ := svcLongi_polar ⟨0, 0, 0⟩ 1 1 0 1 one_pos hoff
  have h := H ⟨0, 0, 0⟩ 1 1 0 2 _ _ one_pos hoff hc h1
  have hper := fun θ => (gen_periodic 1 0 (Spec.polarPoint 0 0 0) 1 θ).2
  have hval : Spec.longiGenerator 1 1 0 (Spec.polarPoint 0 0 0) (Real.pi/2) = ⟨1/(4*Real.pi), 0, 0⟩ := by
    obtain ⟨hn, hd⟩ := offWake_pos hoff (Real.pi/2)
    rw [longiGenerator_eval hn hd]
    have hnn : V3.norm (Spec.polarPoint 0 0 0 - Spec.rim 1 (Real.pi/2)) = 1 := by
      simp [V3.norm, Spec.polarPoint, Spec.rim]
    have hdd : V3.dot (Spec.polarPoint 0 0 0 - Spec.rim 1 (Real.pi/2)) (Spec.skewDir 0) = 0 := by
      simp [V3.dot, Spec.polarPoint, Spec.rim, Spec.skewDir]
    rw [hnn, hdd]
    ext <;> simp [V3.cross, Spec.skewDir, Spec.polarPoint, Spec.rim]
  have e0 : Real.pi/(((1:ℕ):ℝ)+1) = Real.pi/2 := by norm_num
  have ev : ∀ f : ℝ → V3 ℝ, (∀ t, f (t + 2*Real.pi) = f t) → Spec.turnRuleV (Real.pi/(((1:ℕ):ℝ)+1)) 1 f = V3.smul (2*Real.pi) (f (Real.pi/2)) := by
    intro f hf
    unfold Spec.turnRuleV
    rw [e0]
    ext <;> simp only [V3.smul_x, V3.smul_y, V3.smul_z] <;> (rw [turnRule_one]; simp only [hf])
  rw [inPolar_turn, ev _ hper] at hw
  rw [ev _ hper] at h
  rw [hw] at h
  simp only [hval, Spec.inPolar, V3.dot, V3.smul, Real.cos_zero, Real.sin_zero] at h
  have := Real.pi_pos
  field_simp at h
  norm_num at h

/-- C65 (tangential): at every point `P` off the wake surface the returned velocity is the trapezoidal rule with
`ntheta` points, starting at azimuth `π/2`, applied to the azimuthal density
`γ_t ∫₀^∞ (Biot–Savart kernel of the ring element at distance s along the generator line) ds`: the integration along
the wake is exact, only the azimuthal one is approximated. -/
theorem C65_tang_exact_lines (q : PolarPt) (γ R m : ℝ) (n : ℕ)
    (hoff : ∀ θ s, 0 ≤ s → Spec.polarPoint q.r q.psi q.z ≠ Spec.wakePoint R m θ s) :
    svcTangPolar q (.fin γ) R (.fin m) (n+1) false =
      V3.fin (Spec.turnRuleV (Real.pi/2) n (Spec.tangGenerator γ R m (Spec.polarPoint q.r q.psi q.z))) :=
  svcTang_cart q γ R m n hoff

/-- C65 (longitudinal): the same for the trailed vorticity, starting at azimuth `π/ntheta`. -/
theorem C65_longi_exact_lines (q : PolarPt) (γ R m : ℝ) (hR : 0 < R) (n : ℕ)
    (hoff : ∀ θ s, 0 ≤ s → Spec.polarPoint q.r q.psi q.z ≠ Spec.wakePoint R m θ s) :
    svcLongiPolar q (.fin γ) R (.fin m) (n+1) false =
      V3.fin (Spec.turnRuleV (Real.pi/((n:ℝ)+1)) n (Spec.longiGenerator γ R m (Spec.polarPoint q.r q.psi q.z))) :=
  svcLongi_cart q γ R m n hR hoff

/-- C65 (limit): as the number of quadrature points grows, the velocities returned at a point off the wake
converge to the exact double Biot–Savart integrals over the skewed sheet. -/
theorem C65_converges (q : PolarPt) (γ R m : ℝ) (hR : 0 < R)
    (hoff : ∀ θ s, 0 ≤ s → Spec.polarPoint q.r q.psi q.z ≠ Spec.wakePoint R m θ s) :
    (∃ u : ℕ → V3 ℝ, (∀ n, svcTangPolar q (.fin γ) R (.fin m) (n+1) false = V3.fin (u n)) ∧
      Tendsto (fun n => (u n).x) atTop (𝓝 (Spec.skewTangField γ R m (Spec.polarPoint q.r q.psi q.z)).x) ∧
      Tendsto (fun n => (u n).y) atTop (𝓝 (Spec.skewTangField γ R m (Spec.polarPoint q.r q.psi q.z)).y) ∧
      Tendsto (fun n => (u n).z) atTop (𝓝 (Spec.skewTangField γ R m (Spec.polarPoint q.r q.psi q.z)).z)) ∧
    (∃ u : ℕ → V3 ℝ, (∀ n, svcLongiPolar q (.fin γ) R (.fin m) (n+1) false = V3.fin (u n)) ∧
      Tendsto (fun n => (u n).x) atTop (𝓝 (Spec.skewLongiField γ R m (Spec.polarPoint q.r q.psi q.z)).x) ∧
      Tendsto (fun n => (u n).y) atTop (𝓝 (Spec.skewLongiField γ R m (Spec.polarPoint q.r q.psi q.z)).y) ∧
      Tendsto (fun n => (u n).z) atTop (𝓝 (Spec.skewLongiField γ R m (Spec.polarPoint q.r q.psi q.z)).z)) := by
  obtain ⟨c1, c2, c3, c4, c5, c6⟩ := gen_continuous R m _ hoff γ
  have p := fun θ => gen_periodic R m (Spec.polarPoint q.r q.psi q.z) γ θ
  refine ⟨⟨_, fun n => svcTang_cart q γ R m n hoff, ?_, ?_, ?_⟩, ⟨_, fun n => svcLongi_cart q γ R m n hR hoff, ?_, ?_, ?_⟩⟩
  · exact turnRule_tendsto _ c1 (fun x => by rw [(p x).1]) (fun _ => Real.pi/2)
  · exact turnRule_tendsto _ c2 (fun x => by rw [(p x).1]) (fun _ => Real.pi/2)
  · exact turnRule_tendsto _ c3 (fun x => by rw [(p x).1]) (fun _ => Real.pi/2)
  · exact turnRule_tendsto _ c4 (fun x => by rw [(p x).2]) (fun n => Real.pi/(n+1))
  · exact turnRule_tendsto _ c5 (fun x => by rw [(p x).2]) (fun n => Real.pi/(n+1))
  · exact turnRule_tendsto _ c6 (fun x => by rw [(p x).2]) (fun n => Real.pi/(n+1))

/-- C66: at the rotor centre the axial velocity is exactly `γ_t/2`, for every skew, radius, azimuth given for
the centre, output option and number of quadrature points (at least 2). -/
theorem C66_rotor_centre (psi γ R m : ℝ) (hR : 0 < R) (ntheta : ℕ) (hN : 2 ≤ ntheta) (polar_out : Bool) :
    (svcTangPolar ⟨0, psi, 0⟩ (.fin γ) R (.fin m) ntheta polar_out).z = .fin (γ/2) := by
  obtain ⟨n, rfl⟩ : ∃ n, ntheta = n + 1 := ⟨ntheta - 1, by omega⟩
  have hn0 : (n:ℝ) ≠ 0 := by have : n ≠ 0 := by omega
                             exact_mod_cast this
  have hP : Spec.polarPoint 0 psi 0 = ⟨m*0, 0, 0⟩ := by simp [Spec.polarPoint]
  have hoff : Spec.OffWake R m (Spec.polarPoint 0 psi 0) := by rw [hP]; exact offWake_axis R m 0 hR
  have hz : (svcTangPolar ⟨0, psi, 0⟩ (.fin γ) R (.fin m) (n+1) polar_out).z
      = (V3.fin (Spec.turnRuleV (Real.pi/2) n (Spec.tangGenerator γ R m (Spec.polarPoint 0 psi 0)))).z := by
    cases polar_out
    · rw [svcTang_cart _ γ R m n hoff]
    · rw [svcTang_polar _ γ R m n hoff, inPolar_turn]; rfl
  rw [hz]
  have hg : ∀ θ, (Spec.tangGenerator γ R m (Spec.polarPoint 0 psi 0) θ).z = γ/(4*Real.pi) := by
    intro θ
    obtain ⟨hn, hd⟩ := offWake_pos hoff θ
    rw [tangGenerator_eval hn hd]
    have hnn : V3.norm (Spec.polarPoint 0 psi 0 - Spec.rim R θ) = R := by
      have h2 := rim_dist ⟨0, psi, 0⟩ R θ
      simp only at h2
      have : V3.norm (Spec.polarPoint 0 psi 0 - Spec.rim R θ)^2 = R^2 := by rw [← h2]; ring
      exact (sq_eq_sq₀ hn.le hR.le).mp this
    have hcr : (V3.cross (Spec.rimTangent R θ) (Spec.polarPoint 0 psi 0 - Spec.rim R θ)
        - V3.smul R (V3.cross (Spec.rimTangent R θ) (Spec.skewDir m))).z
        = R * (R - V3.dot (Spec.polarPoint 0 psi 0 - Spec.rim R θ) (Spec.skewDir m)) := by
      have h1 := Real.sin_sq_add_cos_sq θ
      simp only [V3.cross, V3.dot, Spec.rimTangent, Spec.polarPoint, Spec.rim, Spec.skewDir, V3.sub_x, V3.sub_y, V3.sub_z, V3.smul_z]
      linear_combination R^2 * h1
    rw [hnn] at hd ⊢
    rw [V3.smul_z, hcr]
    generalize R - V3.dot _ _ = D at *
    have := Real.pi_pos
    field_simp
  have : Spec.turnRule (Real.pi/2) n (fun θ => (Spec.tangGenerator γ R m (Spec.polarPoint 0 psi 0) θ).z) = γ/2 := by
    simp only [hg]
    unfold Spec.turnRule
    rw [Finset.sum_const, Finset.card_range, nsmul_eq_mul]
    have := Real.pi_pos
    field_simp
    ring
  exact congrArg Num.fin this

/-- the default call `svc_tang_u_polar(0,0,0,gamma_t=-1,m=1)` (180 points) -/
example : (svcTangPolar ⟨0, 0, 0⟩ (.fin (-1)) 1 (.fin 1) 180 false).z = .fin (-1/2) :=
  C66_rotor_centre 0 (-1) 1 1 one_pos 180 (by norm_num) false

/-! ### C67: skewed root vortex -/

theorem root_line_off {P : V3 ℝ} {m : ℝ} (h1 : 1e-12 ≤ V3.norm P * (V3.norm P - V3.dot P (Spec.skewDir m))) (h2 : 1e-5 ≤ V3.norm P) :
    0 < V3.norm P ∧ 0 < V3.norm P - V3.dot P (Spec.skewDir m) :=
  not_guard (by unfold lineGuard; push Not; exact ⟨h1, h2⟩)

theorem polarPoint_norm_sq (r ψ z : ℝ) : V3.norm (Spec.polarPoint r ψ z)^2 = r^2 + z^2 := by
  rw [norm_sq]; have := Real.sin_sq_add_cos_sq ψ
  simp only [V3.dot, Spec.polarPoint]; linear_combination r^2 * this

/-- the straight branch -/
theorem rootStraight_eval (q : PolarPt) (Γ : ℝ) (hr : 0 < q.r) :
    svcRootStraight q (.fin Γ) = .fin (Γ/(4*Real.pi*q.r) * (1 + q.z / Real.sqrt (q.r^2 + q.z^2))) := by
  have := Real.pi_pos
  unfold svcRootStraight
  simp only [Num.fin_pow, Num.fin_add, Num.fin_mul, Num.ofNat_def, Num.one_def]
  rw [Num.sqrt_fin (by positivity), Num.fin_div (by positivity), Num.fin_div (by positivity)]
  simp

theorem root_bs (P : V3 ℝ) (Γ m : ℝ) (hn : 0 < V3.norm P) (hd : 0 < V3.norm P - V3.dot P (Spec.skewDir m)) :
    Spec.biotSavart Γ (Ioi 0) (fun s => V3.smul s (Spec.skewDir m)) (fun _ => Spec.skewDir m) P =
      V3.smul (Γ/(4*Real.pi)/(V3.norm P * (V3.norm P - V3.dot P (Spec.skewDir m)))) (V3.cross (Spec.skewDir m) P) :=
  biotSavart_halfline P _ (skewDir_unit m) hn hd Γ

/-- C67: whatever the other points of the batch (hence whichever branch is taken), at a point outside the guard
of the half-line routine (`|P|(|P|-P·e) ≥ 1e-12`, `|P| ≥ 1e-5`; `e` the wake direction) and with `r>1e-7`, the value is the
Biot–Savart velocity of the half line of circulation `Γ_r` along the wake axis; the polar output holds its polar
components. -/
theorem C67_root_biot_savart (pts : List PolarPt) (Γ m : ℝ) (i : ℕ) (q : PolarPt) (hi : pts[i]? = some q)
    (hr : 1e-7 < q.r)
    (h1 : 1e-12 ≤ V3.norm (Spec.polarPoint q.r q.psi q.z) * (V3.norm (Spec.polarPoint q.r q.psi q.z)
      - V3.dot (Spec.polarPoint q.r q.psi q.z) (Spec.skewDir m)))
    (h2 : 1e-5 ≤ V3.norm (Spec.polarPoint q.r q.psi q.z)) :
    ∃ us ws, svcRootPolar pts (.fin Γ) (.fin m) false = .ok us ∧ svcRootPolar pts (.fin Γ) (.fin m) true = .ok ws ∧
      us[i]? = some (V3.fin (Spec.biotSavart Γ (Ioi 0) (fun s => V3.smul s (Spec.skewDir m)) (fun _ => Spec.skewDir m)
        (Spec.polarPoint q.r q.psi q.z))) ∧
      ws[i]? = some (V3.fin (Spec.inPolar q.psi (Spec.biotSavart Γ (Ioi 0) (fun s => V3.smul s (Spec.skewDir m))
        (fun _ => Spec.skewDir m) (Spec.polarPoint q.r q.psi q.z)))) := by
  have hr0 : 0 < q.r := lt_trans (by norm_num) hr
  have hpi := Real.pi_pos
  obtain ⟨hn, hd⟩ := root_line_off h1 h2
  have hP := root_bs _ Γ m hn hd
  have hs1 := Real.sin_sq_add_cos_sq q.psi
  have hnsq := polarPoint_norm_sq q.r q.psi q.z
  unfold svcRootPolar
  by_cases hΓ : Γ = 0
  · subst hΓ
    have : Num.Eqv (Num.fin 0) 0 := by simp
    simp only [if_pos this]
    refine ⟨_, _, rfl, rfl, ?_, ?_⟩
    · rw [List.getElem?_map, hi, Option.map_some, hP]; congr 1; ext <;> simp
    · rw [List.getElem?_map, hi, Option.map_some, hP]; congr 1; ext <;> simp [Spec.inPolar, V3.dot]
  have hΓ' : ¬ Num.Eqv (Num.fin Γ) 0 := by simpa using hΓ
  simp only [if_neg hΓ']
  by_cases hm : m = 0
  · -- straight
    subst hm
    have : Num.Eqv (Num.fin 0) 0 := by simp
    simp only [if_pos this]
    have hd0 : V3.dot (Spec.polarPoint q.r q.psi q.z) (Spec.skewDir 0) = q.z := by
      simp [V3.dot, Spec.polarPoint, Spec.skewDir]
    have hsq : Real.sqrt (q.r^2 + q.z^2) = V3.norm (Spec.polarPoint q.r q.psi q.z) := by
      rw [← hnsq, Real.sqrt_sq hn.le]
    have hval : Γ/(4*Real.pi*q.r) * (1 + q.z / Real.sqrt (q.r^2 + q.z^2))
        = q.r * (Γ/(4*Real.pi)/(V3.norm (Spec.polarPoint q.r q.psi q.z) * (V3.norm (Spec.polarPoint q.r q.psi q.z) - q.z))) := by
      rw [hsq]
      rw [hd0] at hd
      generalize V3.norm (Spec.polarPoint q.r q.psi q.z) = N at *
      have hne := hd.ne'
      field_simp
      have : (N - q.z) * (N + q.z) = q.r^2 := by linear_combination hnsq
      linear_combination this
    have hP' : Spec.biotSavart Γ (Ioi 0) (fun s => V3.smul s (Spec.skewDir 0)) (fun _ => Spec.skewDir 0) (Spec.polarPoint q.r q.psi q.z)
        = V3.smul (Γ/(4*Real.pi*q.r) * (1 + q.z / Real.sqrt (q.r^2 + q.z^2))) ⟨-Real.sin q.psi, Real.cos q.psi, 0⟩ := by
      rw [hP, hval, hd0]
      generalize Γ/(4*Real.pi)/(_) = K
      ext <;> simp [V3.cross, Spec.skewDir, Spec.polarPoint] <;> ring
    refine ⟨_, _, rfl, rfl, ?_, ?_⟩
    · rw [List.getElem?_map, hi, Option.map_some, hP', rootStraight_eval q Γ hr0]; congr 1
      generalize Γ/(4*Real.pi*q.r) * (1 + _) = K
      ext <;> simp [svcRootOut] <;> ring
    · rw [List.getElem?_map, hi, Option.map_some, hP', rootStraight_eval q Γ hr0]; congr 1
      generalize Γ/(4*Real.pi*q.r) * (1 + _) = K
      ext
      · simp [svcRootOut, Spec.inPolar, V3.dot]; ring
      · simp [svcRootOut, Spec.inPolar, V3.dot]; linear_combination -K * hs1
      · simp [svcRootOut, Spec.inPolar, V3.dot]
  have hm' : ¬ Num.Eqv (Num.fin m) 0 := by simpa using hm
  have hne : pts ≠ [] := by rintro rfl; simp at hi
  simp only [if_neg hm', if_neg hne]
  by_cases hz : ∃ q ∈ pts, q.z ≠ 0
  · -- general half line
    simp only [if_pos hz]
    have hl : svcRootLine q (.fin Γ) (.fin m) = V3.fin (Spec.biotSavart Γ (Ioi 0) (fun s => V3.smul s (Spec.skewDir m)) (fun _ => Spec.skewDir m)
        (Spec.polarPoint q.r q.psi q.z)) := by
      unfold svcRootLine
      have e : (⟨Num.sin (Num.arctan (.fin m)), 0, Num.cos (Num.arctan (.fin m))⟩ : V3 Num) = V3.fin (Spec.skewDir m) := by
        simp only [Num.arctan, Num.sin_fin, Num.cos_fin, Real.sin_arctan, Real.cos_arctan]; rfl
      have := (C60_halfline_biot_savart (Spec.polarPoint q.r q.psi q.z) (Spec.skewDir m) (skewDir_unit m) Γ 0).1 h1 h2
      simp only [e]
      unfold Spec.polarPoint at this ⊢
      rw [this]
    refine ⟨_, _, rfl, rfl, ?_, ?_⟩
    · rw [List.getElem?_map, hi, Option.map_some, hl]; congr 1
    · rw [List.getElem?_map, hi, Option.map_some, hl]; congr 1
      generalize Spec.biotSavart _ _ _ _ _ = u
      ext <;> simp [svcRootOut, Spec.inPolar, V3.dot]
  · -- rotor plane
    simp only [if_neg hz]
    push Not at hz
    have hqz : q.z = 0 := hz q (List.mem_of_getElem? hi)
    have hsc : 0 < Real.sqrt (1+m^2) := by positivity
    have hsc2 : Real.sqrt (1+m^2)^2 = 1+m^2 := Real.sq_sqrt (by positivity)
    rw [hqz] at hn hd hP hnsq ⊢
    have hN : V3.norm (Spec.polarPoint q.r q.psi 0) = q.r := by
      have : V3.norm (Spec.polarPoint q.r q.psi 0)^2 = q.r^2 := by rw [hnsq]; ring
      exact (sq_eq_sq₀ hn.le hr0.le).mp this
    have hdt : V3.dot (Spec.polarPoint q.r q.psi 0) (Spec.skewDir m) = q.r * (Real.cos q.psi * (m/Real.sqrt (1+m^2))) := by
      simp [V3.dot, Spec.polarPoint, Spec.skewDir]; ring
    rw [hN, hdt] at hd hP
    have hD : 0 < 1 - Real.cos q.psi * (m/Real.sqrt (1+m^2)) := by
      have : 0 < q.r * (1 - Real.cos q.psi * (m/Real.sqrt (1+m^2))) := by rw [mul_sub, mul_one]; exact hd
      exact pos_of_mul_pos_right this hr0.le
    have hpl : svcRootPlane q (.fin Γ) (.fin m) =
        (.fin (Γ/(4*Real.pi*q.r) * (1/(1 - Real.cos q.psi * (m/Real.sqrt (1+m^2))) * (1/Real.sqrt (1+m^2)))),
         .fin (Γ/(4*Real.pi*q.r) * (1/(1 - Real.cos q.psi * (m/Real.sqrt (1+m^2))) * (m/Real.sqrt (1+m^2)) * Real.sin q.psi))) := by
      unfold svcRootPlane
      simp only [if_pos hr, Num.fin_pow, Num.fin_add, Num.fin_mul, Num.ofNat_def, Num.one_def]
      rw [Num.sqrt_fin (by positivity), Num.fin_div hsc.ne', Num.fin_div hsc.ne', Num.fin_div (by positivity)]
      simp only [Num.fin_mul, Num.fin_sub]
      rw [Num.fin_div hD.ne']
      simp only [Num.fin_mul]
    have hP' : Spec.biotSavart Γ (Ioi 0) (fun s => V3.smul s (Spec.skewDir m)) (fun _ => Spec.skewDir m) (Spec.polarPoint q.r q.psi 0)
        = ⟨-Real.sin q.psi * (Γ/(4*Real.pi*q.r) * (1/(1 - Real.cos q.psi * (m/Real.sqrt (1+m^2))) * (1/Real.sqrt (1+m^2)))),
           Real.cos q.psi * (Γ/(4*Real.pi*q.r) * (1/(1 - Real.cos q.psi * (m/Real.sqrt (1+m^2))) * (1/Real.sqrt (1+m^2)))),
           Γ/(4*Real.pi*q.r) * (1/(1 - Real.cos q.psi * (m/Real.sqrt (1+m^2))) * (m/Real.sqrt (1+m^2)) * Real.sin q.psi)⟩ := by
      rw [hP, show q.r - q.r * (Real.cos q.psi * (m/Real.sqrt (1+m^2))) = q.r * (1 - Real.cos q.psi * (m/Real.sqrt (1+m^2))) by ring]
      generalize hE : 1 - Real.cos q.psi * (m/Real.sqrt (1+m^2)) = E at *
      have hE' := hD.ne'
      clear hE
      ext <;> simp only [V3.smul_x, V3.smul_y, V3.smul_z, V3.cross, Spec.skewDir, Spec.polarPoint] <;> field_simp <;> ring
    refine ⟨_, _, rfl, rfl, ?_, ?_⟩
    · rw [List.getElem?_map, hi, Option.map_some, hP', hpl]; congr 1
    · rw [List.getElem?_map, hi, Option.map_some, hP', hpl]; congr 1
      generalize Γ/(4*Real.pi*q.r) * (_ * (1/Real.sqrt (1+m^2))) = K
      ext
      · simp [svcRootOut, Spec.inPolar, V3.dot]
      · simp [svcRootOut, Spec.inPolar, V3.dot]; linear_combination -K * hs1
      · simp [svcRootOut, Spec.inPolar, V3.dot]

/-- the hypotheses of C67 hold at the point (1,π/2,0) for every skew -/
example (m : ℝ) : 1e-7 < (1:ℝ) ∧ 1e-12 ≤ V3.norm (Spec.polarPoint 1 (Real.pi/2) 0) * (V3.norm (Spec.polarPoint 1 (Real.pi/2) 0)
      - V3.dot (Spec.polarPoint 1 (Real.pi/2) 0) (Spec.skewDir m)) ∧ 1e-5 ≤ V3.norm (Spec.polarPoint 1 (Real.pi/2) 0) := by
  have h : V3.norm (Spec.polarPoint 1 (Real.pi/2) 0) = 1 := by simp [V3.norm, Spec.polarPoint]
  have hd : V3.dot (Spec.polarPoint 1 (Real.pi/2) 0) (Spec.skewDir m) = 0 := by simp [V3.dot, Spec.polarPoint, Spec.skewDir]
  rw [h, hd]; norm_num

/-- C67: the value at a point within the guard gap depends on the other points of the batch: the point `r=5e-6`, `ψ=π/2`, `z=0`
alone has `u_psi ≠ 0`, but together with a point off the rotor plane its velocity is zero. -/
theorem C67_batch_dependence : ∃ (q p : PolarPt) (u v w : V3 Num),
    svcRootPolar [q] (.fin 1) (.fin 1) true = .ok [u] ∧ svcRootPolar [q, p] (.fin 1) (.fin 1) true = .ok [v, w] ∧
      u.y ≠ 0 ∧ v.y = 0 := by
  have hs : 0 < Real.sqrt (1+1^2) := by positivity
  have hpi := Real.pi_pos
  have A : svcRootPolar [⟨5e-6, Real.pi/2, 0⟩] (.fin 1) (.fin 1) true = .ok ([⟨5e-6, Real.pi/2, 0⟩].map fun q =>
      let u := svcRootPlane q (.fin 1) (.fin 1)
      svcRootOut q true (.fin (- Real.sin q.psi) * u.1) (.fin (Real.cos q.psi) * u.1) u.1 u.2) := by
    unfold svcRootPolar
    rw [if_neg (by simp), if_neg (by simp), if_neg (by simp), if_neg (by simp)]
  have B : svcRootPolar [⟨5e-6, Real.pi/2, 0⟩, ⟨1, 0, 1⟩] (.fin 1) (.fin 1) true = .ok ([⟨5e-6, Real.pi/2, 0⟩, ⟨1, 0, 1⟩].map fun q =>
      let u := svcRootLine q (.fin 1) (.fin 1)
      svcRootOut q true u.x u.y (- u.x * .fin (Real.sin q.psi) + u.y * .fin (Real.cos q.psi)) u.z) := by
    unfold svcRootPolar
    rw [if_neg (by simp), if_neg (by simp), if_neg (by simp), if_pos (by simp)]
  refine ⟨_, _, _, _, _, A, B, ?_, ?_⟩
  · simp only [svcRootOut, if_true, svcRootPlane]
    rw [if_pos (by norm_num)]
    simp only [Num.fin_pow, Num.fin_add, Num.fin_mul, Num.ofNat_def, Num.one_def, Num.zero_def]
    rw [Num.sqrt_fin (by positivity), Num.fin_div hs.ne', Num.fin_div (by positivity), Real.cos_pi_div_two]
    simp only [Num.fin_mul, Num.fin_sub, zero_mul, sub_zero]
    rw [Num.fin_div one_ne_zero]
    simp only [Num.fin_mul, ne_eq, Num.fin_inj]
    positivity
  · have hl : svcRootLine ⟨5e-6, Real.pi/2, 0⟩ (.fin 1) (.fin 1) = V3.fin 0 := by
      unfold svcRootLine
      have e : (⟨Num.sin (Num.arctan (.fin 1)), 0, Num.cos (Num.arctan (.fin 1))⟩ : V3 Num) = V3.fin (Spec.skewDir 1) := by
        simp only [Num.arctan, Num.sin_fin, Num.cos_fin, Real.sin_arctan, Real.cos_arctan]; rfl
      have hN : V3.norm ⟨5e-6 * Real.cos (Real.pi/2), 5e-6 * Real.sin (Real.pi/2), 0⟩ = 5e-6 := by
        simp only [V3.norm, Real.cos_pi_div_two, Real.sin_pi_div_two]
        rw [show ((5e-6:ℝ)*0)^2 + (5e-6*1)^2 + 0^2 = 5e-6^2 by ring, Real.sqrt_sq (by norm_num)]
      have := (C60_halfline_biot_savart ⟨5e-6 * Real.cos (Real.pi/2), 5e-6 * Real.sin (Real.pi/2), 0⟩ (Spec.skewDir 1) (skewDir_unit 1) 1 0).2
        (Or.inr (by rw [hN]; norm_num))
      simp only [e, this]
    simp only [hl, svcRootOut, if_true]
    simp

/-- C67: a batch with no point raises in the skewed case only. -/
theorem C67_empty (Γ m : ℝ) (b : Bool) : (∃ e, svcRootPolar [] (.fin Γ) (.fin m) b = .error e) ↔ Γ ≠ 0 ∧ m ≠ 0 := by
  unfold svcRootPolar
  by_cases hΓ : Γ = 0
  · simp [hΓ]
  · by_cases hm : m = 0
    · simp [hΓ, hm]
    · simp [hΓ, hm]

/-! ### C69 -/

/-- C69: `skew_components` rotates `(u_x,u_z)`: the results are the components along the wake direction and across it,
the norm is preserved and the input is recovered by the opposite rotation. -/
theorem C69_skew_isometry (ux uz m : ℝ) :
    ∃ a b : ℝ, skewComponents (.fin ux) (.fin uz) (.fin m) = (.fin a, .fin b) ∧
      a = V3.dot ⟨ux, 0, uz⟩ (Spec.skewDir m) ∧ a^2 + b^2 = ux^2 + uz^2 ∧
      ux = Real.sin (Real.arctan m) * a + Real.cos (Real.arctan m) * b ∧
      uz = Real.cos (Real.arctan m) * a - Real.sin (Real.arctan m) * b := by
  have hs : 0 < Real.sqrt (1+m^2) := by positivity
  have hsq : Real.sqrt (1+m^2)^2 = 1+m^2 := Real.sq_sqrt (by positivity)
  unfold skewComponents
  simp only [Num.fin_pow, Num.fin_add, Num.fin_mul, Num.one_def, Num.fin_neg]
  rw [Num.sqrt_fin (by positivity), Num.fin_div hs.ne', Num.fin_div hs.ne', Real.sin_arctan, Real.cos_arctan]
  refine ⟨_, _, rfl, ?_, ?_, ?_, ?_⟩
  · simp only [V3.dot, Spec.skewDir]; ring
  all_goals
    generalize Real.sqrt (1+m^2) = k at *
    field_simp
  · linear_combination (-(ux^2) - uz^2) * hsq
  · linear_combination ux * hsq
  · linear_combination uz * hsq

/-- C69: `polar_components` returns the radial and azimuthal components; norm preserved, inverted by the opposite rotation. -/
theorem C69_polar_isometry (ux uy ψ : ℝ) :
    ∃ a b : ℝ, polarComponents (.fin ux) (.fin uy) ψ = (.fin a, .fin b) ∧
      a = V3.dot ⟨ux, uy, 0⟩ ⟨Real.cos ψ, Real.sin ψ, 0⟩ ∧ a^2 + b^2 = ux^2 + uy^2 ∧
      ux = Real.cos ψ * a - Real.sin ψ * b ∧ uy = Real.sin ψ * a + Real.cos ψ * b := by
  have h := Real.sin_sq_add_cos_sq ψ
  unfold polarComponents
  simp only [Num.fin_add, Num.fin_mul, Num.fin_neg]
  refine ⟨_, _, rfl, ?_, ?_, ?_, ?_⟩
  · simp only [V3.dot]; ring
  · linear_combination (ux^2 + uy^2) * h
  · linear_combination -ux * h
  · linear_combination -uy * h

end Wiz
