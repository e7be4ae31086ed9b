import Verif.Lemmas.VortexLine
import Verif.Model.VortexCylinderSkewed
import Verif.Spec.SkewedCylinder
import Mathlib.Analysis.Calculus.Deriv.Inv
import Mathlib.MeasureTheory.Integral.IntervalIntegral.Periodic

namespace Wiz
open Classical MeasureTheory Set Filter Topology

/-! ### ∫ s/q³ -/
namespace LineInt
variable {a b c : ℝ}

theorem prim31 (hc : 0 < c) (hD : 0 < a^2*c^2 - b^2) (s : ℝ) :
    HasDerivAt (fun s => (-(a^2/(a^2*c^2-b^2)) + b/(a^2*c^2-b^2)*s)/q a b c s) (s/q a b c s^3) s := by
  have h := deriv_affine (Q_pos hc hD s) (-(a^2/(a^2*c^2-b^2))) (b/(a^2*c^2-b^2))
  refine HasDerivAt.congr_deriv h ?_
  congr 1
  unfold Q
  field_simp
  ring

theorem int31 (ha : 0 < a) (hc : 0 < c) (h1 : -(a*c) < b) (h2 : b < a*c) :
    ∫ s in Ioi (0:ℝ), s/q a b c s^3 = 1/(c*(a*c-b)) := by
  have hD := D_pos h1 h2
  have := integral_Ioi_of_hasDerivAt_of_nonneg' (a := (0:ℝ)) (fun s _ => prim31 hc hD s)
    (fun s hs => by have := q_pos (Q_pos hc hD s); have := mem_Ioi.mp hs; positivity) (affine_tendsto hc _ _)
  rw [this, q_zero ha.le]
  clear this
  obtain ⟨u, rfl⟩ : ∃ u, b = a*c - u := ⟨a*c-b, by ring⟩
  obtain ⟨v, hv⟩ : ∃ v, v = 2*a*c - u := ⟨_, rfl⟩
  have e1 : u ≠ 0 := by linarith
  have e2 : v ≠ 0 := by rw [hv]; linarith
  rw [show a^2*c^2 - (a*c-u)^2 = u*v by rw [hv]; ring, show a*c - (a*c-u) = u by ring]
  field_simp
  rw [hv]
  ring

theorem int31' (ha : 0 < a) (hc : 0 < c) : ∫ s in Ioi (0:ℝ), s/(a+c*s)^3 = 1/(2*c^2*a) := by
  have h : ∀ s ∈ Ici (0:ℝ), HasDerivAt (fun s => (-(a^2/(2*c^2)) + -(3*a/(2*c))*s + -1*s^2)/(a + c*s)^3) (s/(a+c*s)^3) s := by
    intro s hs
    have hp := (lin_pos ha hc (mem_Ici.mp hs)).ne'
    refine HasDerivAt.congr_deriv (quad_deriv a c s _ _ _ 2 hp) ?_
    generalize hw : a + c*s = w at *
    push_cast
    field_simp
    rw [← hw]
    ring
  have := integral_Ioi_of_hasDerivAt_of_nonneg' (a := (0:ℝ)) h
    (fun s hs => by have := lin_pos ha hc (mem_Ioi.mp hs).le; have := mem_Ioi.mp hs; positivity)
    (quad_tendsto hc _ _ _ 0)
  rw [this]; field_simp; ring

theorem int31g (ha : 0 < a) (hc : 0 < c) (h1 : -(a*c) ≤ b) (h2 : b < a*c) :
    ∫ s in Ioi (0:ℝ), s/q a b c s^3 = 1/(c*(a*c-b)) := by
  rcases h1.lt_or_eq with h | h
  · exact int31 ha hc h h2
  · subst h
    rw [setIntegral_congr_fun (g := fun s => s/(a+c*s)^3) measurableSet_Ioi
      (fun s hs => by simp only [q_neg ha hc (mem_Ioi.mp hs).le]), int31' ha hc]
    congr 1; ring
end LineInt

/-! ### trapezoidal rule -/

theorem trapz_range (g : ℝ → ℝ) : ∀ (n : ℕ) (x : ℕ → ℝ),
    trapz (((List.range (n+1)).map x).map fun t => Num.fin (g t)) ((List.range (n+1)).map x)
      = .fin (∑ i ∈ Finset.range n, (x (i+1) - x i) * (g (x i) + g (x (i+1))) / 2) := by
  intro n
  induction n with
  | zero => intro x; simp [trapz]
  | succ n ih =>
    intro x
    have e : (List.range (n+1+1)).map x = x 0 :: (List.range (n+1)).map fun i => x (i+1) := by
      rw [List.range_succ_eq_map]; simp [Function.comp_def]
    have h := ih fun i => x (i+1)
    have e2 : ∀ y : ℕ → ℝ, (List.range (n+1)).map y = y 0 :: (List.range n).map fun i => y (i+1) := by
      intro y; rw [List.range_succ_eq_map]; simp [Function.comp_def]
    rw [e, e2, List.map_cons, List.map_cons, trapz, ← List.map_cons (f := fun t => Num.fin (g t)), ← e2 (fun i => x (i+1)), h,
      Finset.sum_range_succ']
    simp only [Num.fin_add, Num.fin_mul, Num.ofNat_def, Num.fin_div two_ne_zero, Num.fin_inj]
    ring

theorem svcTheta_eq (θ0 : ℝ) (n : ℕ) (f : ℝ → ℝ) (hf : ∀ t, f t = t + θ0) : (linspace 0 (2*Real.pi) (n+1)).map f
    = (List.range (n+1)).map fun i : ℕ => θ0 + i * (2*Real.pi/n) := by
  unfold linspace
  rw [List.map_map]
  apply List.map_congr_left
  intro i _
  simp only [Function.comp, hf]
  push_cast
  simp only [add_sub_cancel_right, sub_zero, zero_add]
  ring

theorem trapzOf_turn (θ0 : ℝ) (n : ℕ) (f : ℝ → ℝ) (hf : ∀ t, f t = t + θ0) (F : ℝ → Num) (g : ℝ → ℝ) (hF : ∀ t, F t = .fin (g t)) :
    trapzOf F ((linspace 0 (2*Real.pi) (n+1)).map f) = .fin (Spec.turnRule θ0 n g) := by
  unfold trapzOf
  rw [svcTheta_eq θ0 n f hf, show F = fun t => Num.fin (g t) from funext hF, trapz_range]
  unfold Spec.turnRule
  congr 1
  apply Finset.sum_congr rfl
  intro i _
  push_cast
  ring

/-! ### geometry of the generator lines -/
open Spec in
theorem skewDir_unit (m : ℝ) : V3.dot (skewDir m) (skewDir m) = 1 := by
  have h : Real.sqrt (1+m^2) ^ 2 = 1 + m^2 := Real.sq_sqrt (by positivity)
  have h2 : Real.sqrt (1+m^2) ≠ 0 := by positivity
  simp only [V3.dot, skewDir]
  field_simp
  rw [h]; ring

theorem offWake_pos {R m : ℝ} {P : V3 ℝ} (h : Spec.OffWake R m P) (θ : ℝ) :
    0 < V3.norm (P - Spec.rim R θ) ∧ 0 < V3.norm (P - Spec.rim R θ) - V3.dot (P - Spec.rim R θ) (Spec.skewDir m) := by
  have he := skewDir_unit m
  have hA : P - Spec.rim R θ ≠ 0 := by
    intro h0
    apply h θ 0 le_rfl
    have hx := congrArg V3.x h0; have hy := congrArg V3.y h0; have hz := congrArg V3.z h0
    simp only [V3.sub_x, V3.sub_y, V3.sub_z] at hx hy hz
    unfold Spec.wakePoint
    ext
    · simp only [V3.add_x, V3.smul_x]; rw [zero_mul, add_zero]; exact sub_eq_zero.mp hx
    · simp only [V3.add_y, V3.smul_y]; rw [zero_mul, add_zero]; exact sub_eq_zero.mp hy
    · simp only [V3.add_z, V3.smul_z]; rw [zero_mul, add_zero]; exact sub_eq_zero.mp hz
  have hn := norm_pos hA
  refine ⟨hn, ?_⟩
  have hcs := cauchy_schwarz (P - Spec.rim R θ) _ he
  have hle : V3.dot (P - Spec.rim R θ) (Spec.skewDir m) ≤ V3.norm (P - Spec.rim R θ) := by
    have := sq_le_sq.mp hcs
    rw [abs_of_pos hn] at this
    exact (abs_le.mp this).2
  rcases hle.lt_or_eq with hlt | heq
  · linarith
  · exfalso
    have hz : (P - Spec.rim R θ) - V3.smul (V3.norm (P - Spec.rim R θ)) (Spec.skewDir m) = 0 := by
      apply dot_self_eq_zero.mp
      have hs := norm_sq (P - Spec.rim R θ)
      generalize hA' : P - Spec.rim R θ = A at *
      generalize hn' : V3.norm A = n at *
      simp only [V3.dot, V3.sub_x, V3.sub_y, V3.sub_z, V3.smul_x, V3.smul_y, V3.smul_z] at *
      linear_combination -hs + n^2 * he - 2*n*heq
    apply h θ (V3.norm (P - Spec.rim R θ)) hn.le
    have hx := congrArg V3.x hz; have hy := congrArg V3.y hz; have hz := congrArg V3.z hz
    generalize V3.norm (P - Spec.rim R θ) = n at *
    simp only [V3.sub_x, V3.sub_y, V3.sub_z, V3.smul_x, V3.smul_y, V3.smul_z] at hx hy hz
    unfold Spec.wakePoint
    ext
    · simp only [V3.add_x, V3.smul_x]; exact sub_eq_zero.mp (by rw [← sub_sub]; exact hx)
    · simp only [V3.add_y, V3.smul_y]; exact sub_eq_zero.mp (by rw [← sub_sub]; exact hy)
    · simp only [V3.add_z, V3.smul_z]; exact sub_eq_zero.mp (by rw [← sub_sub]; exact hz)

/-- the closed form of the tangential generator integral -/
theorem tangGenerator_eval {γ R m : ℝ} {P : V3 ℝ} {θ : ℝ} (hn : 0 < V3.norm (P - Spec.rim R θ))
    (hd : 0 < V3.norm (P - Spec.rim R θ) - V3.dot (P - Spec.rim R θ) (Spec.skewDir m)) :
    Spec.tangGenerator γ R m P θ = V3.smul (γ/(4*Real.pi)/(V3.norm (P - Spec.rim R θ)
        * (V3.norm (P - Spec.rim R θ) - V3.dot (P - Spec.rim R θ) (Spec.skewDir m))))
      (V3.cross (Spec.rimTangent R θ) (P - Spec.rim R θ)
        - V3.smul (V3.norm (P - Spec.rim R θ)) (V3.cross (Spec.rimTangent R θ) (Spec.skewDir m))) := by
  have he := skewDir_unit m
  have e : ∀ s, P - Spec.wakePoint R m θ s = (P - Spec.rim R θ) - V3.smul s (Spec.skewDir m) := by
    intro s; unfold Spec.wakePoint; ext <;> simp <;> ring
  have hcs := cauchy_schwarz (P - Spec.rim R θ) _ he
  unfold Spec.tangGenerator Spec.vint Spec.bsKernel
  simp only [e, norm_line _ _ he]
  generalize Spec.skewDir m = d at *
  generalize Spec.rimTangent R θ = T
  generalize P - Spec.rim R θ = A at *
  have hlow : -(V3.norm A * 1) ≤ V3.dot A d := by
    have : |V3.dot A d| ≤ |V3.norm A| := sq_le_sq.mp hcs
    rw [abs_of_pos hn] at this
    rw [mul_one]
    exact (abs_le.mp this).1
  have hup : V3.dot A d < V3.norm A * 1 := by linarith
  have h0 := LineInt.int30g hn one_pos hlow hup
  have h1 := LineInt.int31g hn one_pos hlow hup
  have i0 := LineInt.integrable30g hn one_pos hlow hup
  have i1 : IntegrableOn (fun s => s/LineInt.q (V3.norm A) (V3.dot A d) 1 s^3) (Ioi (0:ℝ)) :=
    LineInt.ig h1 (by rw [mul_one, one_mul]; positivity)
  have key : ∀ k0 k1 : ℝ, ∫ s in Ioi (0:ℝ), 1/(4*Real.pi)*(1/LineInt.q (V3.norm A) (V3.dot A d) 1 s^3)*(k0 - s*k1)
      = 1/(4*Real.pi)*((k0 - V3.norm A*k1)/(V3.norm A * (V3.norm A - V3.dot A d))) := by
    intro k0 k1
    have : (fun s => 1/(4*Real.pi)*(1/LineInt.q (V3.norm A) (V3.dot A d) 1 s^3)*(k0 - s*k1))
      = fun s => (1/(4*Real.pi)*k0)*(1/LineInt.q (V3.norm A) (V3.dot A d) 1 s^3) - (1/(4*Real.pi)*k1)*(s/LineInt.q (V3.norm A) (V3.dot A d) 1 s^3) := by
      funext s; ring
    rw [this, integral_sub (i0.const_mul _) (i1.const_mul _), integral_const_mul, integral_const_mul, h0, h1]
    simp only [mul_one, one_mul]
    have h2 := hd.ne'
    generalize V3.norm A - V3.dot A d = D at *
    field_simp
  have c1 : ∀ s, (V3.cross T (A - V3.smul s d)).x = (V3.cross T A).x - s*(V3.cross T d).x := by intro s; simp [V3.cross]; ring
  have c2 : ∀ s, (V3.cross T (A - V3.smul s d)).y = (V3.cross T A).y - s*(V3.cross T d).y := by intro s; simp [V3.cross]; ring
  have c3 : ∀ s, (V3.cross T (A - V3.smul s d)).z = (V3.cross T A).z - s*(V3.cross T d).z := by intro s; simp [V3.cross]; ring
  ext <;> simp only [V3.smul_x, V3.smul_y, V3.smul_z, V3.sub_x, V3.sub_y, V3.sub_z, c1, c2, c3, key] <;> ring

/-- the closed form of the longitudinal generator integral -/
theorem longiGenerator_eval {γ R m : ℝ} {P : V3 ℝ} {θ : ℝ} (hn : 0 < V3.norm (P - Spec.rim R θ))
    (hd : 0 < V3.norm (P - Spec.rim R θ) - V3.dot (P - Spec.rim R θ) (Spec.skewDir m)) :
    Spec.longiGenerator γ R m P θ = V3.smul (γ*R/(4*Real.pi)/(V3.norm (P - Spec.rim R θ)
        * (V3.norm (P - Spec.rim R θ) - V3.dot (P - Spec.rim R θ) (Spec.skewDir m))))
      (V3.cross (Spec.skewDir m) (P - Spec.rim R θ)) := by
  rw [← biotSavart_halfline _ _ (skewDir_unit m) hn hd]
  unfold Spec.longiGenerator Spec.biotSavart Spec.bsKernel
  have e : ∀ s, P - Spec.wakePoint R m θ s = (P - Spec.rim R θ) - V3.smul s (Spec.skewDir m) := by
    intro s; unfold Spec.wakePoint; ext <;> simp <;> ring
  simp only [e]

/-- squared distance from the control point to the rim -/
theorem rim_dist (q : PolarPt) (R t : ℝ) : R^2 + q.r^2 + q.z^2 - 2*R*q.r*Real.cos (t - q.psi)
    = V3.norm (Spec.polarPoint q.r q.psi q.z - Spec.rim R t) ^ 2 := by
  rw [norm_sq, Real.cos_sub]
  have h1 := Real.sin_sq_add_cos_sq q.psi
  have h2 := Real.sin_sq_add_cos_sq t
  simp only [V3.dot, Spec.polarPoint, Spec.rim, V3.sub_x, V3.sub_y, V3.sub_z]
  linear_combination -q.r^2*h1 - R^2*h2

/-- evaluation of one integrand of `svc_tang_u_polar` -/
theorem svcTangTerm_eval (q : PolarPt) (γ R m ax bx t : ℝ)
    (hn : 0 < V3.norm (Spec.polarPoint q.r q.psi q.z - Spec.rim R t))
    (hd : 0 < V3.norm (Spec.polarPoint q.r q.psi q.z - Spec.rim R t) - V3.dot (Spec.polarPoint q.r q.psi q.z - Spec.rim R t) (Spec.skewDir m)) :
    svcTangTerm q (.fin γ) R (.fin m) (.fin ax) (.fin bx) t =
      .fin (γ/(4*Real.pi)/(V3.norm (Spec.polarPoint q.r q.psi q.z - Spec.rim R t)
        * (V3.norm (Spec.polarPoint q.r q.psi q.z - Spec.rim R t) - V3.dot (Spec.polarPoint q.r q.psi q.z - Spec.rim R t) (Spec.skewDir m)))
        * (ax + V3.norm (Spec.polarPoint q.r q.psi q.z - Spec.rim R t) * (bx / Real.sqrt (1 + m^2)))) := by
  have hdd : Real.sqrt (1+m^2) * V3.dot (Spec.polarPoint q.r q.psi q.z - Spec.rim R t) (Spec.skewDir m)
      = -(2*m*R*Real.cos t - 2*m*q.r*Real.cos q.psi - 2*q.z)/2 := by
    have h2 : Real.sqrt (1+m^2) ≠ 0 := by positivity
    simp only [V3.dot, Spec.skewDir, Spec.polarPoint, Spec.rim, V3.sub_x, V3.sub_y, V3.sub_z]
    field_simp
    ring
  have hs : 0 < Real.sqrt (1+m^2) := by positivity
  have ha := rim_dist q R t
  generalize V3.dot (Spec.polarPoint q.r q.psi q.z - Spec.rim R t) (Spec.skewDir m) = d at *
  generalize V3.norm (Spec.polarPoint q.r q.psi q.z - Spec.rim R t) = n at *
  have hA : svcA q R t = .fin (n^2) := by
    unfold svcA
    simp only [Num.fin_pow, Num.fin_add, Num.fin_mul, Num.ofNat_def, Num.fin_sub]
    rw [← ha]
  have hB : svcB q R (.fin m) t = .fin (-2*(Real.sqrt (1+m^2)*d)) := by
    unfold svcB
    simp only [Num.fin_mul, Num.ofNat_def, Num.fin_sub]
    rw [hdd]; congr 1; ring
  have hC : (1 + (Num.fin m)^2 : Num) = .fin (1+m^2) := by simp
  have hq : Real.sqrt (n^2*(1+m^2)) = n*Real.sqrt (1+m^2) := by
    rw [Real.sqrt_mul (by positivity), Real.sqrt_sq hn.le]
  unfold svcTangTerm svcD
  rw [hA, hB, hC]
  rw [Num.sqrt_fin (by positivity : (0:ℝ) ≤ n^2), Num.fin_mul (n^2), Num.sqrt_fin (by positivity : (0:ℝ) ≤ n^2*(1+m^2)),
    Num.sqrt_fin (by positivity : (0:ℝ) ≤ 1+m^2), Real.sqrt_sq hn.le, hq]
  have e : 2*(n*Real.sqrt (1+m^2)) + -2*(Real.sqrt (1+m^2)*d) = 2*Real.sqrt (1+m^2)*(n-d) := by ring
  simp only [Num.ofNat_def, Num.fin_mul, Num.fin_add]
  rw [e, Num.fin_div (by positivity), Num.fin_div (by positivity)]
  simp only [Num.fin_mul, Num.fin_inj]
  generalize n - d = D at *
  have := Real.pi_pos
  generalize Real.sqrt (1+m^2) = k at *
  field_simp

/-- `svc_tang_u_polar`, Cartesian output: the trapezoidal rule applied to the generator integrals -/
theorem svcTang_cart (q : PolarPt) (γ R m : ℝ) (n : ℕ) (h : Spec.OffWake R m (Spec.polarPoint q.r q.psi q.z)) :
    svcTangPolar q (.fin γ) R (.fin m) (n+1) false =
      V3.fin (Spec.turnRuleV (Real.pi/2) n (Spec.tangGenerator γ R m (Spec.polarPoint q.r q.psi q.z))) := by
  have hs : Real.sqrt (1+m^2) ≠ 0 := by positivity
  have T := fun F g (hF : ∀ t, F t = Num.fin (g t)) =>
    trapzOf_turn (Real.pi/2) n (fun t => Real.pi/2 + t) (fun t => add_comm _ _) F g hF
  unfold svcTangPolar svcTangTheta
  simp only [Bool.false_eq_true, if_false]
  simp only [Num.fin_mul, Num.fin_neg, Num.fin_sub]
  ext
  · refine T _ (fun t => (Spec.tangGenerator γ R m (Spec.polarPoint q.r q.psi q.z) t).x) fun t => ?_
    obtain ⟨hn, hd⟩ := offWake_pos h t
    rw [svcTangTerm_eval q γ R m _ _ t hn hd, tangGenerator_eval hn hd, V3.smul_x, V3.sub_x, V3.smul_x]
    congr 2
    simp only [V3.cross, Spec.rimTangent, Spec.skewDir, Spec.polarPoint, Spec.rim, V3.sub_x, V3.sub_y, V3.sub_z]
    generalize V3.norm _ = N
    field_simp; ring
  · refine T _ (fun t => (Spec.tangGenerator γ R m (Spec.polarPoint q.r q.psi q.z) t).y) fun t => ?_
    obtain ⟨hn, hd⟩ := offWake_pos h t
    rw [svcTangTerm_eval q γ R m _ _ t hn hd, tangGenerator_eval hn hd, V3.smul_y, V3.sub_y, V3.smul_y]
    congr 2
    simp only [V3.cross, Spec.rimTangent, Spec.skewDir, Spec.polarPoint, Spec.rim, V3.sub_x, V3.sub_y, V3.sub_z]
    generalize V3.norm _ = N
    field_simp; ring
  · refine T _ (fun t => (Spec.tangGenerator γ R m (Spec.polarPoint q.r q.psi q.z) t).z) fun t => ?_
    obtain ⟨hn, hd⟩ := offWake_pos h t
    rw [svcTangTerm_eval q γ R m _ _ t hn hd, tangGenerator_eval hn hd, V3.smul_z, V3.sub_z, V3.smul_z]
    congr 2
    simp only [V3.cross, Spec.rimTangent, Spec.skewDir, Spec.polarPoint, Spec.rim, V3.sub_x, V3.sub_y, V3.sub_z, Real.cos_sub]
    generalize V3.norm _ = N
    have h2 := Real.sin_sq_add_cos_sq t
    field_simp
    linear_combination -(R^2*Real.sqrt (1+m^2)) * h2

theorem turnRule_add (θ0 : ℝ) (n : ℕ) (f g : ℝ → ℝ) (a b : ℝ) :
    Spec.turnRule θ0 n (fun t => a * f t + b * g t) = a * Spec.turnRule θ0 n f + b * Spec.turnRule θ0 n g := by
  unfold Spec.turnRule
  rw [Finset.mul_sum, Finset.mul_sum, ← Finset.sum_add_distrib]
  exact Finset.sum_congr rfl fun i _ => by ring

/-- the polar output evaluates the polar components of the generator integrals -/
theorem svcTang_polar (q : PolarPt) (γ R m : ℝ) (n : ℕ) (h : Spec.OffWake R m (Spec.polarPoint q.r q.psi q.z)) :
    svcTangPolar q (.fin γ) R (.fin m) (n+1) true =
      V3.fin (Spec.turnRuleV (Real.pi/2) n (fun t => Spec.inPolar q.psi (Spec.tangGenerator γ R m (Spec.polarPoint q.r q.psi q.z) t))) := by
  have hs : Real.sqrt (1+m^2) ≠ 0 := by positivity
  have hc := svcTang_cart q γ R m n h
  have T := fun F g (hF : ∀ t, F t = Num.fin (g t)) =>
    trapzOf_turn (Real.pi/2) n (fun t => Real.pi/2 + t) (fun t => add_comm _ _) F g hF
  unfold svcTangPolar svcTangTheta at hc ⊢
  simp only [Bool.false_eq_true, if_false, if_true] at hc ⊢
  simp only [Num.fin_mul, Num.fin_neg, Num.fin_sub] at hc ⊢
  ext
  · refine T _ (fun t => (Spec.inPolar q.psi (Spec.tangGenerator γ R m (Spec.polarPoint q.r q.psi q.z) t)).x) fun t => ?_
    obtain ⟨hn, hd⟩ := offWake_pos h t
    rw [svcTangTerm_eval q γ R m _ _ t hn hd, tangGenerator_eval hn hd]
    simp only [Spec.inPolar, V3.dot, V3.smul_x, V3.smul_y, V3.smul_z, V3.sub_x, V3.sub_y, V3.sub_z,
      V3.cross, Spec.rimTangent, Spec.skewDir, Spec.polarPoint, Spec.rim, Real.cos_sub]
    generalize V3.norm _ = N
    generalize γ/(4*Real.pi)/(_) = K
    congr 1
    field_simp; ring
  · refine T _ (fun t => (Spec.inPolar q.psi (Spec.tangGenerator γ R m (Spec.polarPoint q.r q.psi q.z) t)).y) fun t => ?_
    obtain ⟨hn, hd⟩ := offWake_pos h t
    rw [svcTangTerm_eval q γ R m _ _ t hn hd, tangGenerator_eval hn hd]
    simp only [Spec.inPolar, V3.dot, V3.smul_x, V3.smul_y, V3.smul_z, V3.sub_x, V3.sub_y, V3.sub_z,
      V3.cross, Spec.rimTangent, Spec.skewDir, Spec.polarPoint, Spec.rim, Real.sin_sub]
    generalize V3.norm _ = N
    generalize γ/(4*Real.pi)/(_) = K
    congr 1
    field_simp; ring
  · have hcz := congrArg V3.z hc; exact hcz

theorem norm_smul_pos {s : ℝ} (hs : 0 ≤ s) (v : V3 ℝ) : V3.norm (V3.smul s v) = s * V3.norm v := by
  unfold V3.norm
  simp only [V3.smul_x, V3.smul_y, V3.smul_z]
  rw [show (s*v.x)^2 + (s*v.y)^2 + (s*v.z)^2 = s^2*(v.x^2+v.y^2+v.z^2) by ring, Real.sqrt_mul (by positivity), Real.sqrt_sq hs]

/-- evaluation of one integrand of `svc_longi_u_polar` -/
theorem svcDenInv_eval (q : PolarPt) (γ R m t : ℝ) (hR : 0 < R)
    (hn : 0 < V3.norm (Spec.polarPoint q.r q.psi q.z - Spec.rim R t))
    (hd : 0 < V3.norm (Spec.polarPoint q.r q.psi q.z - Spec.rim R t) - V3.dot (Spec.polarPoint q.r q.psi q.z - Spec.rim R t) (Spec.skewDir m)) :
    svcDenInv (.fin (q.r/R)) (.fin (q.z/R)) q.psi (.fin γ) (.fin m) t =
      .fin (γ/(4*Real.pi)/(V3.norm (Spec.polarPoint q.r q.psi q.z - Spec.rim R t)
        * (V3.norm (Spec.polarPoint q.r q.psi q.z - Spec.rim R t) - V3.dot (Spec.polarPoint q.r q.psi q.z - Spec.rim R t) (Spec.skewDir m)))
        * (R^2 / Real.sqrt (1 + m^2))) := by
  have hdd : Real.sqrt (1+m^2) * V3.dot (Spec.polarPoint q.r q.psi q.z - Spec.rim R t) (Spec.skewDir m)
      = -(2*m*R*Real.cos t - 2*m*q.r*Real.cos q.psi - 2*q.z)/2 := by
    have h2 : Real.sqrt (1+m^2) ≠ 0 := by positivity
    simp only [V3.dot, Spec.skewDir, Spec.polarPoint, Spec.rim, V3.sub_x, V3.sub_y, V3.sub_z]
    field_simp
    ring
  have hs : 0 < Real.sqrt (1+m^2) := by positivity
  have ha := rim_dist q R t
  generalize V3.dot (Spec.polarPoint q.r q.psi q.z - Spec.rim R t) (Spec.skewDir m) = d at *
  generalize V3.norm (Spec.polarPoint q.r q.psi q.z - Spec.rim R t) = n at *
  have ha' : 1 + (q.r/R)^2 + (q.z/R)^2 - 2*(q.r/R)*Real.cos (t - q.psi) = (n/R)^2 := by
    rw [show (n/R)^2 = n^2/R^2 by ring, ← ha]; field_simp
  have hq : Real.sqrt ((n/R)^2) = n/R := Real.sqrt_sq (by positivity)
  unfold svcDenInv svcDen1 svcDen2
  simp only [Num.fin_pow, Num.fin_add, Num.fin_mul, Num.ofNat_def, Num.fin_sub, Num.one_def, Num.fin_neg]
  rw [ha', Num.sqrt_fin (by positivity : (0:ℝ) ≤ (n/R)^2), Num.sqrt_fin (by positivity : (0:ℝ) ≤ 1+m^2), hq]
  have e : -(q.z/R) + m*Real.cos t + Real.sqrt (1+m^2)*(n/R) - m*(q.r/R)*Real.cos q.psi = Real.sqrt (1+m^2)*(n-d)/R := by
    have : Real.sqrt (1+m^2)*(n-d) = Real.sqrt (1+m^2)*n + (2*m*R*Real.cos t - 2*m*q.r*Real.cos q.psi - 2*q.z)/2 := by
      rw [mul_sub, hdd]; ring
    rw [this]; field_simp; ring
  simp only [Num.fin_mul, Num.fin_add, Num.fin_sub]
  rw [e]
  have := Real.pi_pos
  rw [Num.fin_div (by positivity), Num.fin_div (by positivity), Num.fin_inj]
  generalize n - d = D at *
  field_simp

theorem svcLongi_cart (q : PolarPt) (γ R m : ℝ) (n : ℕ) (hR : 0 < R) (h : Spec.OffWake R m (Spec.polarPoint q.r q.psi q.z)) :
    svcLongiPolar q (.fin γ) R (.fin m) (n+1) false =
      V3.fin (Spec.turnRuleV (Real.pi/(n+1)) n (Spec.longiGenerator γ R m (Spec.polarPoint q.r q.psi q.z))) := by
  have hs : Real.sqrt (1+m^2) ≠ 0 := by positivity
  have T := fun F g (hF : ∀ t, F t = Num.fin (g t)) =>
    trapzOf_turn (Real.pi/(n+1)) n (fun t => t + Real.pi/((n+1 : ℕ) : ℝ)) (fun t => by push_cast; rfl) F g hF
  unfold svcLongiPolar svcLongiTheta
  simp only [Bool.false_eq_true, if_false, Num.fin_div hR.ne']
  ext
  all_goals
    first | refine T _ (fun t => (Spec.longiGenerator γ R m (Spec.polarPoint q.r q.psi q.z) t).x) fun t => ?_ | refine T _ (fun t => (Spec.longiGenerator γ R m (Spec.polarPoint q.r q.psi q.z) t).y) fun t => ?_ | refine T _ (fun t => (Spec.longiGenerator γ R m (Spec.polarPoint q.r q.psi q.z) t).z) fun t => ?_
    obtain ⟨hn, hd⟩ := offWake_pos h t
    rw [svcDenInv_eval q γ R m t hR hn hd]
    simp only [longiGenerator_eval hn hd]
    generalize V3.norm _ = N
    generalize V3.dot _ (Spec.skewDir m) = d
    generalize N * (N - d) = M
    simp only [Num.fin_mul, Num.fin_sub, Num.fin_neg, Num.fin_add, Num.fin_inj,
      V3.smul_x, V3.smul_y, V3.smul_z, V3.sub_x, V3.sub_y, V3.sub_z,
      V3.cross, Spec.skewDir, Spec.polarPoint, Spec.rim]
    field_simp
    try ring

/-- the polar integrands of `svc_longi_u_polar` (including the `u_r` that is computed and discarded) -/
theorem svcLongi_polar (q : PolarPt) (γ R m : ℝ) (n : ℕ) (hR : 0 < R) (h : Spec.OffWake R m (Spec.polarPoint q.r q.psi q.z)) :
    ∃ w, w = Spec.turnRuleV (Real.pi/(n+1)) n (fun t => Spec.inPolar q.psi (Spec.longiGenerator γ R m (Spec.polarPoint q.r q.psi q.z) t)) ∧
    svcLongiPolar q (.fin γ) R (.fin m) (n+1) true = V3.fin ⟨w.y, w.y, w.z⟩ ∧
    svcLongiUr q (.fin γ) R (.fin m) (n+1) = .fin w.x := by
  have hc := svcLongi_cart q γ R m n hR h
  have hs : Real.sqrt (1+m^2) ≠ 0 := by positivity
  have T := fun F g (hF : ∀ t, F t = Num.fin (g t)) =>
    trapzOf_turn (Real.pi/(n+1)) n (fun t => t + Real.pi/((n+1 : ℕ) : ℝ)) (fun t => by push_cast; rfl) F g hF
  have h2 := Real.sin_sq_add_cos_sq q.psi
  refine ⟨_, rfl, ?_, ?_⟩
  · unfold svcLongiPolar svcLongiTheta at hc ⊢
    simp only [Bool.false_eq_true, if_false, if_true, Num.fin_div hR.ne'] at hc ⊢
    have hy : ∀ G : ℝ → ℝ, (∀ t, G t = (Spec.inPolar q.psi (Spec.longiGenerator γ R m (Spec.polarPoint q.r q.psi q.z) t)).y) → ∀ t : ℝ,
      (Num.fin (q.r/R) - Num.fin m * Num.fin (q.z/R) * Num.fin (Real.cos q.psi) - Num.fin (Real.cos (t - q.psi))) *
        svcDenInv (Num.fin (q.r/R)) (Num.fin (q.z/R)) q.psi (Num.fin γ) (Num.fin m) t = .fin (G t) := by
      intro G hG t
      obtain ⟨hn, hd⟩ := offWake_pos h t
      rw [hG, svcDenInv_eval q γ R m t hR hn hd]
      simp only [longiGenerator_eval hn hd]
      generalize V3.norm _ = N
      generalize V3.dot _ (Spec.skewDir m) = d
      generalize N * (N - d) = M
      simp only [Num.fin_mul, Num.fin_sub, Num.fin_neg, Num.fin_add, Num.fin_inj,
        V3.smul_x, V3.smul_y, V3.smul_z, V3.sub_x, V3.sub_y, V3.sub_z, Spec.inPolar, V3.dot,
        V3.cross, Spec.skewDir, Spec.polarPoint, Spec.rim, Real.cos_sub]
      field_simp
      linear_combination -(γ * q.r * M⁻¹) * h2
    ext
    · exact T _ _ (hy _ fun _ => rfl)
    · exact T _ _ (hy _ fun _ => rfl)
    · have hcz := congrArg V3.z hc; exact hcz
  · unfold svcLongiUr svcLongiTheta
    simp only [Num.fin_div hR.ne']
    refine T _ (fun t => (Spec.inPolar q.psi (Spec.longiGenerator γ R m (Spec.polarPoint q.r q.psi q.z) t)).x) fun t => ?_
    obtain ⟨hn, hd⟩ := offWake_pos h t
    rw [svcDenInv_eval q γ R m t hR hn hd]
    simp only [longiGenerator_eval hn hd]
    generalize V3.norm _ = N
    generalize V3.dot _ (Spec.skewDir m) = d
    generalize N * (N - d) = M
    simp only [Num.fin_mul, Num.fin_sub, Num.fin_neg, Num.fin_add, Num.fin_inj,
        V3.smul_x, V3.smul_y, V3.smul_z, V3.sub_x, V3.sub_y, V3.sub_z, Spec.inPolar, V3.dot,
        V3.cross, Spec.skewDir, Spec.polarPoint, Spec.rim, Real.sin_sub]
    field_simp
    ring

end Wiz
