import Verif.Model.RingStack
import Verif.Lemmas.RingStack
import Verif.Props.VortexRing
import Verif.Props.SkewedGround
import Verif.Props.ZeroSkew

/-! # C99: a stack of vortex rings converges to the vortex cylinder -/
namespace Wiz
open MeasureTheory Set Filter Topology

theorem fin_list_sum (n : ℕ) (f : ℕ → V3 ℝ) : ((List.range n).map fun i => V3.fin (f i)).sum =
    V3.fin ⟨∑ i ∈ Finset.range n, (f i).x, ∑ i ∈ Finset.range n, (f i).y, ∑ i ∈ Finset.range n, (f i).z⟩ := by
  induction n with
  | zero => rfl
  | succ n ih =>
    rw [List.range_succ, List.map_append, List.sum_append, ih]
    simp only [List.map_cons, List.map_nil, List.sum_cons, List.sum_nil, add_zero, Finset.sum_range_succ]
    rfl

/-- the rings of a stack -/
theorem ringStack_ok (γ R χ L : ℝ) (n : ℕ) (hn : 0 < n) : ringStack γ R χ L (n+1) =
    .ok ((List.range (n+1)).map fun i : ℕ => ⟨γ * (L/n / Real.cos χ), R, ⟨Real.tan χ * (i * (L/n)), 0, i * (L/n)⟩⟩) := by
  have hl : linspace 0 L (n+1) = (List.range (n+1)).map fun i : ℕ => (i:ℝ) * (L/n) := by
    unfold linspace
    apply List.map_congr_left
    intro i _
    push_cast
    ring_nf
  obtain ⟨k, rfl⟩ : ∃ k, n = k + 1 := ⟨n - 1, by omega⟩
  have h2 : (List.range (k+1+1)).map (fun i : ℕ => (i:ℝ) * (L/((k+1 : ℕ) : ℝ))) = ((0:ℕ):ℝ) * (L/((k+1 : ℕ) : ℝ)) :: ((1:ℕ):ℝ) * (L/((k+1 : ℕ) : ℝ)) ::
      (List.range k).map (fun i : ℕ => ((i+2 : ℕ) : ℝ) * (L/((k+1 : ℕ) : ℝ))) := by
    rw [List.range_succ_eq_map, List.range_succ_eq_map]
    simp [List.map_map, Function.comp_def]
    intros; left; ring
  unfold ringStack
  simp only [hl]
  conv_lhs => rw [h2]
  simp only
  rw [← h2, List.map_map]
  congr 1
  apply List.map_congr_left
  intro i _
  simp only [Function.comp_apply, mul_zero, zero_add, zero_mul]
  simp

/-- the ring at height `z` of a stack, as a part of the sheet -/
theorem ring_of_sheet (R m z : ℝ) (P : V3 ℝ) :
    Spec.ringField 1 R (P - ⟨m * z, 0, z⟩) = Spec.vint (Ioc 0 (2*Real.pi)) fun θ =>
      Spec.bsKernel (Spec.wakePoint R m θ (Real.sqrt (1 + m^2) * z)) (Spec.rimTangent R θ) P := by
  have hc : Real.sqrt (1 + m^2) ≠ 0 := by positivity
  unfold Spec.ringField Spec.biotSavart
  have e : ∀ θ, Spec.bsKernel (Spec.wakePoint R m θ (Real.sqrt (1 + m^2) * z)) (Spec.rimTangent R θ) P =
      Spec.bsKernel ⟨R * Real.cos θ, R * Real.sin θ, 0⟩ ⟨-R * Real.sin θ, R * Real.cos θ, 0⟩ (P - ⟨m * z, 0, z⟩) := by
    intro θ
    have e1 : P - Spec.wakePoint R m θ (Real.sqrt (1 + m^2) * z) = P - ⟨m * z, 0, z⟩ - ⟨R * Real.cos θ, R * Real.sin θ, 0⟩ := by
      ext
      · simp only [Spec.wakePoint, Spec.rim, Spec.skewDir, V3.sub_x, V3.add_x, V3.smul_x]; field_simp; ring
      · simp only [Spec.wakePoint, Spec.rim, Spec.skewDir, V3.sub_y, V3.add_y, V3.smul_y]; ring
      · simp only [Spec.wakePoint, Spec.rim, Spec.skewDir, V3.sub_z, V3.add_z, V3.smul_z]; field_simp; ring
    have e2 : Spec.rimTangent R θ = ⟨-R * Real.sin θ, R * Real.cos θ, 0⟩ := by
      unfold Spec.rimTangent; rw [neg_mul]
    unfold Spec.bsKernel
    rw [e1, e2]
  simp only [e]
  unfold V3.smul
  simp only [one_mul]

/-- the sum of the exact fields of the rings of a stack converges to the field of the sheet -/
theorem stack_field (γ R m : ℝ) (P : V3 ℝ) (hoff : Spec.OffWake R m P) :
    ∀ ε > 0, ∃ L0, 0 < L0 ∧ ∀ L ≥ L0, ∃ N0 : ℕ, ∀ n ≥ N0, ∀ π' : V3 ℝ → ℝ, π' = V3.x ∨ π' = V3.y ∨ π' = V3.z →
      |∑ i ∈ Finset.range (n+1), π' (Spec.ringField (γ * (L/n * Real.sqrt (1 + m^2))) R (P - ⟨m * (i * (L/n)), 0, i * (L/n)⟩))
        - π' (Spec.skewTangField γ R m P)| < ε := by
  have hc : 0 < Real.sqrt (1 + m^2) := by positivity
  set c := Real.sqrt (1 + m^2) with hcdef
  have one : ∀ π' : V3 ℝ → ℝ, π' = V3.x ∨ π' = V3.y ∨ π' = V3.z →
      ∀ ε > 0, ∃ L0, 0 < L0 ∧ ∀ L ≥ L0, ∃ N0 : ℕ, ∀ n ≥ N0,
      |∑ i ∈ Finset.range (n+1), π' (Spec.ringField (γ * (L/n * c)) R (P - ⟨m * (i * (L/n)), 0, i * (L/n)⟩))
        - π' (Spec.skewTangField γ R m P)| < ε := by
    intro π' hπ ε hε
    obtain ⟨hk, B, hB⟩ := tangKernel_bound hoff π' hπ
    have hlin : ∀ (a : ℝ) (v : V3 ℝ), π' (V3.smul a v) = a * π' v := by
      rcases hπ with rfl | rfl | rfl <;> intros <;> rfl
    have hint : ∀ (S : Set ℝ) (f : ℝ → V3 ℝ), π' (Spec.vint S f) = ∫ s in S, π' (f s) := by
      rcases hπ with rfl | rfl | rfl <;> intros <;> rfl
    have hF : π' (Spec.skewTangField γ R m P) = γ * ∫ θ in Ioc 0 (2*Real.pi), ∫ s in Ioi 0,
        π' (Spec.bsKernel (Spec.wakePoint R m θ s) (Spec.rimTangent R θ) P) := by
      unfold Spec.skewTangField Spec.tangGenerator
      simp only [hint, hlin]
      rw [integral_const_mul]
    obtain ⟨L0, hL0, h⟩ := sheet_sum _ B c hc hk hB (ε/(|γ|+1)) (by positivity)
    refine ⟨L0, hL0, fun L hL => ?_⟩
    obtain ⟨N0, hN⟩ := h L hL
    refine ⟨N0, fun n hn => ?_⟩
    have h1 := hN n hn
    rw [hF]
    have e : ∀ i : ℕ, π' (Spec.ringField (γ * (L/n * c)) R (P - ⟨m * (i * (L/n)), 0, i * (L/n)⟩)) =
        γ * (c * (L/n) * ∫ θ in Ioc 0 (2*Real.pi), π' (Spec.bsKernel (Spec.wakePoint R m θ (c * (i * (L/n)))) (Spec.rimTangent R θ) P)) := by
      intro i
      have := ringField_smul (γ * (L/n * c)) 1 R (P - ⟨m * (i * (L/n)), 0, i * (L/n)⟩)
      rw [mul_one] at this
      rw [this, hlin, ring_of_sheet, hint]
      ring
    rw [Finset.sum_congr rfl (fun i _ => e i), ← Finset.mul_sum, ← mul_sub, abs_mul]
    calc _ ≤ |γ| * (ε/(|γ|+1)) := by gcongr
      _ < (|γ|+1) * (ε/(|γ|+1)) := by
        have : 0 < ε/(|γ|+1) := by positivity
        nlinarith
      _ = ε := by field_simp
  intro ε hε
  obtain ⟨L1, l1, h1⟩ := one V3.x (Or.inl rfl) ε hε
  obtain ⟨L2, l2, h2⟩ := one V3.y (Or.inr (Or.inl rfl)) ε hε
  obtain ⟨L3, l3, h3⟩ := one V3.z (Or.inr (Or.inr rfl)) ε hε
  refine ⟨max L1 (max L2 L3), lt_max_of_lt_left l1, fun L hL => ?_⟩
  obtain ⟨N1, k1⟩ := h1 L (le_trans (le_max_left _ _) hL)
  obtain ⟨N2, k2⟩ := h2 L (le_trans (le_trans (le_max_left _ _) (le_max_right _ _)) hL)
  obtain ⟨N3, k3⟩ := h3 L (le_trans (le_trans (le_max_right _ _) (le_max_right _ _)) hL)
  refine ⟨max N1 (max N2 N3), fun n hn π' hπ => ?_⟩
  rcases hπ with rfl | rfl | rfl
  · exact k1 n (le_trans (le_max_left _ _) hn)
  · exact k2 n (le_trans (le_trans (le_max_left _ _) (le_max_right _ _)) hn)
  · exact k3 n (le_trans (le_trans (le_max_right _ _) (le_max_right _ _)) hn)

/-- C99: at a point off the wake at which no ring uses its cut-off values, the velocity of a sufficiently long stack of
sufficiently many rings is as close as wanted to the exact velocity (double Biot–Savart integral) of the skewed cylinder. -/
theorem C99_converges (γ R χ : ℝ) (hR : 0 < R) (hχ : 0 < Real.cos χ) (P : V3 ℝ)
    (hoff : ∀ θ s, 0 ≤ s → P ≠ Spec.wakePoint R (Real.tan χ) θ s)
    (hcut : ∀ s ≥ 0, (√((P.x - Real.tan χ * s)^2 + P.y^2) = 0 ∨ 1e-7 * R ≤ √((P.x - Real.tan χ * s)^2 + P.y^2)) ∧
      (1e-7 * R ≤ |√((P.x - Real.tan χ * s)^2 + P.y^2) - R| ∨ 1e-7 ≤ |P.z - s|)) :
    ∀ ε > 0, ∃ L0 > 0, ∀ L ≥ L0, ∃ N0, ∀ n ≥ N0, ∃ rings u, ringStack γ R χ L n = .ok rings ∧
      ringsU P rings 0 = V3.fin u ∧ |u.x - (Spec.skewTangField γ R (Real.tan χ) P).x| < ε ∧
      |u.y - (Spec.skewTangField γ R (Real.tan χ) P).y| < ε ∧ |u.z - (Spec.skewTangField γ R (Real.tan χ) P).z| < ε := by
  intro ε hε
  obtain ⟨L0, hL0, h⟩ := stack_field γ R (Real.tan χ) P hoff ε hε
  refine ⟨L0, hL0, fun L hL => ?_⟩
  obtain ⟨N0, hN⟩ := h L hL
  have hsec : Real.sqrt (1 + Real.tan χ ^ 2) = 1 / Real.cos χ := by
    rw [← Real.inv_sqrt_one_add_tan_sq hχ, one_div, inv_inv]
  refine ⟨max N0 1 + 1, fun n hn => ?_⟩
  obtain ⟨k, rfl⟩ : ∃ k, n = k + 1 := ⟨n - 1, by omega⟩
  have hk : 0 < k := by have := le_max_right N0 1; omega
  have hk' : N0 ≤ k := by have := le_max_left N0 1; omega
  have hLp : 0 < L := lt_of_lt_of_le hL0 hL
  have hv : ∀ i : ℕ, ringU (P - ⟨Real.tan χ * (i * (L/k)), 0, i * (L/k)⟩) (γ * (L/k / Real.cos χ)) R 0 =
      V3.fin (Spec.ringField (γ * (L/k * Real.sqrt (1 + Real.tan χ ^ 2))) R (P - ⟨Real.tan χ * (i * (L/k)), 0, i * (L/k)⟩)) := by
    intro i
    rw [hsec, mul_one_div]
    obtain ⟨h1, h2⟩ := hcut (i * (L/k)) (by positivity)
    have ex : (P - (⟨Real.tan χ * (i * (L/k)), 0, i * (L/k)⟩ : V3 ℝ)) = ⟨P.x - Real.tan χ * (i * (L/k)), P.y, P.z - i * (L/k)⟩ := by
      ext <;> simp
    rw [ex]
    rcases h1 with h1 | h1
    · have h3 : √((P.x - Real.tan χ * (i * (L/k)))^2 + P.y^2) < 1e-7 * R := by rw [h1]; positivity
      rw [(C52_axis _ _ R 0 "" hR h3).1]
      rw [Real.sqrt_eq_zero (by positivity)] at h1
      have a1 : P.x - Real.tan χ * (i * (L/k)) = 0 := by nlinarith [sq_nonneg (P.x - Real.tan χ * (i * (L/k))), sq_nonneg P.y]
      have a2 : P.y = 0 := by nlinarith [sq_nonneg (P.x - Real.tan χ * (i * (L/k))), sq_nonneg P.y]
      rw [a1, a2]
    · rw [C52_biot_savart _ _ R 0 hR h1 h2]
  have h1 := hN k hk'
  set F : ℕ → V3 ℝ := fun i => Spec.ringField (γ * (L/k * Real.sqrt (1 + Real.tan χ ^ 2))) R (P - ⟨Real.tan χ * (i * (L/k)), 0, i * (L/k)⟩) with hF
  refine ⟨_, ⟨∑ i ∈ Finset.range (k+1), (F i).x, ∑ i ∈ Finset.range (k+1), (F i).y, ∑ i ∈ Finset.range (k+1), (F i).z⟩, ringStack_ok γ R χ L k hk, ?_, h1 V3.x (Or.inl rfl), h1 V3.y (Or.inr (Or.inl rfl)), h1 V3.z (Or.inr (Or.inr rfl))⟩
  rw [C53_full_sum _ _ (by intro c hc; rw [List.mem_map] at hc; obtain ⟨i, -, rfl⟩ := hc; exact hR), List.map_map]
  rw [show ((fun c : RingSpec => ringU (P - c.pos) c.Gamma c.R 0) ∘ fun i : ℕ => (⟨γ * (L/k / Real.cos χ), R, ⟨Real.tan χ * (i * (L/k)), 0, i * (L/k)⟩⟩ : RingSpec)) =
    fun i : ℕ => V3.fin (Spec.ringField (γ * (L/k * Real.sqrt (1 + Real.tan χ ^ 2))) R (P - ⟨Real.tan χ * (i * (L/k)), 0, i * (L/k)⟩)) from funext hv]
  exact fin_list_sum _ _

/-- C99, code against code: under the same conditions the stack and `svc_tang_u` with sufficiently many azimuths agree to any
accuracy. -/
theorem C99_agree (γ R χ : ℝ) (hR : 0 < R) (hχ : 0 < Real.cos χ) (P : V3 ℝ)
    (hoff : ∀ θ s, 0 ≤ s → P ≠ Spec.wakePoint R (Real.tan χ) θ s)
    (hcut : ∀ s ≥ 0, (√((P.x - Real.tan χ * s)^2 + P.y^2) = 0 ∨ 1e-7 * R ≤ √((P.x - Real.tan χ * s)^2 + P.y^2)) ∧
      (1e-7 * R ≤ |√((P.x - Real.tan χ * s)^2 + P.y^2) - R| ∨ 1e-7 ≤ |P.z - s|)) :
    ∀ ε > 0, ∃ L0 > 0, ∀ L ≥ L0, ∃ N0, ∀ n ≥ N0, ∃ T0, ∀ ntheta ≥ T0, ∃ rings u v, ringStack γ R χ L n = .ok rings ∧
      ringsU P rings 0 = V3.fin u ∧ svcTang [P] (.fin γ) R (Num.tan (.fin χ)) ntheta false = [V3.fin v] ∧
      |u.x - v.x| < ε ∧ |u.y - v.y| < ε ∧ |u.z - v.z| < ε := by
  intro ε hε
  have ht : Num.tan (.fin χ) = .fin (Real.tan χ) := by
    show (if Real.cos χ = 0 then Num.nan else Num.fin (Real.tan χ)) = _
    rw [if_neg hχ.ne']
  obtain ⟨⟨w, hw, w1, w2, w3⟩, -⟩ := C65_converges (toPolarPt P) γ R (Real.tan χ) hR (by rw [polarPoint_toPolarPt]; exact hoff)
  rw [polarPoint_toPolarPt] at w1 w2 w3
  rw [Metric.tendsto_atTop] at w1 w2 w3
  obtain ⟨T1, t1⟩ := w1 (ε/2) (by linarith)
  obtain ⟨T2, t2⟩ := w2 (ε/2) (by linarith)
  obtain ⟨T3, t3⟩ := w3 (ε/2) (by linarith)
  obtain ⟨L0, hL0, h⟩ := C99_converges γ R χ hR hχ P hoff hcut (ε/2) (by linarith)
  refine ⟨L0, hL0, fun L hL => ?_⟩
  obtain ⟨N0, hN⟩ := h L hL
  refine ⟨N0, fun n hn => ?_⟩
  obtain ⟨rings, u, e1, e2, b1, b2, b3⟩ := hN n hn
  refine ⟨T1 + T2 + T3 + 1, fun nt hnt => ?_⟩
  obtain ⟨k, rfl⟩ : ∃ k, nt = k + 1 := ⟨nt - 1, by omega⟩
  have c1 := t1 k (by omega)
  have c2 := t2 k (by omega)
  have c3 := t3 k (by omega)
  rw [Real.dist_eq] at c1 c2 c3
  refine ⟨rings, u, w k, e1, e2, ?_, ?_, ?_, ?_⟩
  · rw [ht]
    unfold svcTang
    simp only [List.map_cons, List.map_nil]
    rw [hw k]
  all_goals rw [abs_lt] at *; constructor <;> linarith

/-- C99, straight cylinder: with `chi=0` the stack converges to the field of the semi-infinite cylinder, also on its axis. -/
theorem C99_straight (γ R : ℝ) (hR : 0 < R) (P : V3 ℝ)
    (haxis : √(P.x^2 + P.y^2) = 0 ∨ 1e-7 * R ≤ √(P.x^2 + P.y^2)) (hcut : 1e-7 * R ≤ |√(P.x^2 + P.y^2) - R| ∨ P.z ≤ -1e-7) :
    ∀ ε > 0, ∃ L0 > 0, ∀ L ≥ L0, ∃ N0, ∀ n ≥ N0, ∃ rings u, ringStack γ R 0 L n = .ok rings ∧
      ringsU P rings 0 = V3.fin u ∧ |u.x - (Spec.cylinderField γ R P).x| < ε ∧
      |u.y - (Spec.cylinderField γ R P).y| < ε ∧ |u.z - (Spec.cylinderField γ R P).z| < ε := by
  have hoff : ∀ θ s, 0 ≤ s → P ≠ Spec.wakePoint R 0 θ s := by
    intro θ s hs h
    have hx := congrArg V3.x h
    have hy := congrArg V3.y h
    have hz := congrArg V3.z h
    simp only [Spec.wakePoint, Spec.rim, Spec.skewDir, V3.add_x, V3.smul_x, V3.add_y, V3.smul_y, V3.add_z, V3.smul_z] at hx hy hz
    norm_num at hx hy hz
    have hr : √(P.x^2 + P.y^2) = R := by
      rw [hx, hy, show (R * Real.cos θ)^2 + (R * Real.sin θ)^2 = R^2 * (Real.sin θ^2 + Real.cos θ^2) by ring, Real.sin_sq_add_cos_sq, mul_one, Real.sqrt_sq hR.le]
    rcases hcut with h1 | h1
    · rw [hr, sub_self, abs_zero] at h1
      have : 0 < 1e-7 * R := by positivity
      linarith
    · norm_num at h1; linarith
  rw [← (C78_fields γ R hR P hoff).1]
  have := C99_converges γ R 0 hR (by simp) P (by simpa using hoff) (by
    intro s hs
    simp only [Real.tan_zero, zero_mul, sub_zero]
    refine ⟨haxis, hcut.imp_right fun h => ?_⟩
    rw [abs_of_neg (by norm_num at h ⊢; linarith)]
    norm_num at h ⊢; linarith)
  simpa only [Real.tan_zero] using this

/-- a point inside a wake skewed by 45 degrees meets the conditions of C99 -/
example : (∀ θ s, 0 ≤ s → (⟨1, 1/2, 1⟩ : V3 ℝ) ≠ Spec.wakePoint 1 (Real.tan (Real.pi/4)) θ s) ∧
    ∀ s ≥ 0, (√((1 - Real.tan (Real.pi/4) * s)^2 + (1/2)^2) = 0 ∨ 1e-7 * 1 ≤ √((1 - Real.tan (Real.pi/4) * s)^2 + (1/2)^2)) ∧
      (1e-7 * 1 ≤ |√((1 - Real.tan (Real.pi/4) * s)^2 + (1/2)^2) - 1| ∨ 1e-7 ≤ |1 - s|) := by
  rw [Real.tan_pi_div_four]
  constructor
  · intro θ s hs h
    have hx := congrArg V3.x h
    have hy := congrArg V3.y h
    have hz := congrArg V3.z h
    simp only [Spec.wakePoint, Spec.rim, Spec.skewDir, V3.add_x, V3.smul_x, V3.add_y, V3.smul_y, V3.add_z, V3.smul_z] at hx hy hz
    have := Real.sin_sq_add_cos_sq θ
    have hc : Real.cos θ = 0 := by linarith
    have hs : Real.sin θ = 1/2 := by linarith
    rw [hc, hs] at this
    norm_num at this
  · intro s hs
    simp only [one_mul, mul_one]
    have h1 : (1/2:ℝ) ≤ √((1 - s)^2 + (1/2)^2) := Real.le_sqrt_of_sq_le (by nlinarith [sq_nonneg (1-s)])
    refine ⟨Or.inr (by norm_num at h1 ⊢; linarith), ?_⟩
    by_cases h : 1e-7 ≤ |1 - s|
    · exact Or.inr h
    · left
      push Not at h
      have h2 : (1-s)^2 ≤ 1 := by
        rw [abs_lt] at h
        norm_num at h
        nlinarith
      have h3 : (1-s)^2 ≤ 1/10 := by
        rw [abs_lt] at h
        norm_num at h
        nlinarith
      have h4 : √((1 - s)^2 + (1/2)^2) ≤ 9/10 := by
        rw [Real.sqrt_le_left (by norm_num)]
        linarith
      rw [abs_of_neg (by linarith)]
      norm_num; linarith

end Wiz
