import Verif.Lemmas.Riemann
import Verif.Props.VortexDoublet

/-!
# C75: the numerical doublet lines
-/
namespace Wiz
open Classical MeasureTheory Set Filter Topology

theorem foldl_range_sum {M : Type} [AddCommMonoid M] (f : ℕ → M) (n : ℕ) :
    (List.range n).foldl (fun u i => u + f i) 0 = ∑ i ∈ Finset.range n, f i := by
  induction n with
  | zero => simp
  | succ n ih => rw [List.range_succ, List.foldl_append, ih, Finset.sum_range_succ]; rfl

theorem linspace_short (a b : ℝ) {n : ℕ} (h : n < 2) : linspace a b n = [] ∨ ∃ x, linspace a b n = [x] := by
  interval_cases n
  · left; simp [linspace]
  · right; exact ⟨a, by simp [linspace]⟩

theorem linspace_long (a b : ℝ) {n : ℕ} (h : 1 ≤ n) :
    ∃ rest, linspace a b (n+1) = a :: (a + (b-a)/n) :: rest := by
  obtain ⟨k, rfl⟩ : ∃ k, n = k + 1 := ⟨n-1, by omega⟩
  have e0 : a + ((0:ℕ):ℝ) * ((b - a)/((k+1+1:ℕ) - 1 : ℝ)) = a := by simp
  have e1 : a + ((Nat.succ 0:ℕ):ℝ) * ((b - a)/((k+1+1:ℕ) - 1 : ℝ)) = a + (b-a)/(k+1:ℕ) := by push_cast; ring_nf
  unfold linspace
  rw [List.range_succ_eq_map, List.range_succ_eq_map]
  simp only [List.map_cons]
  rw [e0, e1]
  exact ⟨_, rfl⟩

/-- C75 (too few points): with fewer than two quadrature points both routines raise. -/
theorem C75_too_few (p : V3 ℝ) (K : Num) (m r z a zmax : ℝ) (n : ℕ) (h : n < 2) :
    (∃ e, doubletLineUNum p K m zmax n = .error e) ∧ (∃ e, doubletLinePolarUNum r z K a zmax n = .error e) := by
  unfold doubletLineUNum doubletLinePolarUNum
  constructor
  · rcases linspace_short 0 zmax h with h | ⟨x, h⟩ <;> rw [h] <;> exact ⟨_, rfl⟩
  · rcases linspace_short a zmax h with h | ⟨x, h⟩ <;> rw [h] <;> exact ⟨_, rfl⟩

/-- C75 (Riemann sum): with `n+1 ≥ 2` points the result is the sum over the points
`(m zᵢ, 0, zᵢ)`, `zᵢ = i·zmax/n`, `i=0..n` of the velocities of point doublets of moment
`(0, 0, dmz_dz·zmax/n)`. -/
theorem C75_sum (p : V3 ℝ) (K m zmax : ℝ) (n : ℕ) (hn : 1 ≤ n) :
    doubletLineUNum p (.fin K) m zmax (n+1) =
      .ok (∑ i ∈ Finset.range (n+1), doubletU p (V3.fin ⟨0, 0, K*(zmax/n)⟩) ⟨m*(i*(zmax/n)), 0, i*(zmax/n)⟩) := by
  obtain ⟨rest, h⟩ := linspace_long 0 zmax hn
  unfold doubletLineUNum
  simp only [h]
  rw [← h]
  congr 1
  unfold linspace
  rw [List.foldl_map, ← foldl_range_sum]
  congr 1
  funext u i
  push_cast
  simp only [add_sub_cancel_right, sub_zero, zero_add, Num.fin_mul]
  rfl

/-- C75 (polar, sum): likewise for the straight line from `a` to `zmax` and non-negative radii: the
radial and axial velocities are those of the sum of point doublets, in every meridian plane. -/
theorem C75_polar (r z K a zmax psi : ℝ) (n : ℕ) (hn : 1 ≤ n) :
    (r < 0 → ∃ e, doubletLinePolarUNum r z (.fin K) a zmax (n+1) = .error e) ∧
    (0 ≤ r → ∃ ur uz : ℝ, doubletLinePolarUNum r z (.fin K) a zmax (n+1) = .ok (.fin ur, .fin uz) ∧
      ∑ i ∈ Finset.range (n+1), doubletU ⟨r * Real.cos psi, r * Real.sin psi, z⟩ (V3.fin ⟨0, 0, K*((zmax-a)/n)⟩)
          ⟨0, 0, a + i*((zmax-a)/n)⟩ =
        V3.fin ⟨ur * Real.cos psi, ur * Real.sin psi, uz⟩) := by
  obtain ⟨rest, h⟩ := linspace_long a zmax hn
  have e : doubletLinePolarUNum r z (.fin K) a zmax (n+1) = (List.range (n+1)).foldl (fun (acc : Except String (Num × Num)) (i : ℕ) =>
      match acc, doubletUPolar r z (.fin (K*((zmax-a)/n))) (a + i*((zmax-a)/n)) with
      | .ok (ur, uz), .ok (dur, duz) => .ok (ur + dur, uz + duz)
      | .error e, _ => .error e
      | _, .error e => .error e) (.ok (0, 0)) := by
    unfold doubletLinePolarUNum
    simp only [h]
    rw [← h]
    unfold linspace
    rw [List.foldl_map]
    congr 1
    funext acc i
    push_cast
    simp only [add_sub_cancel_right, add_sub_cancel_left, Num.fin_mul]
    rfl
  rw [e]
  constructor
  · intro hr
    have := fun i : ℕ => (C55_polar r z (K*((zmax-a)/n)) (a + i*((zmax-a)/n)) psi).1 hr
    choose f hf using this
    simp only [hf]
    rw [List.range_succ_eq_map, List.foldl_cons]
    generalize List.map Nat.succ (List.range n) = l
    have key : ∀ (l : List ℕ) (e0 : String), ∃ e1, l.foldl (fun (acc : Except String (Num × Num)) (i : ℕ) =>
      match acc, (.error (f i) : Except String (Num × Num)) with
      | .ok (ur, uz), .ok (dur, duz) => .ok (ur + dur, uz + duz)
      | .error e, _ => .error e
      | _, .error e => .error e) (.error e0) = .error e1 := by
      intro l
      induction l with
      | nil => intro e0; exact ⟨e0, rfl⟩
      | cons x l ih => intro e0; exact ih e0
    exact key l _
  · intro hr
    have := fun i : ℕ => (C55_polar r z (K*((zmax-a)/n)) (a + i*((zmax-a)/n)) psi).2 hr
    choose f g h1 h2 using this
    simp only [h1, h2]
    clear h e
    generalize n + 1 = N
    induction N with
    | zero => exact ⟨0, 0, rfl, by simp; rfl⟩
    | succ N ih =>
      obtain ⟨ur, uz, i1, i2⟩ := ih
      refine ⟨ur + f N, uz + g N, ?_, ?_⟩
      · rw [List.range_succ, List.foldl_append, i1]
        rfl
      · rw [Finset.sum_range_succ, i2]
        ext <;> simp <;> ring

theorem doublet_line_continuous (p : V3 ℝ) (K m zmax : ℝ) (h : ∀ s ∈ Icc 0 zmax, 0 < V3.norm (p - ⟨m*s, 0, s⟩)) :
    ContinuousOn (fun s => (Spec.doubletField ⟨0, 0, K⟩ ⟨m*s, 0, s⟩ p).x) (Icc 0 zmax) ∧
    ContinuousOn (fun s => (Spec.doubletField ⟨0, 0, K⟩ ⟨m*s, 0, s⟩ p).y) (Icc 0 zmax) ∧
    ContinuousOn (fun s => (Spec.doubletField ⟨0, 0, K⟩ ⟨m*s, 0, s⟩ p).z) (Icc 0 zmax) := by
  have hq : Continuous fun s => LineInt.q (V3.norm p) (m*p.x+p.z) (Real.sqrt (m^2+1)) s := by
    unfold LineInt.q LineInt.Q; fun_prop
  have hne : ∀ s ∈ Icc 0 zmax, LineInt.q (V3.norm p) (m*p.x+p.z) (Real.sqrt (m^2+1)) s ≠ 0 := by
    intro s hs; rw [← norm_doublet_line]; exact (h s hs).ne'
  have h5 : ∀ s ∈ Icc 0 zmax, LineInt.q (V3.norm p) (m*p.x+p.z) (Real.sqrt (m^2+1)) s ^ 5 ≠ 0 := fun s hs => pow_ne_zero _ (hne s hs)
  have h3 : ∀ s ∈ Icc 0 zmax, LineInt.q (V3.norm p) (m*p.x+p.z) (Real.sqrt (m^2+1)) s ^ 3 ≠ 0 := fun s hs => pow_ne_zero _ (hne s hs)
  have c5 : ∀ f : ℝ → ℝ, Continuous f → ContinuousOn (fun s => f s / LineInt.q (V3.norm p) (m*p.x+p.z) (Real.sqrt (m^2+1)) s ^ 5) (Icc 0 zmax) :=
    fun f hf => hf.continuousOn.div (hq.pow 5).continuousOn h5
  have c3 : ContinuousOn (fun s => 1 / LineInt.q (V3.norm p) (m*p.x+p.z) (Real.sqrt (m^2+1)) s ^ 3) (Icc 0 zmax) :=
    continuousOn_const.div (hq.pow 3).continuousOn h3
  have comb : ∀ k0 k1 k2 k3 : ℝ, ContinuousOn (fun s =>
      (k0*(3/LineInt.q (V3.norm p) (m*p.x+p.z) (Real.sqrt (m^2+1)) s^5)
        + k1*(3*s/LineInt.q (V3.norm p) (m*p.x+p.z) (Real.sqrt (m^2+1)) s^5)
        + k2*(3*s^2/LineInt.q (V3.norm p) (m*p.x+p.z) (Real.sqrt (m^2+1)) s^5)
        + k3*(1/LineInt.q (V3.norm p) (m*p.x+p.z) (Real.sqrt (m^2+1)) s^3))) (Icc 0 zmax) := by
    intro k0 k1 k2 k3
    exact (((continuousOn_const.mul (c5 _ continuous_const)).add (continuousOn_const.mul (c5 (fun s => 3*s) (by fun_prop)))).add
      (continuousOn_const.mul (c5 (fun s => 3*s^2) (by fun_prop)))).add (continuousOn_const.mul c3)
  simp only [doublet_integrand]
  exact ⟨comb _ _ _ _, comb _ _ _ _, comb _ _ _ _⟩

theorem doubletField_smul (k K : ℝ) (X p : V3 ℝ) :
    Spec.doubletField ⟨0, 0, K*k⟩ X p = V3.smul k (Spec.doubletField ⟨0, 0, K⟩ X p) := by
  simp only [Spec.doubletField]
  ext <;> simp [V3.dot] <;> ring

theorem sum_fin3 (f : ℕ → V3 ℝ) (n : ℕ) :
    ∑ i ∈ Finset.range n, V3.fin (f i) =
      V3.fin ⟨∑ i ∈ Finset.range n, (f i).x, ∑ i ∈ Finset.range n, (f i).y, ∑ i ∈ Finset.range n, (f i).z⟩ := by
  induction n with
  | zero => simp; rfl
  | succ n ih => simp only [Finset.sum_range_succ, ih]; ext <;> simp

/-- C75 (convergence): at a point whose distance to the segment stays outside the singular ball of
`doublet_u`, the numerical velocity converges, as the number of points grows, to the integral of the
point-doublet velocities over the line. -/
theorem C75_converges (p : V3 ℝ) (K m zmax : ℝ) (hz : 0 < zmax)
    (h : ∀ s ∈ Icc 0 zmax, 1e-8 ≤ V3.norm (p - ⟨m*s, 0, s⟩) ^ 3) :
    ∃ U : ℕ → V3 ℝ, (∀ n : ℕ, 1 ≤ n → doubletLineUNum p (.fin K) m zmax (n+1) = .ok (V3.fin (U n))) ∧
      Tendsto (fun n => (U n).x) atTop (𝓝 (Spec.vint (Ioc 0 zmax) fun s => Spec.doubletField ⟨0, 0, K⟩ ⟨m*s, 0, s⟩ p).x) ∧
      Tendsto (fun n => (U n).y) atTop (𝓝 (Spec.vint (Ioc 0 zmax) fun s => Spec.doubletField ⟨0, 0, K⟩ ⟨m*s, 0, s⟩ p).y) ∧
      Tendsto (fun n => (U n).z) atTop (𝓝 (Spec.vint (Ioc 0 zmax) fun s => Spec.doubletField ⟨0, 0, K⟩ ⟨m*s, 0, s⟩ p).z) := by
  have hpos : ∀ s ∈ Icc 0 zmax, 0 < V3.norm (p - ⟨m*s, 0, s⟩) := by
    intro s hs
    rcases (norm_nonneg' (p - ⟨m*s, 0, s⟩)).eq_or_lt with h0 | h0
    · have := h s hs; rw [← h0] at this; norm_num at this
    · exact h0
  obtain ⟨cx, cy, cz⟩ := doublet_line_continuous p K m zmax hpos
  have tx := closed_sum_tendsto _ 0 zmax hz cx
  have ty := closed_sum_tendsto _ 0 zmax hz cy
  have tz := closed_sum_tendsto _ 0 zmax hz cz
  rw [intervalIntegral.integral_of_le hz.le] at tx ty tz
  simp only [sub_zero, zero_add] at tx ty tz
  let F : ℝ → V3 ℝ := fun s => Spec.doubletField ⟨0, 0, K⟩ ⟨m*s, 0, s⟩ p
  refine ⟨fun n => ⟨∑ i ∈ Finset.range (n+1), zmax/n * (F (i*(zmax/n))).x, ∑ i ∈ Finset.range (n+1), zmax/n * (F (i*(zmax/n))).y,
    ∑ i ∈ Finset.range (n+1), zmax/n * (F (i*(zmax/n))).z⟩, ?_, tx, ty, tz⟩
  intro n hn
  rw [C75_sum p K m zmax n hn]
  congr 1
  have hn' : (0:ℝ) < n := by exact_mod_cast hn
  have e : ∀ i ∈ Finset.range (n+1), doubletU p (V3.fin ⟨0, 0, K*(zmax/n)⟩) ⟨m*(i*(zmax/n)), 0, i*(zmax/n)⟩ =
      V3.fin (V3.smul (zmax/n) (F (i*(zmax/n)))) := by
    intro i hi
    have hi' : (i:ℝ) ≤ n := by have := Finset.mem_range.mp hi; exact_mod_cast Nat.lt_succ_iff.mp this
    rw [(C55_field _ _ _).1 (h _ ⟨by positivity, by
      calc (i:ℝ)*(zmax/n) ≤ n*(zmax/n) := by gcongr
        _ = zmax := by field_simp⟩), doubletField_smul]
  rw [Finset.sum_congr rfl e, sum_fin3]
  rfl

/-- C75 (long lines): the limits of the numerical velocities tend, as `zmax` grows, to the analytical
semi-infinite doublet line. -/
theorem C75_long_line (p : V3 ℝ) (K m : ℝ) (h : ¬ (|p.y| < 1e-8 ∧ |p.x - m*p.z| < 1e-8 ∧ 0 ≤ p.z)) :
    ∃ u : V3 ℝ, doubletLineU p (.fin K) m none = V3.fin u ∧
      Tendsto (fun Z => (Spec.vint (Ioc 0 Z) fun s => Spec.doubletField ⟨0, 0, K⟩ ⟨m*s, 0, s⟩ p).x) atTop (𝓝 u.x) ∧
      Tendsto (fun Z => (Spec.vint (Ioc 0 Z) fun s => Spec.doubletField ⟨0, 0, K⟩ ⟨m*s, 0, s⟩ p).y) atTop (𝓝 u.y) ∧
      Tendsto (fun Z => (Spec.vint (Ioc 0 Z) fun s => Spec.doubletField ⟨0, 0, K⟩ ⟨m*s, 0, s⟩ p).z) atTop (𝓝 u.z) := by
  have h' : ¬ (p.y = 0 ∧ p.x = m*p.z ∧ 0 ≤ p.z) := by
    rintro ⟨e1, e2, e3⟩
    apply h
    rw [e1, e2]
    norm_num
    exact e3
  obtain ⟨ha, hc, h1, h2⟩ := line_geometry p m h'
  refine ⟨_, doubletLineU_eval p K m h, ?_⟩
  have key : ∀ f : ℝ → ℝ, IntegrableOn f (Ioi 0) → Tendsto (fun Z => ∫ s in Ioc 0 Z, f s) atTop (𝓝 (∫ s in Ioi 0, f s)) := by
    intro f hf
    refine (intervalIntegral_tendsto_integral_Ioi 0 hf tendsto_id).congr' ?_
    filter_upwards [eventually_ge_atTop 0] with Z hZ
    exact intervalIntegral.integral_of_le hZ
  simp only [doublet_integrand, Spec.vint]
  refine ⟨key _ ?_, key _ ?_, key _ ?_⟩ <;> 
    exact ((((LineInt.integrable50g ha hc h1 h2).const_mul _).add ((LineInt.integrable51g ha hc h1 h2).const_mul _)).add
      ((LineInt.integrable52g ha hc h1 h2).const_mul _)).add ((LineInt.integrable30g ha hc h1 h2).const_mul _)

/-- the hypotheses of C75 hold e.g. at `(1,0,0)` for a line of length 10 skewed by `tan χ = 1/2`. -/
example : (0:ℝ) < 10 ∧ (∀ s ∈ Icc (0:ℝ) 10, 1e-8 ≤ V3.norm ((⟨1, 1, 0⟩ : V3 ℝ) - ⟨1/2*s, 0, s⟩) ^ 3) ∧
    ¬ (|(1:ℝ)| < 1e-8 ∧ |(1:ℝ) - 1/2*0| < 1e-8 ∧ (0:ℝ) ≤ 0) := by
  refine ⟨by norm_num, ?_, by norm_num⟩
  intro s _
  have : 1 ≤ V3.norm ((⟨1, 1, 0⟩ : V3 ℝ) - ⟨1/2*s, 0, s⟩) := by
    unfold V3.norm
    rw [Real.one_le_sqrt]
    simp only [V3.sub_x, V3.sub_y, V3.sub_z]
    nlinarith [sq_nonneg (1-1/2*s), sq_nonneg s]
  calc (1e-8:ℝ) ≤ 1 := by norm_num
    _ ≤ _ := one_le_pow₀ this

end Wiz
