import Verif.Props.ZeroSkew

/-!
# Properties C79–C80: linearity, scaling and mirror symmetries of the skewed cylinder
-/
namespace Wiz
open Classical Set Filter Topology MeasureTheory Spec

/-! ### the trapezoidal rule over a turn -/

theorem turnRuleV_congr (θ0 : ℝ) (n : ℕ) (f g : ℝ → V3 ℝ) (h : ∀ t, f t = g t) : turnRuleV θ0 n f = turnRuleV θ0 n g := by
  rw [show f = g from funext h]

theorem turnRule_reflect (θ0 c : ℝ) (n : ℕ) (f : ℝ → ℝ) :
    turnRule θ0 n (fun t => f (c - t)) = turnRule (c - θ0 - 2*Real.pi) n f := by
  unfold turnRule
  rcases Nat.eq_zero_or_pos n with rfl | hn
  · simp
  rw [← Finset.sum_range_reflect]
  refine Finset.sum_congr rfl fun j hj => ?_
  have hj' : j < n := Finset.mem_range.mp hj
  have hn' : (n:ℝ) ≠ 0 := by positivity
  have e : ((n - 1 - j : ℕ) : ℝ) = n - 1 - j := by
    rw [Nat.cast_sub (by omega), Nat.cast_sub (by omega)]; simp
  simp only [e]
  have e1 : c - (θ0 + ((n:ℝ) - 1 - j) * (2*Real.pi/n)) = c - θ0 - 2*Real.pi + (j+1) * (2*Real.pi/n) := by field_simp; ring
  have e2 : c - (θ0 + ((n:ℝ) - 1 - j + 1) * (2*Real.pi/n)) = c - θ0 - 2*Real.pi + j * (2*Real.pi/n) := by field_simp; ring
  rw [e1, e2]; ring

theorem turnRule_turn (θ0 : ℝ) (n : ℕ) (f : ℝ → ℝ) (hp : ∀ x, f (x + 2*Real.pi) = f x) :
    turnRule (θ0 - 2*Real.pi) n f = turnRule θ0 n f := by
  unfold turnRule
  refine Finset.sum_congr rfl fun j _ => ?_
  rw [← hp (θ0 - 2*Real.pi + j * (2*Real.pi/n)), ← hp (θ0 - 2*Real.pi + (j+1) * (2*Real.pi/n))]
  ring_nf

theorem turnRule_shift (θ0 : ℝ) (n : ℕ) (f : ℝ → ℝ) (hp : ∀ x, f (x + 2*Real.pi) = f x) :
    turnRule (θ0 + 2*Real.pi/n) n f = turnRule θ0 n f := by
  unfold turnRule
  rcases Nat.eq_zero_or_pos n with rfl | hn
  · simp
  have hn' : (n:ℝ) ≠ 0 := by positivity
  set g : ℕ → ℝ := fun i => (2*Real.pi/n) * ((f (θ0 + i * (2*Real.pi/n)) + f (θ0 + (i+1) * (2*Real.pi/n))) / 2) with hg
  have e : ∀ i : ℕ, (2*Real.pi/n) * ((f (θ0 + 2*Real.pi/n + i * (2*Real.pi/n)) + f (θ0 + 2*Real.pi/n + (i+1) * (2*Real.pi/n))) / 2) = g (i+1) := by
    intro i
    simp only [hg]; push_cast
    ring_nf
  simp only [e]
  have h1 := Finset.sum_range_succ g n
  have h2 := Finset.sum_range_succ' g n
  have h3 : g n = g 0 := by
    simp only [hg]
    have a1 : θ0 + (n:ℝ) * (2*Real.pi/n) = θ0 + ((0:ℕ):ℝ) * (2*Real.pi/n) + 2*Real.pi := by push_cast; field_simp; ring
    have a2 : θ0 + ((n:ℝ)+1) * (2*Real.pi/n) = θ0 + (((0:ℕ):ℝ)+1) * (2*Real.pi/n) + 2*Real.pi := by push_cast; field_simp; ring
    rw [a1, a2, hp, hp]
  change ∑ i ∈ Finset.range n, g (i+1) = ∑ i ∈ Finset.range n, g i
  linarith

theorem turnRule_shifts (θ0 : ℝ) (n k : ℕ) (f : ℝ → ℝ) (hp : ∀ x, f (x + 2*Real.pi) = f x) :
    turnRule (θ0 + k * (2*Real.pi/n)) n f = turnRule θ0 n f := by
  induction k with
  | zero => simp
  | succ k ih =>
    rw [← ih, ← turnRule_shift (θ0 + k * (2*Real.pi/n)) n f hp]
    congr 1; push_cast; ring

/-! ### reflections of the generators -/

/-- reflection in the plane `x=0` -/
def reflX (v : V3 ℝ) : V3 ℝ := ⟨-v.x, v.y, v.z⟩
/-- reflection in the plane `y=0` -/
def reflY (v : V3 ℝ) : V3 ℝ := ⟨v.x, -v.y, v.z⟩

theorem tang_reflX (γ R m : ℝ) (P : V3 ℝ) (θ : ℝ) :
    tangGenerator γ R (-m) (reflX P) (Real.pi - θ) = reflX (tangGenerator γ R m P θ) := by
  have hk : ∀ s, bsKernel (wakePoint R (-m) (Real.pi - θ) s) (rimTangent R (Real.pi - θ)) (reflX P)
      = reflX (bsKernel (wakePoint R m θ s) (rimTangent R θ) P) := by
    intro s
    have e1 : reflX P - wakePoint R (-m) (Real.pi - θ) s = reflX (P - wakePoint R m θ s) := by
      unfold wakePoint rim skewDir reflX
      ext <;> simp
      ring
    have hn : ∀ v, V3.norm (reflX v) = V3.norm v := by intro v; unfold V3.norm reflX; simp
    unfold bsKernel
    rw [e1, hn]
    ext <;> simp only [V3.smul_x, V3.smul_y, V3.smul_z, V3.cross, rimTangent, reflX, Real.cos_pi_sub, Real.sin_pi_sub] <;> ring
  unfold tangGenerator vint
  simp only [hk]
  unfold reflX
  ext <;> simp [integral_neg]

theorem tang_reflY (γ R m : ℝ) (P : V3 ℝ) (θ : ℝ) :
    tangGenerator γ R m (reflY P) (0 - θ) = reflY (tangGenerator γ R m P θ) := by
  have hk : ∀ s, bsKernel (wakePoint R m (0 - θ) s) (rimTangent R (0 - θ)) (reflY P)
      = reflY (bsKernel (wakePoint R m θ s) (rimTangent R θ) P) := by
    intro s
    have e1 : reflY P - wakePoint R m (0 - θ) s = reflY (P - wakePoint R m θ s) := by
      unfold wakePoint rim skewDir reflY
      ext <;> simp
      ring
    have hn : ∀ v, V3.norm (reflY v) = V3.norm v := by intro v; unfold V3.norm reflY; simp
    unfold bsKernel
    rw [e1, hn]
    ext <;> simp only [V3.smul_x, V3.smul_y, V3.smul_z, V3.cross, rimTangent, reflY, zero_sub, Real.cos_neg, Real.sin_neg] <;> ring
  unfold tangGenerator vint
  simp only [hk]
  unfold reflY
  ext <;> simp [integral_neg]

theorem offWake_reflX {R m : ℝ} {P : V3 ℝ} (h : OffWake R m P) : OffWake R (-m) (reflX P) := by
  intro θ s hs e
  refine h (Real.pi - θ) s hs ?_
  have h1 := congrArg V3.x e; have h2 := congrArg V3.y e; have h3 := congrArg V3.z e
  simp only [reflX, wakePoint, rim, skewDir, V3.add_x, V3.add_y, V3.add_z, V3.smul_x, V3.smul_y, V3.smul_z, neg_sq] at h1 h2 h3
  unfold wakePoint rim skewDir
  ext <;> simp only [V3.add_x, V3.add_y, V3.add_z, V3.smul_x, V3.smul_y, V3.smul_z, Real.cos_pi_sub, Real.sin_pi_sub]
  · rw [← neg_neg P.x, h1]; ring
  · exact h2
  · exact h3

theorem offWake_reflY {R m : ℝ} {P : V3 ℝ} (h : OffWake R m P) : OffWake R m (reflY P) := by
  intro θ s hs e
  refine h (-θ) s hs ?_
  have h1 := congrArg V3.x e; have h2 := congrArg V3.y e; have h3 := congrArg V3.z e
  simp only [reflY, wakePoint, rim, skewDir, V3.add_x, V3.add_y, V3.add_z, V3.smul_x, V3.smul_y, V3.smul_z] at h1 h2 h3
  unfold wakePoint rim skewDir
  ext <;> simp only [V3.add_x, V3.add_y, V3.add_z, V3.smul_x, V3.smul_y, V3.smul_z, Real.cos_neg, Real.sin_neg]
  · exact h1
  · rw [← neg_neg P.y, h2]; ring
  · exact h3

theorem svcTang_one (P : V3 ℝ) (γ R m : ℝ) (n : ℕ) (h : OffWake R m P) :
    svcTang [P] (.fin γ) R (.fin m) (n+1) false = [V3.fin (turnRuleV (Real.pi/2) n (tangGenerator γ R m P))] := by
  unfold svcTang
  simp only [List.map_cons, List.map_nil]
  rw [svcTang_cart _ γ R m n (by rw [polarPoint_toPolarPt]; exact h), polarPoint_toPolarPt]

theorem svcLongi_one (P : V3 ℝ) (γ R m : ℝ) (hR : 0 < R) (n : ℕ) (h : OffWake R m P) :
    svcLongi [P] (.fin γ) R (.fin m) (n+1) false = [V3.fin (turnRuleV (Real.pi/((n:ℝ)+1)) n (longiGenerator γ R m P))] := by
  unfold svcLongi
  simp only [List.map_cons, List.map_nil]
  rw [svcLongi_cart _ γ R m n hR (by rw [polarPoint_toPolarPt]; exact h), polarPoint_toPolarPt]

/-- C80: reversing the skew mirrors the velocity field of the tangential vorticity in the plane `x=0`, exactly, for every
number of quadrature points. -/
theorem C80_skew_reversal (P : V3 ℝ) (γ R m : ℝ) (n : ℕ) (hoff : ∀ θ s, 0 ≤ s → P ≠ wakePoint R m θ s) :
    ∃ u : V3 ℝ, svcTang [P] (.fin γ) R (.fin m) (n+1) false = [V3.fin u] ∧
      svcTang [⟨-P.x, P.y, P.z⟩] (.fin γ) R (.fin (-m)) (n+1) false = [V3.fin ⟨-u.x, u.y, u.z⟩] := by
  refine ⟨_, svcTang_one P γ R m n hoff, ?_⟩
  rw [show (⟨-P.x, P.y, P.z⟩ : V3 ℝ) = reflX P from rfl, svcTang_one _ γ R (-m) n (offWake_reflX hoff)]
  have h := fun θ => tang_reflX γ R m P θ
  have hg : ∀ t, tangGenerator γ R (-m) (reflX P) t = reflX (tangGenerator γ R m P (Real.pi - t)) := by
    intro t; rw [← h (Real.pi - t)]; congr 1; ring
  have hper := fun t => (gen_periodic R m P γ t).1
  have T : ∀ f : ℝ → ℝ, (∀ x, f (x + 2*Real.pi) = f x) → turnRule (Real.pi/2) n (fun t => f (Real.pi - t)) = turnRule (Real.pi/2) n f := by
    intro f hf
    rw [turnRule_reflect, show Real.pi - Real.pi/2 - 2*Real.pi = Real.pi/2 - 2*Real.pi by ring, turnRule_turn _ _ _ hf]
  congr 2
  unfold turnRuleV
  simp only [hg]
  simp only [reflX]
  ext
  · simp only
    rw [T (fun t => -(tangGenerator γ R m P t).x) (fun x => by simp only [hper])]
    unfold turnRule
    rw [← Finset.sum_neg_distrib]
    exact Finset.sum_congr rfl fun i _ => by ring
  · exact T (fun t => (tangGenerator γ R m P t).y) (fun x => by simp only [hper])
  · exact T (fun t => (tangGenerator γ R m P t).z) (fun x => by simp only [hper])

/-- C80: with an odd number of quadrature points the computed field of the tangential vorticity is exactly symmetric
with respect to the plane of skew `y=0`. -/
theorem C80_lateral_symmetry (P : V3 ℝ) (γ R m : ℝ) (k : ℕ) (hk : 0 < k) (hoff : ∀ θ s, 0 ≤ s → P ≠ wakePoint R m θ s) :
    ∃ u : V3 ℝ, svcTang [P] (.fin γ) R (.fin m) (2*k+1) false = [V3.fin u] ∧
      svcTang [⟨P.x, -P.y, P.z⟩] (.fin γ) R (.fin m) (2*k+1) false = [V3.fin ⟨u.x, -u.y, u.z⟩] := by
  refine ⟨_, svcTang_one P γ R m (2*k) hoff, ?_⟩
  rw [show (⟨P.x, -P.y, P.z⟩ : V3 ℝ) = reflY P from rfl, svcTang_one _ γ R m (2*k) (offWake_reflY hoff)]
  have h := fun θ => tang_reflY γ R m P θ
  have hg : ∀ t, tangGenerator γ R m (reflY P) t = reflY (tangGenerator γ R m P (0 - t)) := by
    intro t; rw [← h (0 - t)]; congr 1; ring
  have hper := fun t => (gen_periodic R m P γ t).1
  have T : ∀ f : ℝ → ℝ, (∀ x, f (x + 2*Real.pi) = f x) → turnRule (Real.pi/2) (2*k) (fun t => f (0 - t)) = turnRule (Real.pi/2) (2*k) f := by
    intro f hf
    have hk' : (k:ℝ) ≠ 0 := by positivity
    rw [turnRule_reflect, turnRule_turn _ _ _ hf, ← turnRule_shifts (0 - Real.pi/2) (2*k) k f hf]
    congr 1
    push_cast
    field_simp
    ring
  congr 2
  unfold turnRuleV
  simp only [hg]
  simp only [reflY]
  ext
  · exact T (fun t => (tangGenerator γ R m P t).x) (fun x => by simp only [hper])
  · simp only
    rw [T (fun t => -(tangGenerator γ R m P t).y) (fun x => by simp only [hper])]
    unfold turnRule
    rw [← Finset.sum_neg_distrib]
    exact Finset.sum_congr rfl fun i _ => by ring
  · exact T (fun t => (tangGenerator γ R m P t).z) (fun x => by simp only [hper])

/-- C80 (exact field): the limit field has both symmetries. -/
theorem C80_exact (P : V3 ℝ) (γ R m : ℝ) (hR : 0 < R) (hoff : ∀ θ s, 0 ≤ s → P ≠ wakePoint R m θ s) :
    skewTangField γ R (-m) ⟨-P.x, P.y, P.z⟩ = ⟨-(skewTangField γ R m P).x, (skewTangField γ R m P).y, (skewTangField γ R m P).z⟩ ∧
    skewTangField γ R m ⟨P.x, -P.y, P.z⟩ = ⟨(skewTangField γ R m P).x, -(skewTangField γ R m P).y, (skewTangField γ R m P).z⟩ := by
  have L : ∀ (Q : V3 ℝ) (μ : ℝ), OffWake R μ Q → ∃ u : ℕ → V3 ℝ, (∀ n, svcTang [Q] (.fin γ) R (.fin μ) (n+1) false = [V3.fin (u n)]) ∧
      Tendsto (fun n => (u n).x) atTop (𝓝 (skewTangField γ R μ Q).x) ∧ Tendsto (fun n => (u n).y) atTop (𝓝 (skewTangField γ R μ Q).y) ∧
      Tendsto (fun n => (u n).z) atTop (𝓝 (skewTangField γ R μ Q).z) := by
    intro Q μ hQ
    obtain ⟨⟨u, h1, h2⟩, -⟩ := C65_converges (toPolarPt Q) γ R μ hR (by rw [polarPoint_toPolarPt]; exact hQ)
    rw [polarPoint_toPolarPt] at h2
    exact ⟨u, fun n => by unfold svcTang; simp only [List.map_cons, List.map_nil]; rw [h1 n], h2⟩
  have inj : ∀ a b : V3 ℝ, [V3.fin a] = [V3.fin b] → a = b := by
    intro a b h
    have h := (List.cons.inj h).1
    have h1 := congrArg V3.x h; have h2 := congrArg V3.y h; have h3 := congrArg V3.z h
    simp only [V3.fin, Num.fin.injEq] at h1 h2 h3
    ext <;> assumption
  obtain ⟨u, hu, ux, uy, uz⟩ := L P m hoff
  constructor
  · obtain ⟨v, hv, vx, vy, vz⟩ := L (reflX P) (-m) (offWake_reflX hoff)
    have e : ∀ n, v n = ⟨-(u n).x, (u n).y, (u n).z⟩ := by
      intro n
      obtain ⟨w, h1, h2⟩ := C80_skew_reversal P γ R m n hoff
      have a := inj _ _ ((hu n).symm.trans h1)
      have b := inj _ _ ((hv n).symm.trans h2)
      rw [b, a]
    simp only [e] at vx vy vz
    ext
    · exact tendsto_nhds_unique vx ux.neg
    · exact tendsto_nhds_unique vy uy
    · exact tendsto_nhds_unique vz uz
  · obtain ⟨v, hv, vx, vy, vz⟩ := L (reflY P) m (offWake_reflY hoff)
    have e : ∀ k : ℕ, v (2*(k+1)) = ⟨(u (2*(k+1))).x, -(u (2*(k+1))).y, (u (2*(k+1))).z⟩ := by
      intro k
      obtain ⟨w, h1, h2⟩ := C80_lateral_symmetry P γ R m (k+1) (Nat.succ_pos k) hoff
      have a := inj _ _ ((hu (2*(k+1))).symm.trans h1)
      have b := inj _ _ ((hv (2*(k+1))).symm.trans h2)
      rw [b, a]
    have hs : Tendsto (fun k : ℕ => 2*(k+1)) atTop atTop := by
      apply tendsto_atTop_mono (f := id) _ tendsto_id
      intro k; simp; omega
    have vx := vx.comp hs; have vy := vy.comp hs; have vz := vz.comp hs
    have ux := ux.comp hs; have uy := uy.comp hs; have uz := uz.comp hs
    simp only [Function.comp_def, e] at vx vy vz ux uy uz
    ext
    · exact tendsto_nhds_unique vx ux
    · exact tendsto_nhds_unique vy uy.neg
    · exact tendsto_nhds_unique vz uz

/-! ### scaling and linearity -/

theorem gen_scale {R m k : ℝ} (hk : 0 < k) {P : V3 ℝ} (h : OffWake R m P) (γ θ : ℝ) :
    tangGenerator γ (k*R) m (V3.smul k P) θ = tangGenerator γ R m P θ ∧
    longiGenerator γ (k*R) m (V3.smul k P) θ = longiGenerator γ R m P θ := by
  obtain ⟨hn, hd⟩ := offWake_pos h θ
  have e : V3.smul k P - rim (k*R) θ = V3.smul k (P - rim R θ) := by
    unfold rim; ext <;> simp <;> ring
  have hN : V3.norm (V3.smul k P - rim (k*R) θ) = k * V3.norm (P - rim R θ) := by
    rw [e, norm_smul_pos hk.le]
  have hD : V3.dot (V3.smul k P - rim (k*R) θ) (skewDir m) = k * V3.dot (P - rim R θ) (skewDir m) := by
    rw [e]; simp only [V3.dot, V3.smul_x, V3.smul_y, V3.smul_z]; ring
  have hT : rimTangent (k*R) θ = V3.smul k (rimTangent R θ) := by
    unfold rimTangent; ext <;> simp <;> ring
  have hn' : 0 < V3.norm (V3.smul k P - rim (k*R) θ) := by rw [hN]; positivity
  have hd' : 0 < V3.norm (V3.smul k P - rim (k*R) θ) - V3.dot (V3.smul k P - rim (k*R) θ) (skewDir m) := by
    rw [hN, hD, ← mul_sub]; positivity
  rw [tangGenerator_eval hn' hd', tangGenerator_eval hn hd, longiGenerator_eval hn' hd', longiGenerator_eval hn hd, hN, hD, e, hT]
  generalize V3.norm (P - rim R θ) = N at *
  generalize V3.dot (P - rim R θ) (skewDir m) = D at *
  generalize P - rim R θ = d at *
  have hk0 := hk.ne'
  have hN0 := hn.ne'
  have hd0 := hd.ne'
  have hkd : k * N - k * D ≠ 0 := by rw [← mul_sub]; positivity
  have hpi := Real.pi_pos
  have key : k * N * (k * N - k * D) = k^2 * (N * (N - D)) := by ring
  constructor
  · ext <;> simp only [V3.smul_x, V3.smul_y, V3.smul_z, V3.cross, V3.sub_x, V3.sub_y, V3.sub_z] <;> rw [key] <;> field_simp
  · ext <;> simp only [V3.smul_x, V3.smul_y, V3.smul_z, V3.cross] <;> rw [key] <;> field_simp

theorem offWake_scale {R m k : ℝ} (hk : 0 < k) {P : V3 ℝ} (h : OffWake R m P) : OffWake (k*R) m (V3.smul k P) := by
  intro θ s hs e
  refine h θ (s/k) (by positivity) ?_
  have h1 := congrArg V3.x e; have h2 := congrArg V3.y e; have h3 := congrArg V3.z e
  simp only [wakePoint, rim, V3.add_x, V3.add_y, V3.add_z, V3.smul_x, V3.smul_y, V3.smul_z] at h1 h2 h3
  unfold wakePoint rim
  ext <;> simp only [V3.add_x, V3.add_y, V3.add_z, V3.smul_x, V3.smul_y, V3.smul_z]
  · have : k * P.x = k * (R * Real.cos θ + s/k * (skewDir m).x) := by rw [h1]; field_simp
    exact mul_left_cancel₀ hk.ne' this
  · have : k * P.y = k * (R * Real.sin θ + s/k * (skewDir m).y) := by rw [h2]; field_simp
    exact mul_left_cancel₀ hk.ne' this
  · have : k * P.z = k * (0 + s/k * (skewDir m).z) := by rw [h3]; field_simp; ring
    exact mul_left_cancel₀ hk.ne' this

/-- C79 (scaling): multiplying the radius and all coordinates by `k>0` does not change the velocities. -/
theorem C79_scaling (P : V3 ℝ) (γ R m k : ℝ) (hR : 0 < R) (hk : 0 < k) (ntheta : ℕ) (hN : 1 ≤ ntheta)
    (hoff : ∀ θ s, 0 ≤ s → P ≠ wakePoint R m θ s) :
    svcTang [⟨k*P.x, k*P.y, k*P.z⟩] (.fin γ) (k*R) (.fin m) ntheta false = svcTang [P] (.fin γ) R (.fin m) ntheta false ∧
    svcLongi [⟨k*P.x, k*P.y, k*P.z⟩] (.fin γ) (k*R) (.fin m) ntheta false = svcLongi [P] (.fin γ) R (.fin m) ntheta false := by
  obtain ⟨n, rfl⟩ : ∃ n, ntheta = n + 1 := ⟨ntheta - 1, by omega⟩
  rw [show (⟨k*P.x, k*P.y, k*P.z⟩ : V3 ℝ) = V3.smul k P from rfl,
    svcTang_one _ _ _ _ _ (offWake_scale hk hoff), svcTang_one _ _ _ _ _ hoff,
    svcLongi_one _ _ _ _ (by positivity) _ (offWake_scale hk hoff), svcLongi_one _ _ _ _ hR _ hoff,
    turnRuleV_congr _ _ _ _ (fun t => (gen_scale hk hoff γ t).1), turnRuleV_congr _ _ _ _ (fun t => (gen_scale hk hoff γ t).2)]
  exact ⟨rfl, rfl⟩

/-- C79 (linearity): the velocities are linear in the strength, for every number of quadrature points. -/
theorem C79_linear (P : V3 ℝ) (R m : ℝ) (hR : 0 < R) (ntheta : ℕ) (hN : 1 ≤ ntheta)
    (hoff : ∀ θ s, 0 ≤ s → P ≠ wakePoint R m θ s) :
    ∃ t l : V3 ℝ, ∀ γ : ℝ,
      svcTang [P] (.fin γ) R (.fin m) ntheta false = [V3.fin ⟨γ * t.x, γ * t.y, γ * t.z⟩] ∧
      svcLongi [P] (.fin γ) R (.fin m) ntheta false = [V3.fin ⟨γ * l.x, γ * l.y, γ * l.z⟩] := by
  obtain ⟨n, rfl⟩ : ∃ n, ntheta = n + 1 := ⟨ntheta - 1, by omega⟩
  have T : ∀ (θ0 γ : ℝ) (f g : ℝ → ℝ), (∀ t, f t = γ * g t) → turnRule θ0 n f = γ * turnRule θ0 n g := by
    intro θ0 γ f g h
    have := turnRule_add θ0 n g g γ 0
    simp only [zero_mul, add_zero] at this
    rw [← this, show f = fun t => γ * g t from funext h]
  refine ⟨turnRuleV (Real.pi/2) n (tangGenerator 1 R m P), turnRuleV (Real.pi/((n:ℝ)+1)) n (longiGenerator 1 R m P), fun γ => ⟨?_, ?_⟩⟩
  · rw [svcTang_one _ _ _ _ _ hoff]
    congr 2
    have e : ∀ t, tangGenerator γ R m P t = V3.smul γ (tangGenerator 1 R m P t) := by
      intro t; unfold tangGenerator; ext <;> simp
    unfold turnRuleV
    ext
    · exact T _ γ (fun t => (tangGenerator γ R m P t).x) (fun t => (tangGenerator 1 R m P t).x) (fun t => by rw [e t]; rfl)
    · exact T _ γ (fun t => (tangGenerator γ R m P t).y) (fun t => (tangGenerator 1 R m P t).y) (fun t => by rw [e t]; rfl)
    · exact T _ γ (fun t => (tangGenerator γ R m P t).z) (fun t => (tangGenerator 1 R m P t).z) (fun t => by rw [e t]; rfl)
  · rw [svcLongi_one _ _ _ _ hR _ hoff]
    congr 2
    have e : ∀ t, longiGenerator γ R m P t = V3.smul γ (longiGenerator 1 R m P t) := by
      intro t; unfold longiGenerator biotSavart; ext <;> simp <;> ring
    unfold turnRuleV
    ext
    · exact T _ γ (fun t => (longiGenerator γ R m P t).x) (fun t => (longiGenerator 1 R m P t).x) (fun t => by rw [e t]; rfl)
    · exact T _ γ (fun t => (longiGenerator γ R m P t).y) (fun t => (longiGenerator 1 R m P t).y) (fun t => by rw [e t]; rfl)
    · exact T _ γ (fun t => (longiGenerator γ R m P t).z) (fun t => (longiGenerator 1 R m P t).z) (fun t => by rw [e t]; rfl)

/-- non-vacuity: a point in the wake of a rotor of radius 1 with skew `m=1` -/
example : ∀ θ s, 0 ≤ s → (⟨1*3, 0, 3⟩ : V3 ℝ) ≠ wakePoint 1 1 θ s := offWake_axis 1 1 3 one_pos

end Wiz
