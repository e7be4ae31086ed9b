import Verif.Lemmas.Ring

/-! # Properties of vortex rings (C51–C54) -/
namespace Wiz
open Real Spec

/-- C51: Branlard's and Yoon's closed forms are the same (finite) velocity at every point with
`r>0` off the ring. -/
theorem C51_formulations_agree (r z Γ R : ℝ) (hr : 0 < r) (hR : 0 < R) (hoff : ¬ (r = R ∧ z = 0)) :
    ringPolarSingular r z Γ R = ringPolarSingularB r z Γ R ∧
    ∃ ur uz : ℝ, ringPolarSingular r z Γ R = (.fin ur, .fin uz) := by
  rw [ringA_eval r z Γ R hr hR hoff, ringB_eval r z Γ R hr hR hoff]
  exact ⟨rfl, _, _, rfl⟩

/-- C51: the regular branches of `ring_u_polar` (for a ring at height `z0`) and `ring_u` return
that same velocity, for every choice of `epsilon=0` regularisation argument. -/
theorem C51_regular_branches (p : V3 ℝ) (Γ R z0 ε : ℝ) (reg : String) (hR : 0 < R)
    (haxis : 1e-7 * R ≤ √(p.x^2 + p.y^2))
    (hring : 1e-7 * R ≤ |√(p.x^2 + p.y^2) - R| ∨ 1e-7 ≤ |p.z|) :
    ringPolar (√(p.x^2 + p.y^2)) (p.z + z0) Γ R z0 0 reg
      = .ok (ringPolarSingular (√(p.x^2 + p.y^2)) p.z Γ R) ∧
    ringUPolarOut p Γ R ε = ringPolarSingular (√(p.x^2 + p.y^2)) p.z Γ R := by
  have hr : 0 < √(p.x^2 + p.y^2) := by have : 0 < 1e-7 * R := by positivity
                                       linarith
  have hne : ¬ (|√(p.x^2 + p.y^2) - R| < 1e-7 * R ∧ |p.z| < 1e-7) := by
    rintro ⟨a, b⟩
    rcases hring with h | h <;> linarith
  have hoff : ¬ (√(p.x^2 + p.y^2) = R ∧ p.z = 0) := by
    rintro ⟨a, b⟩; apply hne; rw [a, b]
    simp only [sub_self, abs_zero]
    exact ⟨by positivity, by norm_num⟩
  constructor
  · unfold ringPolar
    simp only [add_sub_cancel_right, if_true, hne, if_false, not_lt.mpr haxis]
  · rw [ringUPolarOut_eval p Γ R ε hR hne (not_lt.mpr haxis)]
    exact (ringA_eval _ p.z Γ R hr hR hoff).symm

example : (1e-7 : ℝ) * 2 ≤ √(3^2 + 4^2) ∧ (1e-7 : ℝ) * 2 ≤ |√(3^2 + 4^2) - 2| := by
  rw [show (3:ℝ)^2 + 4^2 = 5^2 by norm_num, sqrt_sq (by norm_num)]
  norm_num [abs_of_pos]

/-- C52: at every point outside the two cut-off regions, `ring_u` is the Biot–Savart integral
around the ring. -/
theorem C52_biot_savart (p : V3 ℝ) (Γ R ε : ℝ) (hR : 0 < R)
    (haxis : 1e-7 * R ≤ √(p.x^2 + p.y^2))
    (hring : 1e-7 * R ≤ |√(p.x^2 + p.y^2) - R| ∨ 1e-7 ≤ |p.z|) :
    ringU p Γ R ε = V3.fin (ringField Γ R p) := by
  have hr : 0 < polarR p.x p.y := by have : 0 < 1e-7 * R := by positivity
                                     unfold polarR; linarith
  have hne : ¬ (|polarR p.x p.y - R| < 1e-7 * R ∧ |p.z| < 1e-7) := by
    rintro ⟨a, b⟩
    unfold polarR at a
    rcases hring with h | h <;> linarith
  have hoff : ¬ (polarR p.x p.y = R ∧ p.z = 0) := by
    rintro ⟨a, b⟩; apply hne; rw [a, b]
    simp only [sub_self, abs_zero]
    exact ⟨by positivity, by norm_num⟩
  have hp : p = ⟨polarR p.x p.y * cos (arctan2 p.y p.x), polarR p.x p.y * sin (arctan2 p.y p.x), p.z⟩ := by
    ext <;> simp [r_cos, r_sin]
  unfold ringU
  rw [ringUPolarOut_eval p Γ R ε hR hne (not_lt.mpr haxis)]
  have := ringField_offaxis Γ R (polarR p.x p.y) p.z (arctan2 p.y p.x) hr hR hoff
  rw [← hp] at this
  rw [this]
  simp [V3.fin]

/-- C52, same for the two polar closed forms, anywhere off the ring and off the axis. -/
theorem C52_biot_savart_polar (r z ψ Γ R : ℝ) (hr : 0 < r) (hR : 0 < R) (hoff : ¬ (r = R ∧ z = 0)) :
    ∃ ur uz : ℝ, ringPolarSingularB r z Γ R = (.fin ur, .fin uz) ∧ ringPolarSingular r z Γ R = (.fin ur, .fin uz) ∧
      ringField Γ R ⟨r * cos ψ, r * sin ψ, z⟩ = ⟨ur * cos ψ, ur * sin ψ, uz⟩ :=
  ⟨_, _, ringB_eval r z Γ R hr hR hoff, ringA_eval r z Γ R hr hR hoff, ringField_offaxis Γ R r z ψ hr hR hoff⟩

theorem ringAxis_eval (z Γ R : ℝ) (hR : 0 < R) :
    ringAxis z Γ R = .fin (Γ/(2*R) * (1 / (1 + (z/R)^2) ^ (3/2 : ℝ))) := by
  have h1 : 0 < 1 + (z/R)^2 := by positivity
  unfold ringAxis
  simp only [Num.ofNat_def, Num.one_def, Num.fin_mul, Num.fin_div hR.ne', Num.fin_pow, Num.fin_add,
    Num.fin_div (show 2*R ≠ 0 by positivity)]
  rw [Num.rpow_fin _ h1, Num.fin_div (rpow_pos_of_pos h1 _).ne', Num.fin_mul]

/-- C52: in the axis cut-off region (`r < 1e-7 R`) `ring_u` and `ring_u_polar` return the
Biot–Savart value of the point of the axis at the same height — exact on the axis. -/
theorem C52_axis (p : V3 ℝ) (Γ R ε : ℝ) (reg : String) (hR : 0 < R) (haxis : √(p.x^2 + p.y^2) < 1e-7 * R) :
    ringU p Γ R ε = V3.fin (ringField Γ R ⟨0, 0, p.z⟩) ∧
    ringPolar (√(p.x^2 + p.y^2)) p.z Γ R 0 0 reg = .ok (0, .fin (ringField Γ R ⟨0, 0, p.z⟩).z) := by
  have hne : ¬ (|polarR p.x p.y - R| < 1e-7 * R ∧ |p.z| < 1e-7) := by
    rintro ⟨a, -⟩
    have h0 := polarR_nonneg p.x p.y
    unfold polarR at a h0
    rw [abs_lt] at a
    linarith
  have hax : polarR p.x p.y < 1e-7 * R := haxis
  rw [ringField_axis Γ R p.z hR]
  constructor
  · unfold ringU ringUPolarOut
    simp only [hne, hax, if_false, if_true, ringAxis_eval p.z Γ R hR]
    simp [V3.fin]
  · unfold ringPolar
    have hne' : ¬ (|√(p.x^2 + p.y^2) - R| < 1e-7 * R ∧ |p.z| < 1e-7) := hne
    simp only [sub_zero, if_true, hne', if_false, haxis, ringAxis_eval p.z Γ R hR]

/-- C52: in the ring cut-off region `ring_u` (with `epsilon=0`) returns the finite value
`(0,0,Gamma/(4R))`: no point gives `inf` or `nan`. -/
theorem C52_finite (p : V3 ℝ) (Γ R : ℝ) (hR : 0 < R) : V3.IsFin (ringU p Γ R 0) ∧
    (|√(p.x^2 + p.y^2) - R| < 1e-7 * R ∧ |p.z| < 1e-7 → ringU p Γ R 0 = V3.fin ⟨0, 0, Γ / (4*R)⟩) := by
  have key : |√(p.x^2 + p.y^2) - R| < 1e-7 * R ∧ |p.z| < 1e-7 → ringU p Γ R 0 = V3.fin ⟨0, 0, Γ / (4*R)⟩ := by
    intro h
    have h' : |polarR p.x p.y - R| < 1e-7 * R ∧ |p.z| < 1e-7 := h
    unfold ringU ringUPolarOut
    simp only [h', and_self, if_true, Num.ofNat_def, Num.fin_mul, Num.fin_div (show 4*R ≠ 0 by positivity)]
    simp [V3.fin]
  refine ⟨?_, key⟩
  by_cases h : |√(p.x^2 + p.y^2) - R| < 1e-7 * R ∧ |p.z| < 1e-7
  · rw [key h]; exact ⟨⟨_, rfl⟩, ⟨_, rfl⟩, ⟨_, rfl⟩⟩
  · by_cases h2 : √(p.x^2 + p.y^2) < 1e-7 * R
    · rw [(C52_axis p Γ R 0 "" hR h2).1]; exact ⟨⟨_, rfl⟩, ⟨_, rfl⟩, ⟨_, rfl⟩⟩
    · rw [C52_biot_savart p Γ R 0 hR (not_lt.mp h2) (by
        by_contra hc; push Not at hc; exact h hc)]
      exact ⟨⟨_, rfl⟩, ⟨_, rfl⟩, ⟨_, rfl⟩⟩

theorem ringField_smul (k Γ R : ℝ) (p : V3 ℝ) : ringField (k * Γ) R p = V3.smul k (ringField Γ R p) := by
  unfold ringField biotSavart
  ext <;> simp [mul_assoc]

theorem foldl_add_sum {α : Type} (f : α → V3 Num) (c : α → Prop) [DecidablePred c] (l : List α) (u : V3 Num) :
    l.foldl (fun u a => if c a then u + f a else u) u = u + ((l.filter (fun a => decide (c a))).map f).sum := by
  induction l generalizing u with
  | nil => simp
  | cons a l ih =>
    simp only [List.foldl_cons, ih, List.filter_cons]
    by_cases h : c a
    · simp [h, add_assoc]
    · simp [h]

open Classical in
/-- C53: `rings_u` (Cartesian output) is the sum, over the rings of nonzero strength, of the
single-ring velocities at the point relative to the ring centre. -/
theorem C53_superposition (p : V3 ℝ) (rings : List RingSpec) (ε : ℝ) :
    ringsU p rings ε =
      ((rings.filter fun c => c.Gamma ≠ 0).map fun c => ringU (p - c.pos) c.Gamma c.R ε).sum := by
  unfold ringsU
  have h := foldl_add_sum (fun c : RingSpec => ringU (p - c.pos) c.Gamma c.R ε) (fun c => 0 < |c.Gamma|) rings 0
  simp only [abs_pos, zero_add] at h ⊢
  convert h using 3

/-- C53: rings of zero strength may be dropped or counted: for `R>0`, `epsilon=0` their
single-ring velocity is zero, so `rings_u` is the plain sum over all rings. -/
theorem C53_full_sum (p : V3 ℝ) (rings : List RingSpec) (hR : ∀ c ∈ rings, 0 < c.R) :
    ringsU p rings 0 = (rings.map fun c => ringU (p - c.pos) c.Gamma c.R 0).sum := by
  have hz : ∀ (q : V3 ℝ) (R : ℝ), 0 < R → ringU q 0 R 0 = 0 := by
    intro q R hR
    have hf : ∀ q, ringField 0 R q = ⟨0, 0, 0⟩ := by
      intro q; have := ringField_smul 0 0 R q; simp only [zero_mul] at this; rw [this]; simp [V3.smul]
    by_cases h : |√(q.x^2 + q.y^2) - R| < 1e-7 * R ∧ |q.z| < 1e-7
    · rw [(C52_finite q 0 R hR).2 h]; simp only [zero_div]; rfl
    · by_cases h2 : √(q.x^2 + q.y^2) < 1e-7 * R
      · rw [(C52_axis q 0 R 0 "" hR h2).1, hf]; rfl
      · rw [C52_biot_savart q 0 R 0 hR (not_lt.mp h2) (by by_contra hc; push Not at hc; exact h hc), hf]; rfl
  rw [C53_superposition]
  induction rings with
  | nil => simp
  | cons c l ih =>
    have ih := ih fun d hd => hR d (by simp [hd])
    by_cases h : c.Gamma = 0
    · simp only [h, List.filter_cons, ne_eq, not_true_eq_false, decide_false, Bool.false_eq_true, if_false,
        List.map_cons, List.sum_cons, hz _ _ (hR c (by simp)), zero_add]
      exact ih
    · simp only [h, List.filter_cons, ne_eq, not_false_eq_true, decide_true, if_true, List.map_cons, List.sum_cons]
      rw [← ih]

/-- C53: the order of the rings is immaterial. -/
theorem C53_order (p : V3 ℝ) (l l' : List RingSpec) (h : l.Perm l') (ε : ℝ) :
    ringsU p l ε = ringsU p l' ε := by
  rw [C53_superposition, C53_superposition]
  exact ((h.filter _).map _).sum_eq

/-- C53: for coaxial rings (same centre in `x,y`) the polar output is consistent with the
Cartesian one: its radial component points along the common radial direction. -/
theorem C53_coaxial_polar (p : V3 ℝ) (rings : List RingSpec) (cx cy ψ : ℝ)
    (hc : ∀ c ∈ rings, c.pos.x = cx ∧ c.pos.y = cy ∧ 0 < c.R) (hψ : ψ = arctan2 (p.y - cy) (p.x - cx)) :
    ringsU p rings 0 = ⟨(ringsUPolarOut p rings 0).1 * .fin (cos ψ), (ringsUPolarOut p rings 0).1 * .fin (sin ψ),
      (ringsUPolarOut p rings 0).2⟩ ∧ (ringsUPolarOut p rings 0).1.IsFin := by
  have gen : ∀ (l : List RingSpec) (_ : ∀ c ∈ l, c.pos.x = cx ∧ c.pos.y = cy ∧ 0 < c.R) (a b : ℝ),
      ∃ a' b' : ℝ,
      l.foldl (fun u c => if 0 < |c.Gamma| then
          let u1 := ringUPolarOut (p - c.pos) c.Gamma c.R 0
          (u.1 + u1.1, u.2 + u1.2) else u) ((.fin a, .fin b) : Num × Num) = (.fin a', .fin b') ∧
      l.foldl (fun u c => if 0 < |c.Gamma| then u + ringU (p - c.pos) c.Gamma c.R 0 else u)
        (⟨.fin (a * cos ψ), .fin (a * sin ψ), .fin b⟩ : V3 Num) = ⟨.fin (a' * cos ψ), .fin (a' * sin ψ), .fin b'⟩ := by
    intro l
    induction l with
    | nil => intro _ a b; exact ⟨a, b, rfl, rfl⟩
    | cons c l ih =>
      intro hc a b
      have hc' := fun d hd => hc d (List.mem_cons_of_mem _ hd)
      by_cases h : 0 < |c.Gamma|
      · obtain ⟨hx, hy, hR⟩ := hc c (by simp)
        have hf := (C52_finite (p - c.pos) c.Gamma c.R hR).1
        have : ∃ ur uz : ℝ, ringUPolarOut (p - c.pos) c.Gamma c.R 0 = (.fin ur, .fin uz) := by
          by_cases h1 : |polarR (p - c.pos).x (p - c.pos).y - c.R| < 1e-7 * c.R ∧ |(p - c.pos).z| < 1e-7
          · refine ⟨0, c.Gamma / (4 * c.R), ?_⟩
            unfold ringUPolarOut
            simp only [h1, and_self, if_true, Num.ofNat_def, Num.fin_mul, Num.fin_div (show 4*c.R ≠ 0 by positivity), Num.zero_def]
          · by_cases h2 : polarR (p - c.pos).x (p - c.pos).y < 1e-7 * c.R
            · refine ⟨0, c.Gamma/(2*c.R) * (1 / (1 + ((p - c.pos).z/c.R)^2) ^ (3/2 : ℝ)), ?_⟩
              unfold ringUPolarOut
              simp only [h1, h2, if_false, if_true, Num.zero_def]
              rw [ringAxis_eval _ _ _ hR]
            · exact ⟨_, _, ringUPolarOut_eval _ _ _ _ hR h1 h2⟩
        obtain ⟨ur, uz, hu⟩ := this
        obtain ⟨a', b', e1, e2⟩ := ih hc' (a + ur) (b + uz)
        refine ⟨a', b', ?_, ?_⟩
        · simp only [List.foldl_cons, h, if_true, hu, Num.fin_add]; exact e1
        · simp only [List.foldl_cons, h, if_true]
          rw [← e2]
          congr 1
          unfold ringU
          simp only [hu, V3.sub_x, V3.sub_y, hx, hy, ← hψ, Num.cos_fin, Num.sin_fin, Num.fin_mul]
          ext <;> simp [add_mul]
      · obtain ⟨a', b', e1, e2⟩ := ih hc' a b
        refine ⟨a', b', ?_, ?_⟩
        · simp only [List.foldl_cons, h, if_false]; exact e1
        · simp only [List.foldl_cons, h, if_false]; exact e2
  obtain ⟨a', b', e1, e2⟩ := gen rings hc 0 0
  have e1' : ringsUPolarOut p rings 0 = (.fin a', .fin b') := e1
  rw [e1']
  refine ⟨?_, a', rfl⟩
  simp only [zero_mul] at e2
  simp only [Num.fin_mul]
  exact e2

/-- The radial velocity of a ring above its plane does not vanish. -/
theorem ring_Icos_pos {r z R : ℝ} (hr : 0 < r) (hR : 0 < R) (h : ¬ (r = R ∧ z = 0)) :
    0 < ∫ θ in (0:ℝ)..(2*π), cos θ / √(dist2 r z R θ) ^ 3 := by
  have hc : Continuous fun θ => cos θ / √(dist2 r z R θ) ^ 3 := cont_ring hr.le hR h cos continuous_cos
  have hc' : Continuous fun θ => cos (θ + π) / √(dist2 r z R (θ + π)) ^ 3 := hc.comp (continuous_id.add continuous_const)
  have hper : Function.Periodic (fun θ => cos θ / √(dist2 r z R θ) ^ 3) (2*π) := by intro θ; simp [dist2]
  have h1 := shift_integral _ hper (-π)
  simp only [sub_neg_eq_add] at h1
  have h2 : 2 * (∫ θ in (0:ℝ)..(2*π), cos θ / √(dist2 r z R θ) ^ 3)
      = ∫ θ in (0:ℝ)..(2*π), (cos θ / √(dist2 r z R θ) ^ 3 + cos (θ + π) / √(dist2 r z R (θ + π)) ^ 3) := by
    rw [intervalIntegral.integral_add (hc.intervalIntegrable _ _) (hc'.intervalIntegrable _ _), h1]; ring
  have hnn : ∀ θ, 0 ≤ cos θ / √(dist2 r z R θ) ^ 3 + cos (θ + π) / √(dist2 r z R (θ + π)) ^ 3 ∧
      (cos θ ≠ 0 → 0 < cos θ / √(dist2 r z R θ) ^ 3 + cos (θ + π) / √(dist2 r z R (θ + π)) ^ 3) := by
    intro θ
    have p1 := dist2_pos hr.le hR h θ
    have p2 := dist2_pos hr.le hR h (θ + π)
    have q1 := sqrt_pos.mpr p1
    have q2 := sqrt_pos.mpr p2
    rw [cos_add_pi]
    have e : dist2 r z R (θ + π) - dist2 r z R θ = 4*r*R*cos θ := by
      unfold dist2; rw [cos_add_pi]; ring
    have hrR := mul_pos hr hR
    have key : 0 < cos θ → 0 < cos θ / √(dist2 r z R θ) ^ 3 + -cos θ / √(dist2 r z R (θ + π)) ^ 3 := by
      intro hcp
      have hlt : √(dist2 r z R θ) < √(dist2 r z R (θ + π)) := sqrt_lt_sqrt p1.le (by nlinarith)
      have h3 : √(dist2 r z R θ)^3 < √(dist2 r z R (θ + π))^3 := pow_lt_pow_left₀ hlt q1.le (by norm_num)
      have := div_lt_div_of_pos_left hcp (pow_pos q1 3) h3
      rw [neg_div]; linarith
    have key2 : cos θ < 0 → 0 < cos θ / √(dist2 r z R θ) ^ 3 + -cos θ / √(dist2 r z R (θ + π)) ^ 3 := by
      intro hcn
      have hlt : √(dist2 r z R (θ + π)) < √(dist2 r z R θ) := sqrt_lt_sqrt p2.le (by nlinarith)
      have h3 : √(dist2 r z R (θ + π))^3 < √(dist2 r z R θ)^3 := pow_lt_pow_left₀ hlt q2.le (by norm_num)
      have := div_lt_div_of_pos_left (show 0 < -cos θ by linarith) (pow_pos q2 3) h3
      have e : cos θ / √(dist2 r z R θ) ^ 3 = - (-cos θ / √(dist2 r z R θ) ^ 3) := by ring
      rw [e]; linarith
    rcases lt_trichotomy (cos θ) 0 with hh | hh | hh
    · exact ⟨(key2 hh).le, fun _ => key2 hh⟩
    · rw [hh]; simp
    · exact ⟨(key hh).le, fun _ => key hh⟩
  have hpos : 0 < ∫ θ in (0:ℝ)..(2*π), (cos θ / √(dist2 r z R θ) ^ 3 + cos (θ + π) / √(dist2 r z R (θ + π)) ^ 3) := by
    apply intervalIntegral.integral_pos (by positivity) (hc.add hc').continuousOn
    · intro θ _; exact (hnn θ).1
    · exact ⟨0, ⟨le_rfl, by positivity⟩, (hnn 0).2 (by simp)⟩
  linarith

/-- C53: for rings that are not coaxial the polar output is meaningless: two identical rings
placed symmetrically about the axis through the point induce no transverse velocity there,
yet the returned `ur` is nonzero. -/
theorem C53_polar_refuted : ∃ (p : V3 ℝ) (rings : List RingSpec) (uz ur : ℝ),
    ringsU p rings 0 = ⟨.fin 0, .fin 0, .fin uz⟩ ∧ (ringsUPolarOut p rings 0).1 = .fin ur ∧ ur ≠ 0 := by
  have hr1 : polarR (-2) 0 = 2 := by
    unfold polarR; rw [show ((-2:ℝ)^2 + 0^2) = 2^2 by norm_num, sqrt_sq (by norm_num)]
  have hr2 : polarR 2 0 = 2 := by
    unfold polarR; rw [show ((2:ℝ)^2 + 0^2) = 2^2 by norm_num, sqrt_sq (by norm_num)]
  have e : ∀ x : ℝ, x = -2 ∨ x = 2 → ringUPolarOut ⟨x, 0, 1⟩ 1 1 0 = (.fin (ringUrR 2 1 1 1), .fin (ringUzR 2 1 1 1)) := by
    intro x hx
    have hr : polarR x 0 = 2 := by rcases hx with rfl | rfl <;> assumption
    have := ringUPolarOut_eval ⟨x, 0, 1⟩ 1 1 0 one_pos
      (by simp only [hr]; norm_num) (by simp only [hr]; norm_num)
    simpa only [hr] using this
  have ep : arctan2 0 2 = 0 := by
    unfold arctan2; rw [Complex.arg_eq_zero_iff]; simp
  have en : arctan2 0 (-2) = π := by
    unfold arctan2; rw [Complex.arg_eq_pi_iff]; simp
  refine ⟨⟨0, 0, 1⟩, [⟨1, 1, ⟨2, 0, 0⟩⟩, ⟨1, 1, ⟨-2, 0, 0⟩⟩], ringUzR 2 1 1 1 + ringUzR 2 1 1 1,
    ringUrR 2 1 1 1 + ringUrR 2 1 1 1, ?_, ?_, ?_⟩
  · have a : (⟨0, 0, 1⟩ : V3 ℝ) - ⟨2, 0, 0⟩ = ⟨-2, 0, 1⟩ := by ext <;> simp
    have b : (⟨0, 0, 1⟩ : V3 ℝ) - ⟨-2, 0, 0⟩ = ⟨2, 0, 1⟩ := by ext <;> simp
    simp only [ringsU, List.foldl_cons, List.foldl_nil, a, b, abs_one, one_pos, if_true, ringU, e _ (Or.inl rfl), e _ (Or.inr rfl), ep, en]
    ext <;> simp
  · have a : (⟨0, 0, 1⟩ : V3 ℝ) - ⟨2, 0, 0⟩ = ⟨-2, 0, 1⟩ := by ext <;> simp
    have b : (⟨0, 0, 1⟩ : V3 ℝ) - ⟨-2, 0, 0⟩ = ⟨2, 0, 1⟩ := by ext <;> simp
    simp only [ringsUPolarOut, List.foldl_cons, List.foldl_nil, a, b, abs_one, one_pos, if_true, e _ (Or.inl rfl), e _ (Or.inr rfl)]
    simp
  · have h := ring_Icos_pos (r := 2) (z := 1) (R := 1) (by norm_num) one_pos (by norm_num)
    rw [ring_Icos (by norm_num) one_pos (by norm_num)] at h
    have hpi := pi_pos
    have : 0 < ringUrR 2 1 1 1 := by
      unfold ringUrR
      have : (0:ℝ) < 1/(4*π) := by positivity
      simp only [mul_one, one_mul] at h ⊢
      exact mul_pos this h
    linarith

/-- C54 (the part that holds): without regularisation and with `reg_method='Saffman'` the
velocity is proportional to `Gamma`, at every point with `r ≥ 0`.  Missing: `'linear'`, for
which the property is false (`C54_linear_refuted`). -/
theorem C54_scaling_partial (r z k Γ R z0 ε : ℝ) (hr : 0 ≤ r) (hR : 0 < R) (hε : 0 ≤ ε) :
    ∃ ur uz : ℝ, ringPolar r z Γ R z0 ε "Saffman" = .ok (.fin ur, .fin uz) ∧
      ringPolar r z (k * Γ) R z0 ε "Saffman" = .ok (.fin (k * ur), .fin (k * uz)) := by
  have hax : ∀ Γ, ringAxis (z - z0) Γ R = .fin (Γ/(2*R) * (1 / (1 + ((z-z0)/R)^2) ^ (3/2 : ℝ))) :=
    fun Γ => ringAxis_eval _ Γ R hR
  have h4 : 4 * R ≠ 0 := by positivity
  have hp4 : 4 * π * R ≠ 0 := by positivity
  -- the value outside the regularised neighbourhood
  have rest : ¬ (r = R ∧ z - z0 = 0) → ∃ ur uz : ℝ,
      (if r < 1e-7 * R then ((0 : Num), ringAxis (z - z0) Γ R) else ringPolarSingular r (z - z0) Γ R) = (.fin ur, .fin uz) ∧
      (if r < 1e-7 * R then ((0 : Num), ringAxis (z - z0) (k*Γ) R) else ringPolarSingular r (z - z0) (k*Γ) R) = (.fin (k*ur), .fin (k*uz)) := by
    intro hoff
    by_cases h2 : r < 1e-7 * R
    · simp only [h2, if_true, hax, Num.zero_def]
      exact ⟨0, _, rfl, by rw [mul_zero]; congr 2; ring⟩
    · have hr' : 0 < r := by have : 0 < 1e-7 * R := by positivity
                             linarith
      simp only [h2, if_false, ringA_eval r (z-z0) _ R hr' hR hoff]
      refine ⟨_, _, rfl, ?_⟩
      unfold ringUrR ringUzR
      congr 2 <;> ring
  unfold ringPolar
  by_cases hε0 : ε = 0
  · simp only [hε0, if_true]
    by_cases h1 : |r - R| < 1e-7 * R ∧ |z - z0| < 1e-7
    · simp only [h1, and_self, if_true, Num.ofNat_def, Num.fin_mul, Num.fin_div h4, Num.zero_def]
      exact ⟨0, _, rfl, by rw [mul_zero]; congr 3; ring⟩
    · simp only [h1, if_false]
      obtain ⟨a, b, e1, e2⟩ := rest (by
        rintro ⟨a, b⟩; apply h1; rw [a, b]; simp only [sub_self, abs_zero]
        exact ⟨by positivity, by norm_num⟩)
      exact ⟨a, b, congrArg Except.ok e1, congrArg Except.ok e2⟩
  · have hεp : 0 < ε := lt_of_le_of_ne hε (Ne.symm hε0)
    simp only [hε0, if_false, if_true]
    by_cases h1 : Num.sqrt (Num.fin ((r - R)^2 + (z - z0)^2)) < .fin (ε / 2)
    · have hl : 0 < 16 * R / ε := by positivity
      simp only [h1, if_true, Num.ofNat_def, Num.one_def, Num.fin_mul, Num.fin_div hp4, Num.fin_div hε0, Num.log, hl,
        Num.fin_div (show (4:ℝ) ≠ 0 by norm_num), Num.fin_sub, Num.zero_def]
      exact ⟨0, _, rfl, by rw [mul_zero]; congr 3; ring⟩
    · simp only [h1, if_false]
      obtain ⟨a, b, e1, e2⟩ := rest (by
        rintro ⟨a, b⟩; apply h1
        rw [Num.sqrt_fin (by positivity), a, b]; simp; exact hεp)
      exact ⟨a, b, congrArg Except.ok e1, congrArg Except.ok e2⟩

/-- C54 is false for `reg_method='linear'`: inside the core of a ring of radius 0.5 the same
nonzero velocity is returned whatever `Gamma`, even `Gamma=0`. -/
theorem C54_linear_refuted : ∃ v : ℝ, v ≠ 0 ∧
    ∀ Γ : ℝ, ringPolar 0.5 0 Γ 0.5 0 0.5 "linear" = .ok (.fin 0, .fin v) := by
  have e1 : ringPolarSingular (0.5 + 0.5/2) 0 (-1) 1 = (.fin (ringUrR 0.75 0 (-1) 1), .fin (ringUzR 0.75 0 (-1) 1)) := by
    rw [← ringA_eval 0.75 0 (-1) 1 (by norm_num) one_pos (by norm_num)]; norm_num
  have e2 : ringPolarSingular (0.5 - 0.5/2) 0 (-1) 1 = (.fin (ringUrR 0.25 0 (-1) 1), .fin (ringUzR 0.25 0 (-1) 1)) := by
    rw [← ringA_eval 0.25 0 (-1) 1 (by norm_num) one_pos (by norm_num)]; norm_num
  refine ⟨ringUzR 0.75 0 (-1) 1, ?_, ?_⟩
  · have hoff : ¬ ((0.75:ℝ) = 1 ∧ (0:ℝ) = 0) := by norm_num
    have h1 := ring_I2 (r := 0.75) (z := 0) (R := 1) (by norm_num) one_pos hoff
    have h2 := ring_Icos (r := 0.75) (z := 0) (R := 1) (by norm_num) one_pos hoff
    have c1 := cont_ring (r := 0.75) (z := 0) (R := 1) (by norm_num) one_pos hoff cos continuous_cos
    have c3 := cont_ring (r := 0.75) (z := 0) (R := 1) (by norm_num) one_pos hoff (fun _ => 1) continuous_const
    have hpos : 0 < (∫ θ in (0:ℝ)..(2*π), 1 / √(dist2 0.75 0 1 θ) ^ 3) - 0.75 * ∫ θ in (0:ℝ)..(2*π), cos θ / √(dist2 0.75 0 1 θ) ^ 3 := by
      rw [← intervalIntegral.integral_const_mul, ← intervalIntegral.integral_sub (c3.intervalIntegrable _ _)
        ((c1.const_mul _).intervalIntegrable _ _)]
      apply intervalIntegral.intervalIntegral_pos_of_pos_on
      · exact (c3.sub (c1.const_mul _)).intervalIntegrable _ _
      · intro θ _
        have hq := sqrt_pos.mpr (dist2_pos (r := 0.75) (z := 0) (R := 1) (by norm_num) one_pos hoff θ)
        have : 1 / √(dist2 0.75 0 1 θ) ^ 3 - 0.75 * (cos θ / √(dist2 0.75 0 1 θ) ^ 3) = (1 - 0.75 * cos θ) / √(dist2 0.75 0 1 θ) ^ 3 := by ring
        rw [this]
        have hc := cos_le_one θ
        have : 0 < 1 - 0.75 * cos θ := by linarith
        positivity
      · positivity
    rw [h1, h2] at hpos
    have hpi := pi_pos
    have : ringUzR 0.75 0 (-1) 1 < 0 := by
      unfold ringUzR
      have hneg : (-1:ℝ)/(4*π) < 0 := div_neg_of_neg_of_pos (by norm_num) (by positivity)
      apply mul_neg_of_neg_of_pos hneg
      simpa only [one_pow, one_mul, mul_one] using hpos
    exact this.ne
  · intro Γ
    unfold ringPolar
    have hs : Num.sqrt (Num.fin ((0.5 - 0.5)^2 + (0 - 0)^2)) = .fin 0 := by
      rw [Num.sqrt_fin (by norm_num)]; norm_num
    have h05 : ¬ ((0.5:ℝ) = 0) := by norm_num
    have hlin : ¬ ("linear" = "Saffman") := by decide
    have hlt : Num.fin 0 < Num.fin (0.5/2) := by rw [Num.lt_fin]; norm_num
    simp only [hs, h05, if_false, hlin, if_true, hlt, e1, e2, Num.ofNat_def, Num.zero_def, Num.fin_sub, Num.fin_mul, Num.fin_add,
      Num.fin_div h05, Num.fin_div (show (2:ℝ) ≠ 0 by norm_num)]
    norm_num

/-- C54: any other `reg_method` with `epsilon≠0` raises. -/
theorem C54_unknown_method (r z Γ R z0 ε : ℝ) (reg : String) (hε : ε ≠ 0) (h : reg ≠ "Saffman" ∧ reg ≠ "linear") :
    ∃ e, ringPolar r z Γ R z0 ε reg = .error e := by
  simp [ringPolar, hε, h.1, h.2]

end Wiz
