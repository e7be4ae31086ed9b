import Verif.Lemmas.CurledWake
import Verif.Lemmas.VortexPoint

/-!
# Property C85: the three far-wake models of the curled wake agree
-/
namespace Wiz
open Spec Classical Filter Topology

/-- C85: `ve_u` is the trapezoidal rule, over the given azimuths, of the velocities of the
two-dimensional point vortices of circulation `R γ dθ` on the projected rim (each weighted by
its Gaussian core when `sigma` is given), at every point off the sampled projected rim. -/
theorem C85_ellipse_is_vortex_sheet (cp : V2 ℝ) (R ψ : ℝ) (smooth : Bool) (l : List RimSample)
    (hc : smooth = true → ∀ s ∈ l, s.core ≠ 0) (hoff : ∀ s ∈ l, cp ≠ rimShadow R ψ s.theta) :
    veU cp R (l.map RimSample.theta) ψ (l.map RimSample.gamma) (if smooth then some (l.map RimSample.core) else none)
      = V2.fin
      ⟨trapezoid RimSample.theta (fun s => gaussCore smooth (dist2 cp (rimShadow R ψ s.theta)) s.core
          * (pointVortex (R * s.gamma) cp (rimShadow R ψ s.theta)).x) l,
       trapezoid RimSample.theta (fun s => gaussCore smooth (dist2 cp (rimShadow R ψ s.theta)) s.core
          * (pointVortex (R * s.gamma) cp (rimShadow R ψ s.theta)).y) l⟩ :=
  veU_eval cp R ψ smooth l hc hoff

/-- C85: `vcl_u` is the trapezoidal rule of the Biot–Savart velocities (cross-stream
components) of the half-lines of circulation `R γ dθ` leaving the yawed rim along the wind, at
every point off these half-lines (upstream of the rim included). -/
theorem C85_cylinder_is_biot_savart (cp : V3 ℝ) (R ψ : ℝ) (smooth : Bool) (l : List RimSample)
    (hc : smooth = true → ∀ s ∈ l, s.core ≠ 0)
    (hoff : ∀ s ∈ l, cp.y ≠ (yawedRim R ψ s.theta).y ∨ cp.z ≠ (yawedRim R ψ s.theta).z ∨ cp.x < (yawedRim R ψ s.theta).x) :
    vclU cp R (l.map RimSample.theta) ψ (l.map RimSample.gamma) (if smooth then some (l.map RimSample.core) else none)
      = V2.fin
      ⟨trapezoid RimSample.theta (fun s => gaussCore smooth (dist2 ⟨cp.y, cp.z⟩ (rimShadow R ψ s.theta)) s.core
          * (windwardLine (R * s.gamma) (yawedRim R ψ s.theta) cp).y) l,
       trapezoid RimSample.theta (fun s => gaussCore smooth (dist2 ⟨cp.y, cp.z⟩ (rimShadow R ψ s.theta)) s.core
          * (windwardLine (R * s.gamma) (yawedRim R ψ s.theta) cp).z) l⟩ :=
  vclU_eval cp R ψ smooth l hc hoff

/-- these half-lines induce no velocity along the wind: the two cross-stream components
returned by `vcl_u` are the whole velocity. -/
theorem C85_no_axial (Γ : ℝ) (A P : V3 ℝ) (h : P.y ≠ A.y ∨ P.z ≠ A.z ∨ P.x < A.x) :
    (windwardLine Γ A P).x = 0 := by
  rw [(windwardLine_eval Γ A P h).2]

/-- C85 (equivalence of the models in the far wake): at any point of the cross-stream plane
off the projected rim, whatever the radius, yaw, sampling, strengths and smoothing, both
functions return numbers, and the velocity `vcl_u` returns at `(x,y,z)` tends to the one
`ve_u` returns at `(y,z)` as `x → ∞`. -/
theorem C85_far_wake (cp : V2 ℝ) (R ψ : ℝ) (smooth : Bool) (l : List RimSample)
    (hc : smooth = true → ∀ s ∈ l, s.core ≠ 0) (hoff : ∀ s ∈ l, cp ≠ rimShadow R ψ s.theta) :
    ∃ (u : ℝ → V2 ℝ) (v : V2 ℝ),
      (∀ x, vclU ⟨x, cp.x, cp.y⟩ R (l.map RimSample.theta) ψ (l.map RimSample.gamma)
        (if smooth then some (l.map RimSample.core) else none) = V2.fin (u x)) ∧
      veU cp R (l.map RimSample.theta) ψ (l.map RimSample.gamma)
        (if smooth then some (l.map RimSample.core) else none) = V2.fin v ∧
      Tendsto (fun x => (u x).x) atTop (𝓝 v.x) ∧ Tendsto (fun x => (u x).y) atTop (𝓝 v.y) := by
  have hoff' : ∀ x : ℝ, ∀ s ∈ l, cp.x ≠ (yawedRim R ψ s.theta).y ∨ cp.y ≠ (yawedRim R ψ s.theta).z ∨ x < (yawedRim R ψ s.theta).x := by
    intro x s hs
    by_contra h
    push Not at h
    exact hoff s hs (V2.ext h.1 h.2.1)
  refine ⟨_, _, fun x => vclU_eval ⟨x, cp.x, cp.y⟩ R ψ smooth l hc (hoff' x), veU_eval cp R ψ smooth l hc hoff, ?_, ?_⟩
  all_goals
    refine trapezoid_tendsto RimSample.theta (fun x s => _) _ l fun s hs => ?_
    refine Tendsto.const_mul _ ?_
    have hd : 0 < dist2 cp (rimShadow R ψ s.theta) := by
      unfold dist2
      rcases eq_or_ne cp.x (rimShadow R ψ s.theta).x with h1 | h1
      · have h2 : cp.y ≠ (rimShadow R ψ s.theta).y := fun h2 => hoff s hs (V2.ext h1 h2)
        have := sub_ne_zero.mpr h2
        positivity
      · have := sub_ne_zero.mpr h1
        positivity
    have hl := halfline_limit (yawedRim R ψ s.theta).x _ hd
    have hpi := Real.pi_pos
    have e : ∀ x : ℝ, Real.sqrt ((x - (yawedRim R ψ s.theta).x)^2 + dist2 cp (rimShadow R ψ s.theta))
        = V3.norm (⟨x, cp.x, cp.y⟩ - yawedRim R ψ s.theta) := by
      intro x
      show _ = Real.sqrt _
      congr 1
      simp only [dist2, rimShadow, yawedRim, V3.sub_x, V3.sub_y, V3.sub_z]
      ring
    simp only [e] at hl
    simp only [fun x => (windwardLine_eval (R * s.gamma) (yawedRim R ψ s.theta) ⟨x, cp.x, cp.y⟩ (hoff' x s hs)).2]
  · have h := hl.const_mul (-(R * s.gamma / (4 * Real.pi) * (cp.y - (rimShadow R ψ s.theta).y)))
    refine (h.congr fun x => ?_).trans_eq ?_
    · simp only [rimShadow, yawedRim]; ring
    · simp only [pointVortex]
      congr 1
      field_simp
      ring
  · have h := hl.const_mul (R * s.gamma / (4 * Real.pi) * (cp.x - (rimShadow R ψ s.theta).x))
    refine (h.congr fun x => ?_).trans_eq ?_
    · simp only [rimShadow, yawedRim]; ring
    · simp only [pointVortex]
      congr 1
      field_simp
      ring

/-- the rim sampled at `N+1` azimuths `0, 2π/N, …, 2π` -/
private theorem samples_linspace (N : ℕ) (g : ℝ → RimSample) :
    (linspace 0 (2*Real.pi) (N+1)).map g = (List.range (N+1)).map fun i : ℕ => g (0 + i * (2*Real.pi/N)) := by
  have := svcTheta_eq 0 N id (fun t => by simp)
  rw [List.map_id] at this
  rw [this, List.map_map]; rfl

theorem trapezoid_range {α : Type} (x f : α → ℝ) : ∀ (n : ℕ) (a : ℕ → α),
    trapezoid x f ((List.range (n+1)).map a) = ∑ i ∈ Finset.range n, (x (a (i+1)) - x (a i)) * (f (a i) + f (a (i+1))) / 2 := by
  intro n
  induction n with
  | zero => intro a; simp [trapezoid]
  | succ n ih =>
    intro a
    have e : (List.range (n+1+1)).map a = a 0 :: (List.range (n+1)).map fun i => a (i+1) := by
      rw [List.range_succ_eq_map]; simp [Function.comp_def]
    have h := ih fun i => a (i+1)
    have e2 : ∀ y : ℕ → α, (List.range (n+1)).map y = y 0 :: (List.range n).map fun i => y (i+1) := by
      intro y; rw [List.range_succ_eq_map]; simp [Function.comp_def]
    rw [e, e2, trapezoid, ← e2 (fun i => a (i+1)), h, Finset.sum_range_succ']
    ring

theorem trapezoid_turn (N : ℕ) (g : ℝ → RimSample) (hg : ∀ t, (g t).theta = t) (f : RimSample → ℝ) :
    trapezoid RimSample.theta f ((linspace 0 (2*Real.pi) (N+1)).map g) = turnRule 0 N (fun t => f (g t)) := by
  rw [samples_linspace, trapezoid_range]
  unfold turnRule
  apply Finset.sum_congr rfl
  intro i _
  simp only [hg]
  push_cast
  ring

theorem turnRule_periodic (N : ℕ) (hN : 0 < N) (f : ℝ → ℝ) (hf : f (2*Real.pi) = f 0) :
    turnRule 0 N f = ∑ i ∈ Finset.range N, (2*Real.pi/N) * f (0 + i * (2*Real.pi/N)) := by
  have hN' : (N:ℝ) ≠ 0 := by exact_mod_cast hN.ne'
  have ht := Finset.sum_range_sub (fun i : ℕ => f (0 + i * (2*Real.pi/N))) N
  have e0 : f (0 + ((0:ℕ):ℝ) * (2*Real.pi/N)) = f 0 := by simp
  have eN : f (0 + (N:ℝ) * (2*Real.pi/N)) = f 0 := by rw [← hf]; congr 1; field_simp; ring
  rw [e0, eN, sub_self, Finset.sum_sub_distrib, sub_eq_zero] at ht
  unfold turnRule
  rw [← Finset.mul_sum, ← Finset.mul_sum]
  congr 1
  rw [← Finset.sum_div, Finset.sum_add_distrib]
  push_cast at ht
  rw [ht]
  ring

private theorem V2.sum_x (l : List (V2 ℝ)) : l.sum.x = (l.map V2.x).sum := by
  induction l with
  | nil => rfl
  | cons a l ih => simp [ih]
private theorem V2.sum_y (l : List (V2 ℝ)) : l.sum.y = (l.map V2.y).sum := by
  induction l with
  | nil => rfl
  | cons a l ih => simp [ih]

/-- C85 (vortex points): on a full turn `theta = linspace(0,2π,N+1)`, with strengths and cores
that are `2π`-periodic in the azimuth, the sum of the `N` vortex points of circulation
`γ R dθ` computed by `vps_u` (model 0 without smoothing, model 2 order 2 with the same cores)
is exactly the velocity returned by `ve_u`, at every list of control points farther than
`√1e-15` from the vortex points.  `Gammas` and `SmoothParam` are passed with their `N+1`
entries, as in the example. -/
theorem C85_vortex_points (CP : List (V2 ℝ)) (R ψ : ℝ) (N : ℕ) (hN : 0 < N) (smooth : Bool) (γ σ : ℝ → ℝ)
    (hγ : γ (2*Real.pi) = γ 0) (hσ : smooth = true → σ (2*Real.pi) = σ 0 ∧ ∀ t, σ t ≠ 0)
    (hfar : ∀ p ∈ CP, ∀ t ∈ linspace 0 (2*Real.pi) (N+1), 1e-15 ≤ dist2 p (rimShadow R ψ t)) :
    vpsU CP ((linspace 0 (2*Real.pi) (N+1)).dropLast.map (rimShadow R ψ))
        ((linspace 0 (2*Real.pi) (N+1)).map fun t => γ t * (R * (2*Real.pi/N)))
        (if smooth then 2 else 0) 2
        (if smooth then some ((linspace 0 (2*Real.pi) (N+1)).map σ) else none)
      = .ok (CP.map fun p => veU p R (linspace 0 (2*Real.pi) (N+1)) ψ ((linspace 0 (2*Real.pi) (N+1)).map γ)
          (if smooth then some ((linspace 0 (2*Real.pi) (N+1)).map σ) else none)) := by
  have hpi := Real.pi_pos
  have hN' : (N:ℝ) ≠ 0 := by exact_mod_cast hN.ne'
  set θs := linspace 0 (2*Real.pi) (N+1) with hθs
  let g : ℝ → RimSample := fun t => ⟨t, γ t, σ t⟩
  let w : ℝ → ℝ := fun q => if smooth then 1 - Real.exp (-q) else 1
  have hcf : coreFunction (if smooth then 2 else 0) 2 = some w := by
    cases smooth
    · simp [coreFunction, w]
    · simp [coreFunction, w]
  let vs : List Vortex := θs.dropLast.map fun t => ⟨rimShadow R ψ t, γ t * (R * (2*Real.pi/N)), σ t⟩
  obtain ⟨k, hk, hr, hn, hn'⟩ := setup_ok _ _ w hcf
  have hθr : θs = (List.range (N+1)).map fun i : ℕ => 0 + (i:ℝ) * (2*Real.pi/N) := by
    have := svcTheta_eq 0 N id (fun t => by simp)
    rwa [List.map_id] at this
  have hdl : θs.dropLast = (List.range N).map fun i : ℕ => 0 + (i:ℝ) * (2*Real.pi/N) := by
    rw [hθr, List.range_succ, List.map_append, List.map_singleton, List.dropLast_concat]
  have hvs : θs.dropLast.map (rimShadow R ψ) = vs.map Vortex.pos := by
    simp only [vs, List.map_map]; rfl
  have hlen : θs.dropLast.length = N := by rw [hdl]; simp
  have hget : ∀ i (h : i < vs.length), ∃ t, θs[i]? = some t ∧ vs[i] = ⟨rimShadow R ψ t, γ t * (R * (2*Real.pi/N)), σ t⟩ := by
    intro i h
    have hi : i < N := by
      have h' : i < θs.dropLast.length := by simpa only [vs, List.length_map] using h
      rwa [hlen] at h'
    refine ⟨0 + (i:ℝ) * (2*Real.pi/N), ?_, ?_⟩
    · rw [hθr]; simp [List.getElem?_range (show i < N+1 by omega)]
    · have hq : θs.dropLast[i]'(by rw [hlen]; exact hi) = 0 + (i:ℝ) * (2*Real.pi/N) := by
        simp only [hdl, List.getElem_map, List.getElem_range]
      simp only [vs, List.getElem_map]
      rw [hq]
  have hloop : ∀ p ∈ CP, vpsLoop k p (θs.map fun t => γ t * (R * (2*Real.pi/N)))
      (if smooth then some (θs.map σ) else none) 0 (vs.map Vortex.pos) 0
      = .ok (veU p R θs ψ (θs.map γ) (if smooth then some (θs.map σ) else none)) := by
    intro p hp
    rw [vpsLoop_eval k w hr p]
    · rw [zero_add]
      congr 1
      have e1 : θs = (θs.map g).map RimSample.theta := by rw [List.map_map]; exact (List.map_id θs).symm
      have e2 : θs.map γ = (θs.map g).map RimSample.gamma := by rw [List.map_map]; rfl
      have e3 : (if smooth then some (θs.map σ) else none) = coreList smooth (θs.map g) := by
        unfold coreList; rw [List.map_map]; rfl
      have hfar' : ∀ t ∈ θs, 0 < dist2 p (rimShadow R ψ t) := fun t ht =>
        lt_of_lt_of_le (by norm_num) (hfar p hp t ht)
      have hve := veU_eval p R ψ smooth (θs.map g)
        (by intro h s hs; obtain ⟨t, _, rfl⟩ := List.mem_map.mp hs; exact (hσ h).2 t)
        (by
          intro s hs heq
          obtain ⟨t, ht, rfl⟩ := List.mem_map.mp hs
          have := hfar' t ht
          rw [heq] at this
          simp [dist2, g] at this)
      rw [← e1, ← e2, ← e3] at hve
      rw [hve, hθs]
      rw [trapezoid_turn N g (fun t => rfl), trapezoid_turn N g (fun t => rfl)]
      have hper : ∀ c : V2 ℝ → ℝ, turnRule 0 N (fun t => gaussCore smooth (dist2 p (rimShadow R ψ (g t).theta)) (g t).core *
            c (pointVortex (R * (g t).gamma) p (rimShadow R ψ (g t).theta)))
          = ∑ i ∈ Finset.range N, (2*Real.pi/N) * (fun t => gaussCore smooth (dist2 p (rimShadow R ψ t)) (σ t) *
            c (pointVortex (R * γ t) p (rimShadow R ψ t))) (0 + i * (2*Real.pi/N)) := by
        intro c
        refine turnRule_periodic N hN _ ?_
        have hs : rimShadow R ψ (2*Real.pi) = rimShadow R ψ 0 := by simp [rimShadow]
        simp only [g, hs, hγ]
        cases smooth
        · simp [gaussCore]
        · rw [(hσ rfl).1]
      have hv : ∀ i ∈ Finset.range N, ∀ t, t = 0 + (i:ℝ) * (2*Real.pi/N) →
          vortexVelocity w p ⟨rimShadow R ψ t, γ t * (R * (2*Real.pi/N)), σ t⟩
          = ⟨(2*Real.pi/N) * (gaussCore smooth (dist2 p (rimShadow R ψ t)) (σ t) * (pointVortex (R * γ t) p (rimShadow R ψ t)).x),
             (2*Real.pi/N) * (gaussCore smooth (dist2 p (rimShadow R ψ t)) (σ t) * (pointVortex (R * γ t) p (rimShadow R ψ t)).y)⟩ := by
        intro i hi t ht
        have hm : t ∈ θs := by
          rw [hθr, ht]
          exact List.mem_map.mpr ⟨i, List.mem_range.mpr (by have := Finset.mem_range.mp hi; omega), rfl⟩
        have h0 := hfar p hp t hm
        have h1 := hfar' t hm
        have hw : w (dist2 p (rimShadow R ψ t) / σ t^2) = gaussCore smooth (dist2 p (rimShadow R ψ t)) (σ t) := by
          simp only [w, gaussCore, neg_div]
        unfold vortexVelocity
        simp only []
        rw [show (p.x - (rimShadow R ψ t).x)^2 + (p.y - (rimShadow R ψ t).y)^2 = dist2 p (rimShadow R ψ t) from rfl,
          if_neg (not_lt.mpr h0), hw]
        simp only [pointVortex]
        generalize dist2 p (rimShadow R ψ t) = d at *
        ext
        · simp only []; field_simp
        · simp only []; field_simp
      have hsum : ∀ (F : ℕ → ℝ), ((List.range N).map F).sum = ∑ i ∈ Finset.range N, F i := fun F => by
        rw [Finset.sum_list_map_count, Finset.sum_congr (List.toFinset_range N)]
        intro i hi
        rw [List.count_eq_one_of_mem (List.nodup_range) (by simpa using hi), one_smul]
      have hvm : vs.map (vortexVelocity w p) = (List.range N).map fun i : ℕ =>
          vortexVelocity w p ⟨rimShadow R ψ (0 + (i:ℝ) * (2*Real.pi/N)), γ (0 + (i:ℝ) * (2*Real.pi/N)) * (R * (2*Real.pi/N)), σ (0 + (i:ℝ) * (2*Real.pi/N))⟩ := by
        simp only [vs, hdl, List.map_map]; rfl
      congr 1
      rw [hper V2.x, hper V2.y]
      ext
      · rw [V2.sum_x, hvm, List.map_map, hsum]
        exact Finset.sum_congr rfl fun i hi => by
          simp only [Function.comp]
          rw [hv i hi _ rfl]
      · rw [V2.sum_y, hvm, List.map_map, hsum]
        exact Finset.sum_congr rfl fun i hi => by
          simp only [Function.comp]
          rw [hv i hi _ rfl]
    · cases smooth
      · exact Or.inl (hn' rfl)
      · refine Or.inr fun v hv => ?_
        obtain ⟨t, _, rfl⟩ := List.mem_map.mp hv
        exact (hσ rfl).2 t
    · intro i h
      obtain ⟨t, h1, h2⟩ := hget i h
      rw [h2, Nat.zero_add, List.getElem?_map, h1]; rfl
    · cases smooth
      · exact Or.inl (hn' rfl)
      · refine Or.inr ⟨θs.map σ, rfl, ?_⟩
        intro i h
        obtain ⟨t, h1, h2⟩ := hget i h
        rw [h2, Nat.zero_add, List.getElem?_map, h1]; rfl
  unfold vpsU
  rw [hk, hvs]
  simp only []
  clear hfar
  induction CP with
  | nil => rfl
  | cons p CP ih =>
    rw [vpsPoints, hloop p (by simp)]
    simp only []
    rw [ih (fun q hq => hloop q (by simp [hq]))]
    rfl

/-- C85 (refinement): with continuous `2π`-periodic strength and no smoothing, the velocity of
`ve_u` on the grids `linspace(0,2π,n+1)` tends to the integral over the projected rim of the
point-vortex velocities. -/
theorem C85_ellipse_converges (cp : V2 ℝ) (R ψ : ℝ) (γ : ℝ → ℝ) (hγc : Continuous γ)
    (hγ : ∀ t, γ (t + 2*Real.pi) = γ t) (hoff : ∀ t, cp ≠ rimShadow R ψ t) :
    ∃ u : ℕ → V2 ℝ,
      (∀ n, veU cp R (linspace 0 (2*Real.pi) (n+1)) ψ ((linspace 0 (2*Real.pi) (n+1)).map γ) none = V2.fin (u n)) ∧
      Tendsto (fun n => (u n).x) atTop (𝓝 (∫ t in Set.Ioc 0 (2*Real.pi), (pointVortex (R * γ t) cp (rimShadow R ψ t)).x)) ∧
      Tendsto (fun n => (u n).y) atTop (𝓝 (∫ t in Set.Ioc 0 (2*Real.pi), (pointVortex (R * γ t) cp (rimShadow R ψ t)).y)) := by
  have hpi := Real.pi_pos
  let g : ℝ → RimSample := fun t => ⟨t, γ t, 0⟩
  have hd : ∀ t, dist2 cp (rimShadow R ψ t) ≠ 0 := by
    intro t h
    apply hoff t
    unfold dist2 at h
    have h1 := sq_nonneg (cp.x - (rimShadow R ψ t).x)
    have h2 := sq_nonneg (cp.y - (rimShadow R ψ t).y)
    ext
    · have := pow_eq_zero_iff (two_ne_zero) |>.mp (by linarith : (cp.x - (rimShadow R ψ t).x)^2 = 0); linarith
    · have := pow_eq_zero_iff (two_ne_zero) |>.mp (by linarith : (cp.y - (rimShadow R ψ t).y)^2 = 0); linarith
  refine ⟨fun n => ⟨turnRule 0 n fun t => (pointVortex (R * γ t) cp (rimShadow R ψ t)).x,
    turnRule 0 n fun t => (pointVortex (R * γ t) cp (rimShadow R ψ t)).y⟩, ?_, ?_, ?_⟩
  · intro n
    have hve := veU_eval cp R ψ false ((linspace 0 (2*Real.pi) (n+1)).map g) (by simp)
      (by intro s hs; obtain ⟨t, _, rfl⟩ := List.mem_map.mp hs; exact hoff t)
    rw [List.map_map, List.map_map, trapezoid_turn n g (fun t => rfl), trapezoid_turn n g (fun t => rfl)] at hve
    simp only [gaussCore, Bool.false_eq_true, if_false, one_mul, coreList] at hve
    have e1 : List.map (RimSample.theta ∘ g) (linspace 0 (2*Real.pi) (n+1)) = linspace 0 (2*Real.pi) (n+1) := List.map_id _
    rw [e1] at hve
    exact hve
  all_goals
    refine turnRule_tendsto _ ?_ ?_ (fun _ => 0)
    · have hdc : Continuous fun t => dist2 cp (rimShadow R ψ t) := by
        unfold dist2 rimShadow; fun_prop
      have hden : ∀ t, 2 * Real.pi * dist2 cp (rimShadow R ψ t) ≠ 0 := fun t => mul_ne_zero (by positivity) (hd t)
      unfold pointVortex
      have h1 : Continuous fun t => R * γ t / (2 * Real.pi * dist2 cp (rimShadow R ψ t)) :=
        (continuous_const.mul hγc).div (continuous_const.mul hdc) hden
      have h2 : Continuous fun t => (rimShadow R ψ t).x := by unfold rimShadow; fun_prop
      have h3 : Continuous fun t => (rimShadow R ψ t).y := by unfold rimShadow; fun_prop
      fun_prop
    · intro t
      have hs : rimShadow R ψ (t + 2*Real.pi) = rimShadow R ψ t := by simp [rimShadow]
      simp only [hs, hγ]

/-- the example of the repository: `γ = γ_t sin ψ sin θ` on a rotor of radius 65 yawed by 30°,
seen from its centre, meets all the hypotheses. -/
example : Continuous (fun t : ℝ => -3 * Real.sin 1 * Real.sin t) ∧
    (∀ t : ℝ, -3 * Real.sin 1 * Real.sin (t + 2*Real.pi) = -3 * Real.sin 1 * Real.sin t) ∧
    (∀ t, (⟨0, 0⟩ : V2 ℝ) ≠ rimShadow 65 (Real.pi/6) t) ∧ ∀ t, 1e-15 ≤ dist2 ⟨0, 0⟩ (rimShadow 65 (Real.pi/6) t) := by
  have h : ∀ t, 1 ≤ dist2 ⟨0, 0⟩ (rimShadow 65 (Real.pi/6) t) := by
    intro t
    have h3 := Real.cos_pi_div_six
    have h4 : Real.cos (Real.pi/6)^2 = 3/4 := by rw [h3, div_pow, Real.sq_sqrt (by norm_num)]; norm_num
    have h5 := Real.sin_sq_add_cos_sq t
    have : dist2 ⟨0, 0⟩ (rimShadow 65 (Real.pi/6) t) = 65^2 * (Real.cos t^2 * Real.cos (Real.pi/6)^2 + Real.sin t^2) := by
      simp only [dist2, rimShadow]; ring
    rw [this, h4]
    nlinarith [sq_nonneg (Real.sin t), sq_nonneg (Real.cos t)]
  refine ⟨by fun_prop, fun t => by simp, ?_, fun t => le_trans (by norm_num) (h t)⟩
  intro t ht
  have := h t
  rw [← ht] at this
  norm_num [dist2] at this

end Wiz
