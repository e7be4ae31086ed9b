import Verif.Model.WindCoord
import Verif.Lemmas.SkewTurbine
import Verif.Props.RingStack
/-! # C112: skewed wakes in wind coordinates -/
namespace Wiz
open Spec Real Classical

theorem tw2c_true (θ : ℝ) (p : V3 ℝ) : Tw2c true θ p = ⟨p.x * cos θ + p.z * sin θ, p.y, -p.x * sin θ + p.z * cos θ⟩ := rfl

theorem tc2w_fin (θ : ℝ) (u : V3 ℝ) : Tc2w true θ (V3.fin u) = V3.fin ⟨u.x * cos θ - u.z * sin θ, u.y, u.x * sin θ + u.z * cos θ⟩ := by
  unfold Tc2w
  ext <;> simp

theorem addWind_fin (θ U : ℝ) (u : V3 ℝ) : addWind θ U (V3.fin u) = V3.fin ⟨u.x + U * sin θ, u.y, u.z + U * cos θ⟩ := by
  unfold addWind
  ext <;> simp

/-- the value added to the wind in wind coordinates -/
theorem script_fin (θ U : ℝ) (c : V3 ℝ) :
    Tc2w true θ (addWind θ U (V3.fin c)) = V3.fin ⟨c.x * cos θ - c.z * sin θ, c.y, c.x * sin θ + c.z * cos θ + U⟩ := by
  rw [addWind_fin, tc2w_fin]
  have h := sin_sq_add_cos_sq θ
  congr 1
  ext
  · simp only; ring
  · rfl
  · simp only
    linear_combination U * h

/-- C112: the two changes of coordinates are inverse to each other, and keep distances and heights. -/
theorem C112_round_trip (b : Bool) (θ : ℝ) (p : V3 ℝ) :
    Tc2w b θ (V3.fin (Tw2c b θ p)) = V3.fin p ∧ (Tw2c b θ p).y = p.y ∧ ∀ q, V3.norm (Tw2c b θ p - Tw2c b θ q) = V3.norm (p - q) := by
  cases b
  · exact ⟨rfl, rfl, fun _ => rfl⟩
  have h := sin_sq_add_cos_sq θ
  refine ⟨?_, rfl, fun q => ?_⟩
  · rw [tc2w_fin, tw2c_true]
    congr 1
    ext
    · simp only; linear_combination p.x * h
    · rfl
    · simp only; linear_combination p.z * h
  · unfold V3.norm
    congr 1
    simp only [tw2c_true, V3.sub_x, V3.sub_y, V3.sub_z]
    linear_combination ((p.x - q.x)^2 + (p.z - q.z)^2) * h

/-- value of the script at a point off the wake -/
theorem skewScript_value (θ χ γ R rh U : ℝ) (hR : 0 < R) (hcos : cos χ ≠ 0) (pts : List (V3 ℝ)) (i : ℕ) (p : V3 ℝ) (hi : pts[i]? = some p)
    (hoff : ∀ t s, 0 ≤ s → Tw2c true θ p ≠ wakePoint R (tan χ) t s) (c : V3 ℝ)
    (hc : c = turnRuleV (π/2) 179 (tangGenerator γ R (tan χ) (Tw2c true θ p))) :
    (skewScript true false θ χ γ R rh U pts)[i]? = some (V3.fin ⟨c.x * cos θ - c.z * sin θ, c.y, c.x * sin θ + c.z * cos θ + U⟩) := by
  have htan : Num.tan (.fin χ) = .fin (tan χ) := by
    show (if cos χ = 0 then Num.nan else Num.fin (tan χ)) = _
    rw [if_neg hcos]
  have hY : (pts.map (Tw2c true θ))[i]? = some (Tw2c true θ p) := by rw [List.getElem?_map, hi]; rfl
  have hget := (C65_cartesian (pts.map (Tw2c true θ)) γ R (tan χ) hR 179 i _ hY hoff).1
  unfold skewScript
  simp only [Bool.false_eq_true, if_false, List.getElem?_map, htan]
  rw [hget, ← hc, Option.map_some, script_fin]

/-- C112: the script and a turbine agree.  In wind coordinates a turbine at the origin with the default axes, yawed by
`-theta_yaw`, in a wind `(0,0,U0)`, with one cylinder of strength `gamma_t` and skew `chi`, after any history of calls, returns
at every point off the wake the velocity that the script returns there. -/
theorem C112_turbine (mini : (ℝ → Num) → ℝ) (R : ℝ) (hub U0 : V3 ℝ) (L : Option Num) (G : Bool) (M : String) (hR : 0 < R) (h : List Op)
    (pts : List (V3 ℝ)) (o : Opts) (γ χ θ U rh : ℝ) :
    let w := (WT.new R hub ⟨0,0,1⟩ ⟨0,1,0⟩ U0 L G M).run mini h
    o.tang = true → o.longi = false → o.root = false → o.no_wake = false → o.only_ind = false →
    o.Model.getD w.Model = "VC" → o.ground.getD w.Ground = false →
    w.gamma_t = some [.fin γ] → (w.computeU pts o).2.chi = some (.fin χ) → 1e-7 < |χ| → cos χ ≠ 0 →
    w.yaw_pos = -θ → w.r_hub = 0 → w.U0_g = ⟨0, 0, U⟩ →
    ∃ u, (w.computeU pts o).1 = .ok u ∧ ∀ (i : ℕ) (p : V3 ℝ), pts[i]? = some p →
      (∀ t s, 0 ≤ s → Tw2c true θ p ≠ wakePoint R (tan χ) t s) →
      ∃ v : V3 ℝ, u[i]? = some (V3.fin v) ∧ (skewScript true false θ χ γ R rh U pts)[i]? = some (V3.fin v) := by
  intro w h1 h2 h3 h4 h5 h6 h7 hg hchi hsk hcos hyaw hhub hU
  have hfr := frame_run mini ⟨0,0,1⟩ ⟨0,1,0⟩ R h _ (frame_new R hub ⟨0,0,1⟩ ⟨0,1,0⟩ U0 L G M)
  have hs : w.e_shaft_g = ⟨-sin θ, 0, cos θ⟩ := by
    have := hfr.e_shaft_g
    rw [turn_eq] at this
    change w.e_shaft_g = turn ⟨0,1,0⟩ w.yaw_pos ⟨0,0,1⟩ at this
    rw [this, hyaw]
    ext <;> simp [turn, V3.cross, V3.dot]
  obtain ⟨u, hu, -, hall⟩ := skew_value mini R hub ⟨0,0,1⟩ ⟨0,1,0⟩ U0 L G M default_orthonormal hR h pts o γ χ
    (by constructor <;> assumption) hg hchi hsk hcos
  refine ⟨u, hu, fun i p hi hoff => ?_⟩
  have hq := hall i p (Tw2c true θ p) hi (by
    change _ = (⟨V3.dot (p - w.r_hub) (V3.cross ⟨0,1,0⟩ w.e_shaft_g), V3.dot (p - w.r_hub) ⟨0,1,0⟩, V3.dot (p - w.r_hub) w.e_shaft_g⟩ : V3 ℝ)
    rw [hhub, hs, tw2c_true]
    ext <;> simp [V3.cross, V3.dot]) hoff _ rfl
  refine ⟨_, hq, ?_⟩
  rw [skewScript_value θ χ γ R rh U hR hcos pts i p hi hoff _ rfl]
  generalize turnRuleV (π/2) 179 (tangGenerator γ R (tan χ) (Tw2c true θ p)) = c
  change _ = some (V3.fin (V3.smul c.x (V3.cross ⟨0,1,0⟩ w.e_shaft_g) + V3.smul c.y ⟨0,1,0⟩ + V3.smul c.z w.e_shaft_g + (if o.only_ind then 0 else w.U0_g)))
  rw [hs, h5, hU]
  congr 2
  ext <;> simp [V3.cross] <;> ring

/-- C112: without a wake every point sees the wind, along the third wind axis. -/
theorem C112_free_stream (θ χ R rh U : ℝ) (hR : 0 < R) (hcos : cos χ ≠ 0) (pts : List (V3 ℝ)) (i : ℕ) (p : V3 ℝ) (hi : pts[i]? = some p)
    (hoff : ∀ t s, 0 ≤ s → Tw2c true θ p ≠ wakePoint R (tan χ) t s) :
    (skewScript true false θ χ 0 R rh U pts)[i]? = some (V3.fin ⟨0, 0, U⟩) := by
  have hz : turnRuleV (π/2) 179 (tangGenerator 0 R (tan χ) (Tw2c true θ p)) = 0 := by
    have hz0 : ∀ t, tangGenerator 0 R (tan χ) (Tw2c true θ p) t = 0 := by
      intro t; unfold tangGenerator; ext <;> simp
    ext <;> simp [turnRuleV, turnRule, hz0]
  rw [skewScript_value θ χ 0 R rh U hR hcos pts i p hi hoff _ hz.symm]
  congr 2
  ext <;> simp

/-- C112: the opposite cylinder at the hub adds the velocity that it would induce on its own. -/
theorem C112_root (θ χ γ R rh U : ℝ) (hR : 0 < R) (hrh : 0 < rh) (hcos : cos χ ≠ 0) (pts : List (V3 ℝ)) (i : ℕ) (p : V3 ℝ) (hi : pts[i]? = some p)
    (hoff : ∀ t s, 0 ≤ s → Tw2c true θ p ≠ wakePoint R (tan χ) t s) (hoffh : ∀ t s, 0 ≤ s → Tw2c true θ p ≠ wakePoint rh (tan χ) t s) :
    ∃ u v : V3 ℝ, (skewScript true false θ χ γ R rh U pts)[i]? = some (V3.fin u) ∧
      (skewScript true false θ χ (-γ) rh rh 0 pts)[i]? = some (V3.fin v) ∧
      (skewScript true true θ χ γ R rh U pts)[i]? = some (V3.fin (u + v)) := by
  refine ⟨_, _, skewScript_value θ χ γ R rh U hR hcos pts i p hi hoff _ rfl, skewScript_value θ χ (-γ) rh rh 0 hrh hcos pts i p hi hoffh _ rfl, ?_⟩
  have htan : Num.tan (.fin χ) = .fin (tan χ) := by
    show (if cos χ = 0 then Num.nan else Num.fin (tan χ)) = _
    rw [if_neg hcos]
  have hY : (pts.map (Tw2c true θ))[i]? = some (Tw2c true θ p) := by rw [List.getElem?_map, hi]; rfl
  have h1 := (C65_cartesian (pts.map (Tw2c true θ)) γ R (tan χ) hR 179 i _ hY hoff).1
  have h2 := (C65_cartesian (pts.map (Tw2c true θ)) (-γ) rh (tan χ) hrh 179 i _ hY hoffh).1
  generalize turnRuleV (π/2) 179 (tangGenerator γ R (tan χ) (Tw2c true θ p)) = c at *
  generalize turnRuleV (π/2) 179 (tangGenerator (-γ) rh (tan χ) (Tw2c true θ p)) = d at *
  unfold skewScript
  simp only [if_true, List.getElem?_map, htan, List.getElem?_zipWith]
  rw [h1, h2]
  simp only [Option.map_some]
  rw [show V3.fin c + V3.fin d = V3.fin (c + d) by ext <;> simp, script_fin]
  congr 2
  ext <;> simp <;> ring

/-- C112: the superposition of concentric cylinders is the wind plus the sum of the velocities of the cylinders taken one by
one, in wind coordinates. -/
theorem C112_superposition (θ χ rh U : ℝ) (hcos : cos χ ≠ 0) (cyls : List (ℝ × ℝ)) (hpos : ∀ c ∈ cyls, 0 < c.2)
    (pts : List (V3 ℝ)) (i : ℕ) (p : V3 ℝ) (hi : pts[i]? = some p)
    (hoff : ∀ c ∈ cyls, ∀ t s, 0 ≤ s → Tw2c true θ p ≠ wakePoint c.2 (tan χ) t s) :
    ∃ f : ℝ × ℝ → V3 ℝ, (∀ c ∈ cyls, (skewScript true false θ χ c.1 c.2 rh 0 pts)[i]? = some (V3.fin (f c))) ∧
      (superpScript true θ χ U cyls pts)[i]? = some (V3.fin (⟨0, 0, U⟩ + (cyls.map f).sum)) := by
  let g : ℝ × ℝ → V3 ℝ := fun c => turnRuleV (π/2) 179 (tangGenerator c.1 c.2 (tan χ) (Tw2c true θ p))
  refine ⟨fun c => ⟨(g c).x * cos θ - (g c).z * sin θ, (g c).y, (g c).x * sin θ + (g c).z * cos θ + 0⟩, fun c hc => ?_, ?_⟩
  · exact skewScript_value θ χ c.1 c.2 rh 0 (hpos c hc) hcos pts i p hi (hoff c hc) _ rfl
  have htan : Num.tan (.fin χ) = .fin (tan χ) := by
    show (if cos χ = 0 then Num.nan else Num.fin (tan χ)) = _
    rw [if_neg hcos]
  have hm : 1 * Num.tan (.fin χ) = .fin (tan χ) := by rw [htan]; simp
  have hil : i < pts.length := by
    by_contra hn
    rw [List.getElem?_eq_none (not_lt.mp hn)] at hi
    exact nomatch hi
  have hrel : relPts (pts.map (Tw2c true θ)) 0 = pts.map (Tw2c true θ) := by
    unfold relPts
    rw [List.map_map]
    apply List.map_congr_left
    intro q _
    simp only [Function.comp_apply]
    ext <;> simp
  have hY : (pts.map (Tw2c true θ))[i]? = some (Tw2c true θ p) := by rw [List.getElem?_map, hi]; rfl
  obtain ⟨l1, l2⟩ := addSkewCyls_spec (fun q ga R m => svcTang q ga R m 180 false) (pts.map (Tw2c true θ))
    (by intro g R m; simp [svcTang]) (cyls.map fun c => (.fin c.1, c.2, 1 * Num.tan (.fin χ))) ((pts.map (Tw2c true θ)).map fun _ => 0) (by simp)
  have hval : ((superpScript true θ χ U cyls pts))[i]? = some (Tc2w true θ (addWind θ U (V3.fin (cyls.map g).sum))) := by
    unfold superpScript svcsTang
    simp only [List.foldl_cons, List.foldl_nil, Bool.false_eq_true, if_false, hrel, List.getElem?_map]
    have hlt : i < (addSkewCyls (fun q ga R m => svcTang q ga R m 180 false) (pts.map (Tw2c true θ))
        (cyls.map fun c => (.fin c.1, c.2, 1 * Num.tan (.fin χ))) ((pts.map (Tw2c true θ)).map fun _ => 0)).length := by
      rw [l1]; simpa using hil
    have h1 := l2 i
    rw [List.getD_eq_getElem?_getD, List.getElem?_eq_getElem hlt, Option.getD_some] at h1
    rw [List.getElem?_eq_getElem hlt, h1, Option.map_some]
    congr 3
    rw [show (((pts.map (Tw2c true θ)).map fun _ => (0 : V3 Num)).getD i 0) = 0 by simp [List.getD_eq_getElem?_getD, hi], zero_add]
    clear l1 l2 hlt h1
    induction cyls with
    | nil => ext <;> simp
    | cons c cyls ih =>
      have ih := ih (fun c hc => hpos c (List.mem_cons_of_mem _ hc)) (fun c hc => hoff c (List.mem_cons_of_mem _ hc))
      have hc := (C65_cartesian (pts.map (Tw2c true θ)) c.1 c.2 (tan χ) (hpos c (by simp)) 179 i _ hY (hoff c (by simp))).1
      have hcD : (svcTang (pts.map (Tw2c true θ)) (.fin c.1) c.2 (1 * Num.tan (.fin χ)) 180 false).getD i 0 = V3.fin (g c) := by
        rw [hm]; exact getElem_getD hc
      rw [List.map_cons, List.filter_cons, List.map_cons, List.sum_cons]
      by_cases h0 : c.1 = 0
      · have hz : g c = 0 := by
          have hz0 : ∀ t, tangGenerator c.1 c.2 (tan χ) (Tw2c true θ p) t = 0 := by
            intro t; unfold tangGenerator; rw [h0]; ext <;> simp
          show turnRuleV (π/2) 179 (tangGenerator c.1 c.2 (tan χ) (Tw2c true θ p)) = 0
          ext <;> simp [turnRuleV, turnRule, hz0]
        rw [if_neg (by simp [h0]), ih, hz, zero_add]
      · rw [if_pos (by simpa using h0), List.map_cons, List.sum_cons, ih, hcD]
        ext <;> simp
  rw [hval, script_fin]
  congr 2
  clear hval hoff hpos l1 l2
  induction cyls with
  | nil => ext <;> simp
  | cons c cyls ih =>
    rw [List.map_cons, List.map_cons, List.sum_cons, List.sum_cons]
    have hx := congrArg V3.x ih
    have hy := congrArg V3.y ih
    have hz := congrArg V3.z ih
    simp at hx hy hz
    ext <;> simp
    · linear_combination hx
    · linear_combination hy
    · linear_combination hz

/-- C112: the circle drawn is the projection of the whole rotor edge on the plane normal to the wind: 50 points, the `i`-th being the
first two wind coordinates of the rotor-edge point at azimuth `2πi/49` (so the curve goes once round and closes). -/
theorem C112_projection (θ R : ℝ) : (rotorProjection θ R).length = 50 ∧
    ∀ i : ℕ, i < 50 → ∃ x y z : ℝ, (rotorProjection θ R)[i]? = some (x, y) ∧
      Tc2w true θ (V3.fin ⟨R * cos (2*π*i/49), R * sin (2*π*i/49), 0⟩) = V3.fin ⟨x, y, z⟩ := by
  refine ⟨by simp [rotorProjection, linspace], fun i hi => ?_⟩
  refine ⟨R * cos (2*π*i/49) * cos θ, R * sin (2*π*i/49), R * cos (2*π*i/49) * sin θ, ?_, ?_⟩
  · unfold rotorProjection linspace
    rw [List.map_map, List.getElem?_map, List.getElem?_range hi, Option.map_some]
    have : (0:ℝ) + (i:ℝ) * ((2*π - 0)/(((50:ℕ):ℝ) - 1)) = 2*π*i/49 := by push_cast; ring
    simp only [Function.comp_apply, this]
  · rw [tc2w_fin]
    congr 1
    ext <;> simp

/-- C112: the speed drawn is `|uz|` clipped to the colour limits. -/
theorem C112_clip (lo hi u : ℝ) (h : lo ≤ hi) :
    plotSpeed none (.fin u) = .fin |u| ∧ plotSpeed (some (lo, hi)) (.fin u) = .fin (max lo (min |u| hi)) := by
  have hs : Num.sqrt ((.fin u)^2) = .fin |u| := by
    rw [Num.fin_pow, Num.sqrt_fin (by positivity), sqrt_sq_eq_abs]
  refine ⟨hs, ?_⟩
  unfold plotSpeed
  simp only [hs, Num.lt_fin]
  by_cases h1 : hi < |u|
  · rw [if_pos h1, Num.lt_fin, if_neg (not_lt.mpr h), min_eq_right h1.le, max_eq_right h]
  · rw [if_neg h1, Num.lt_fin, min_eq_left (not_lt.mp h1)]
    by_cases h2 : |u| < lo
    · rw [if_pos h2, max_eq_left h2.le]
    · rw [if_neg h2, max_eq_right (not_lt.mp h2)]

theorem stack_neg (γ R χ L rh : ℝ) (n : ℕ) (rings : List RingSpec) (h : ringStack γ R χ L n = .ok rings) :
    ringStack (-γ) rh χ L n = .ok (rings.map fun q => ⟨-q.Gamma, q.R * 0 + rh, q.pos⟩) := by
  unfold ringStack at *
  simp only at *
  split at h
  · rename_i z0 z1 t hz
    have h := Except.ok.inj h
    subst h
    congr 1
    rw [List.map_map]
    apply List.map_congr_left
    intro z _
    simp only [Function.comp_apply]
    congr 1 <;> ring
  · exact nomatch h

/-- C112: the wake made of rings (with the opposite rings at the hub when asked for) tends, in wind coordinates, to the wind plus
the exact fields of the skewed cylinders, when the stack is long enough and then dense enough. -/
theorem C112_rings (root : Bool) (θ χ γ R rh U : ℝ) (hR : 0 < R) (hrh : 0 < rh) (hχ : 0 < cos χ) (p q : V3 ℝ) (hq : q = Tw2c true θ p)
    (hoff : ∀ ρ ∈ [R, rh], ∀ t s, 0 ≤ s → q ≠ wakePoint ρ (tan χ) t s)
    (hcut : ∀ ρ ∈ [R, rh], ∀ s ≥ 0, (√((q.x - tan χ * s)^2 + q.y^2) = 0 ∨ 1e-7 * ρ ≤ √((q.x - tan χ * s)^2 + q.y^2)) ∧
      (1e-7 * ρ ≤ |√((q.x - tan χ * s)^2 + q.y^2) - ρ| ∨ 1e-7 ≤ |q.z - s|))
    (F : V3 ℝ) (hF : F = skewTangField γ R (tan χ) q + (if root then skewTangField (-γ) rh (tan χ) q else 0)) :
    ∀ ε > 0, ∃ L0 > 0, ∀ L ≥ L0, ∃ N0, ∀ n ≥ N0, ∃ u : V3 ℝ, ringScript true root θ χ γ R rh U L n [p] = .ok [V3.fin u] ∧
      |u.x - (F.x * cos θ - F.z * sin θ)| < ε ∧ |u.y - F.y| < ε ∧ |u.z - (F.x * sin θ + F.z * cos θ + U)| < ε := by
  intro ε hε
  obtain ⟨L1, hL1, H1⟩ := C99_converges γ R χ hR hχ q (hoff R (by simp)) (hcut R (by simp)) (ε/4) (by linarith)
  obtain ⟨L2, hL2, H2⟩ := C99_converges (-γ) rh χ hrh hχ q (hoff rh (by simp)) (hcut rh (by simp)) (ε/4) (by linarith)
  refine ⟨max L1 L2, lt_max_of_lt_left hL1, fun L hL => ?_⟩
  obtain ⟨N1, K1⟩ := H1 L ((le_max_left _ _).trans hL)
  obtain ⟨N2, K2⟩ := H2 L ((le_max_right _ _).trans hL)
  refine ⟨max N1 N2, fun n hn => ?_⟩
  obtain ⟨rings, u, e1, e2, b1, b2, b3⟩ := K1 n ((le_max_left _ _).trans hn)
  obtain ⟨rings', v, e1', e2', b1', b2', b3'⟩ := K2 n ((le_max_right _ _).trans hn)
  rw [stack_neg γ R χ L rh n rings e1] at e1'
  have e1' := Except.ok.inj e1'
  subst e1'
  have hrot : ∀ (c G : V3 ℝ), |c.x - G.x| < ε/2 → |c.y - G.y| < ε/2 → |c.z - G.z| < ε/2 →
      |(c.x * cos θ - c.z * sin θ) - (G.x * cos θ - G.z * sin θ)| < ε ∧ |c.y - G.y| < ε ∧
      |(c.x * sin θ + c.z * cos θ + U) - (G.x * sin θ + G.z * cos θ + U)| < ε := by
    intro c G h1 h2 h3
    have hc := abs_cos_le_one θ
    have hs := abs_sin_le_one θ
    have m : ∀ a b : ℝ, |a| < ε/2 → |b| ≤ 1 → |a*b| < ε/2 := by
      intro a b ha hb
      rw [abs_mul]
      have := abs_nonneg a
      have := mul_le_mul_of_nonneg_left hb (abs_nonneg a)
      linarith
    refine ⟨?_, by linarith, ?_⟩
    · rw [show (c.x * cos θ - c.z * sin θ) - (G.x * cos θ - G.z * sin θ) = (c.x - G.x)*cos θ - (c.z - G.z)*sin θ by ring]
      have := abs_sub ((c.x - G.x)*cos θ) ((c.z - G.z)*sin θ)
      have := m _ _ h1 hc
      have := m _ _ h3 hs
      linarith
    · rw [show (c.x * sin θ + c.z * cos θ + U) - (G.x * sin θ + G.z * cos θ + U) = (c.x - G.x)*sin θ + (c.z - G.z)*cos θ by ring]
      have := abs_add_le ((c.x - G.x)*sin θ) ((c.z - G.z)*cos θ)
      have := m _ _ h1 hs
      have := m _ _ h3 hc
      linarith
  unfold ringScript
  rw [e1]
  simp only [List.map_cons, List.map_nil, ← hq, e2, e2']
  cases root
  · simp only [Bool.false_eq_true, if_false] at hF ⊢
    have hF' : F = skewTangField γ R (tan χ) q := by rw [hF]; ext <;> simp
    rw [script_fin]
    refine ⟨_, rfl, ?_⟩
    rw [← hF'] at b1 b2 b3
    exact hrot u F (by linarith) (by linarith) (by linarith)
  · simp only [if_true] at hF ⊢
    rw [show V3.fin u + V3.fin v = V3.fin (u + v) by ext <;> simp, script_fin]
    refine ⟨_, rfl, ?_⟩
    have t : ∀ a b c d : ℝ, |a - c| < ε/4 → |b - d| < ε/4 → |(a + b) - (c + d)| < ε/2 := by
      intro a b c d h1 h2
      rw [show (a + b) - (c + d) = (a - c) + (b - d) by ring]
      have := abs_add_le (a - c) (b - d)
      linarith
    rw [hF]
    exact hrot (u + v) _ (t _ _ _ _ b1 b1') (t _ _ _ _ b2 b2') (t _ _ _ _ b3 b3')

/-- C112: the two scripts agree: two concentric cylinders `(gamma,R)` and `(-gamma,r_hub)` of the second script are the cylinder
with a root vortex of the first one. -/
theorem C112_scripts_agree (θ χ γ R rh U : ℝ) (hR : 0 < R) (hrh : 0 < rh) (hcos : cos χ ≠ 0) (pts : List (V3 ℝ)) (i : ℕ) (p : V3 ℝ)
    (hi : pts[i]? = some p)
    (hoff : ∀ t s, 0 ≤ s → Tw2c true θ p ≠ wakePoint R (tan χ) t s) (hoffh : ∀ t s, 0 ≤ s → Tw2c true θ p ≠ wakePoint rh (tan χ) t s) :
    ∃ v : V3 ℝ, (superpScript true θ χ U [(γ, R), (-γ, rh)] pts)[i]? = some (V3.fin v) ∧
      (skewScript true true θ χ γ R rh U pts)[i]? = some (V3.fin v) := by
  obtain ⟨f, hf, hs⟩ := C112_superposition θ χ rh U hcos [(γ, R), (-γ, rh)] (by simp [hR, hrh]) pts i p hi (by
    intro c hc
    simp only [List.mem_cons, List.not_mem_nil, or_false] at hc
    rcases hc with rfl | rfl
    · exact hoff
    · exact hoffh)
  obtain ⟨u, v, h1, h2, h3⟩ := C112_root θ χ γ R rh U hR hrh hcos pts i p hi hoff hoffh
  have ha := hf (γ, R) (by simp)
  have hb := hf (-γ, rh) (by simp)
  simp only at ha hb
  rw [h2] at hb
  rw [skewScript_value θ χ γ R rh 0 hR hcos pts i p hi hoff _ rfl] at ha
  rw [skewScript_value θ χ γ R rh U hR hcos pts i p hi hoff _ rfl] at h1
  have ha := fin_inj3 _ _ (Option.some.inj ha)
  have hb := fin_inj3 _ _ (Option.some.inj hb)
  have h1 := fin_inj3 _ _ (Option.some.inj h1)
  refine ⟨_, hs, ?_⟩
  rw [h3]
  congr 2
  rw [← h1]
  simp only [List.map_cons, List.map_nil, List.sum_cons, List.sum_nil, ← ha, ← hb]
  ext <;> simp
  ring

/-! ### Non-vacuity -/

theorem offWake_upstream (R m : ℝ) (q : V3 ℝ) (h : q.z < 0) : ∀ t s, 0 ≤ s → q ≠ wakePoint R m t s := by
  intro t s hs e
  have hz : q.z = 0 + s * (1 / √(1 + m^2)) := congrArg V3.z e
  have : 0 ≤ s * (1 / √(1 + m^2)) := by positivity
  linarith

/-- two points of a plane upstream of a rotor yawed by 30 degrees -/
example : ∃ v : V3 ℝ, (skewScript true true (π/6) (π/5) (-0.4) 1 0.1 1 [⟨0, 0, -3⟩, ⟨0, 1, -3⟩])[1]? = some (V3.fin v) := by
  have h30 : cos (π/6) = √3/2 := cos_pi_div_six
  have h5 : cos (π/5) ≠ 0 := (cos_pos_of_mem_Ioo ⟨by have := pi_pos; linarith, by have := pi_pos; linarith⟩).ne'
  have hz : (Tw2c true (π/6) ⟨0, 1, -3⟩).z < 0 := by
    rw [tw2c_true, h30]
    have : 0 < √(3:ℝ) := by positivity
    simp only; linarith
  obtain ⟨u, v, -, -, h⟩ := C112_root (π/6) (π/5) (-0.4) 1 0.1 1 one_pos (by norm_num) h5 [⟨0, 0, -3⟩, ⟨0, 1, -3⟩] 1 ⟨0, 1, -3⟩ rfl
    (offWake_upstream _ _ _ hz) (offWake_upstream _ _ _ hz)
  exact ⟨_, h⟩

/-- a turbine yawed by -30 degrees agrees with the script one radius upstream of its hub along the wind -/
example (mini : (ℝ → Num) → ℝ) :
    let w := (WT.new 1 0 ⟨0,0,1⟩ ⟨0,1,0⟩ ⟨0,0,10⟩ none false "VC").run mini
      [.yaw (-(π/6)), .chi (some (.fin (π/5))), .loading { Ct := some [.fin 1], Lambda := some .pinf, gamma_t_Ct := some fun _ => [.fin (-1)] }]
    ∃ (u : List (V3 Num)) (v : V3 ℝ), (w.computeU [⟨0, 0, -1⟩] {}).1 = .ok u ∧ u[0]? = some (V3.fin v) ∧
      (skewScript true false (π/6) (π/5) (-1) 1 0.1 10 [⟨0, 0, -1⟩])[0]? = some (V3.fin v) := by
  intro w
  have hpi := pi_pos
  obtain ⟨b1, b2, b3, b4, b5, b6, b7, b8, b9, b10, b11, b12, b13, b14⟩ := loading_frame mini
    ((WT.new 1 0 ⟨0,0,1⟩ ⟨0,1,0⟩ ⟨0,0,10⟩ none false "VC").run mini [.yaw (-(π/6)), .chi (some (.fin (π/5)))])
    { Ct := some [.fin 1], Lambda := some .pinf, gamma_t_Ct := some fun _ => [.fin (-1)] }
  have h5 : cos (π/5) ≠ 0 := (cos_pos_of_mem_Ioo ⟨by linarith, by linarith⟩).ne'
  obtain ⟨u, hu, H⟩ := C112_turbine mini 1 0 ⟨0,0,10⟩ none false "VC" one_pos
    [.yaw (-(π/6)), .chi (some (.fin (π/5))), .loading { Ct := some [.fin 1], Lambda := some .pinf, gamma_t_Ct := some fun _ => [.fin (-1)] }]
    [⟨0, 0, -1⟩] {} (-1) (π/5) (π/6) 10 0.1 rfl rfl rfl rfl rfl (b14.trans rfl) (b12.trans rfl) rfl (by
      rw [computeU_state]
      have : w.chi = some (.fin (π/5)) := b13.trans rfl
      change some (usedChi w) = _
      unfold usedChi
      rw [this]) (by rw [abs_of_pos (by positivity)]; have := pi_gt_three; norm_num; linarith) h5
    (by first | exact b1.trans rfl | exact b2.trans rfl | exact b3.trans rfl | exact b4.trans rfl | exact b5.trans rfl | exact b6.trans rfl | exact b7.trans rfl | exact b8.trans rfl | exact b9.trans rfl | exact b10.trans rfl | exact b11.trans rfl)
    (by first | exact b2.trans rfl | exact b1.trans rfl | exact b3.trans rfl | exact b4.trans rfl)
    (by first | exact b11.trans rfl | exact b10.trans rfl)
  obtain ⟨v, h1, h2⟩ := H 0 ⟨0, 0, -1⟩ rfl (offWake_upstream _ _ _ (by
    rw [tw2c_true, cos_pi_div_six]
    have : 0 < √(3:ℝ) := by positivity
    simp only; linarith))
  exact ⟨u, v, hu, h1, h2⟩

end Wiz
