import Verif.Lemmas.Turbine

/-! # Properties of the turbine's frames, yaw and skew angle (C02, C05–C08)

Every statement is about an object built by the constructor and driven through an arbitrary list of
method calls (`WT.new … |>.run`), including calls that raise. -/
namespace Wiz
open Classical

/-- the default vectors of the constructor (z downwind, y up) are orthonormal -/
theorem default_orthonormal : Orthonormal ⟨0, 0, 1⟩ ⟨0, 1, 0⟩ := ⟨by simp [V3.dot], by simp [V3.dot], by simp [V3.dot]⟩
/-- the x-downwind, z-up convention is orthonormal -/
theorem fast_orthonormal : Orthonormal ⟨1, 0, 0⟩ ⟨0, 0, 1⟩ := ⟨by simp [V3.dot], by simp [V3.dot], by simp [V3.dot]⟩

/-! ### C02 -/

/-- C02: whatever the history, going to the cylinder frame and back (in either order) changes
nothing, and lengths are preserved. -/
theorem C02_round_trip (mini : (ℝ → Num) → ℝ) (R : ℝ) (hub shaft vert U0 : V3 ℝ) (L : Option Num) (G : Bool) (M : String)
    (ho : Orthonormal shaft vert) (h : List Op) (x : V3 ℝ) :
    let T := ((WT.new R hub shaft vert U0 L G M).run mini h).T_c2g
    transform T (transformT T x) = x ∧ transformT T (transform T x) = x ∧
    V3.norm (transform T x) = V3.norm x ∧ V3.norm (transformT T x) = V3.norm x := by
  intro T
  have hi := frame_run mini shaft vert R h _ (frame_new R hub shaft vert U0 L G M)
  obtain ⟨a, s, e1, -, -, -, e5, -, -, e8, e9⟩ := frame_cols shaft vert R ho _ hi
  have eT : T = M3.ofCols (V3.cross vert s) vert s := by rw [← e9]; exact e1
  rw [eT]
  obtain ⟨r1, r2⟩ := ortho_round vert s x ho.vert e5 e8
  refine ⟨r1, r2, ortho_norm vert s x ho.vert e5 e8, ?_⟩
  rw [← ortho_norm vert s (transformT _ x) ho.vert e5 e8, r1]

/-- C02 for velocities held as floats: a finite velocity makes the round trip exactly. -/
theorem C02_round_trip_float (mini : (ℝ → Num) → ℝ) (R : ℝ) (hub shaft vert U0 : V3 ℝ) (L : Option Num) (G : Bool) (M : String)
    (ho : Orthonormal shaft vert) (h : List Op) (x : V3 ℝ) :
    let T := M3.fin ((WT.new R hub shaft vert U0 L G M).run mini h).T_c2g
    transform T (transformT T (V3.fin x)) = V3.fin x ∧ transformT T (transform T (V3.fin x)) = V3.fin x := by
  intro T
  obtain ⟨r1, r2, -, -⟩ := C02_round_trip mini R hub shaft vert U0 L G M ho h x
  have f1 : ∀ (S : M3 ℝ) (y : V3 ℝ), transform (M3.fin S) (V3.fin y) = V3.fin (transform S y) := fun S y => fin_mulVec S y
  have f2 : ∀ (S : M3 ℝ) (y : V3 ℝ), transformT (M3.fin S) (V3.fin y) = V3.fin (transformT S y) := by
    intro S y; ext <;> simp [transformT, M3.fin]
  constructor
  · show transform (M3.fin _) (transformT (M3.fin _) (V3.fin x)) = _
    rw [f2, f1]; exact congrArg V3.fin r1
  · show transformT (M3.fin _) (transform (M3.fin _) (V3.fin x)) = _
    rw [f1, f2]; exact congrArg V3.fin r2

example (mini : (ℝ → Num) → ℝ) (x : V3 ℝ) :=
  C02_round_trip mini 50 0 ⟨0,0,1⟩ ⟨0,1,0⟩ ⟨0,0,10⟩ none false "VC" default_orthonormal [.yaw 1, .eval [0] {}, .wind ⟨1,0,8⟩] x

/-! ### C05 -/

/-- C05: after any history the shaft is the zero-yaw shaft turned about the vertical by the *last*
yaw requested; turns do not accumulate. -/
theorem C05_last_yaw (mini : (ℝ → Num) → ℝ) (R : ℝ) (hub shaft vert U0 : V3 ℝ) (L : Option Num) (G : Bool) (M : String) (h : List Op) :
    let w := (WT.new R hub shaft vert U0 L G M).run mini h
    w.yaw_pos = lastYaw h ∧ w.e_shaft_g = turn vert (lastYaw h) shaft ∧ w.e_vert_g = vert ∧ w.e_shaft_g0 = shaft ∧ w.R = R := by
  intro w
  have hi := frame_run mini shaft vert R h _ (frame_new R hub shaft vert U0 L G M)
  have hy : w.yaw_pos = lastYaw h := yaw_run_new mini h _ rfl
  refine ⟨hy, ?_, hi.e_vert_g, hi.e_shaft_g0, hi.R⟩
  have := hi.e_shaft_g
  rw [turn_eq] at this
  rw [← hy]; exact this

/-- C05: the shaft stays a unit vector orthogonal to the vertical. -/
theorem C05_unit_horizontal (mini : (ℝ → Num) → ℝ) (R : ℝ) (hub shaft vert U0 : V3 ℝ) (L : Option Num) (G : Bool) (M : String)
    (ho : Orthonormal shaft vert) (h : List Op) :
    let w := (WT.new R hub shaft vert U0 L G M).run mini h
    V3.dot w.e_shaft_g w.e_shaft_g = 1 ∧ V3.dot w.e_shaft_g vert = 0 := by
  intro w
  obtain ⟨-, e, -⟩ := C05_last_yaw mini R hub shaft vert U0 L G M h
  have := turn_ortho shaft vert (lastYaw h) ho
  rw [show w.e_shaft_g = _ from e]
  exact ⟨this.shaft, this.orth⟩

example : lastYaw [.yaw 3, .wind ⟨0,0,1⟩, .yaw 2, .position 0] = 2 := by simp [lastYaw, Op.isYaw]

/-! ### C06 -/

/-- C06: in any reachable state, turning the zero-yaw shaft about the vertical by `yaw_wind` gives the
unit horizontal wind direction; `yaw_wind` is a finite angle in (-π,π]. -/
theorem C06_yaw_wind (mini : (ℝ → Num) → ℝ) (R : ℝ) (hub shaft vert U0 : V3 ℝ) (L : Option Num) (G : Bool) (M : String)
    (ho : Orthonormal shaft vert) (h : List Op) :
    let w := (WT.new R hub shaft vert U0 L G M).run mini h
    horizontal vert w.U0_g ≠ 0 →
    ∃ θ : ℝ, w.yawWind = .fin θ ∧ -Real.pi < θ ∧ θ ≤ Real.pi ∧
      turn vert θ shaft = V3.smul (1 / V3.norm (horizontal vert w.U0_g)) (horizontal vert w.U0_g) := by
  intro w hU
  exact yawWind_eq shaft vert R ho w (frame_run mini shaft vert R h _ (frame_new R hub shaft vert U0 L G M)) hU

/-- the wind after a history: the one last set -/
theorem C06_current_wind (mini : (ℝ → Num) → ℝ) (w : WT) (h : List Op) (U : V3 ℝ) (h' : List Op)
    (hn : ∀ o ∈ h', ∀ V, o ≠ .wind V) : (w.run mini (h ++ .wind U :: h')).U0_g = U := by
  have key : ∀ (l : List Op) (w : WT), (∀ o ∈ l, ∀ V, o ≠ .wind V) → (w.run mini l).U0_g = w.U0_g := by
    intro l
    induction l with
    | nil => intro w _; rfl
    | cons o l ih =>
      intro w hl
      show ((w.step mini o).run mini l).U0_g = _
      rw [ih _ (fun o ho => hl o (List.mem_cons_of_mem _ ho))]
      cases o with
      | wind V => exact absurd rfl (hl _ (List.mem_cons_self ..) V)
      | loading a => exact (loading_frame mini w a).2.2.2.2.2.2.2.2.2.2.1
      | eval pts o => simp only [WT.step]; rw [computeU_state]
      | _ => rfl
  have : w.run mini (h ++ .wind U :: h') = ((w.run mini h).updateWind U).run mini h' := by
    simp [WT.run, List.foldl_append, WT.step]
  rw [this, key h' _ hn]
  rfl

/-- with the wind exactly opposed to the zero-yaw shaft, `yaw_wind` is π (the `sign==0` branch) -/
theorem C06_opposed (mini : (ℝ → Num) → ℝ) (R : ℝ) (hub shaft vert : V3 ℝ) (L : Option Num) (G : Bool) (M : String)
    (ho : Orthonormal shaft vert) (k : ℝ) (hk : 0 < k) :
    ((WT.new R hub shaft vert (V3.smul (-k) shaft) L G M).run mini []).yawWind = .fin Real.pi := by
  have hh : horizontal vert (V3.smul (-k) shaft) = V3.smul (-k) shaft := by
    unfold horizontal
    rw [dot_smul_left, ho.orth]; ext <;> simp
  have hne : V3.smul (-k) shaft ≠ 0 := by
    intro e
    have := congrArg (fun x => V3.dot x shaft) e
    simp only [dot_smul_left, ho.shaft] at this
    simp [V3.dot] at this; linarith
  obtain ⟨θ, h1, h2, h3, h4⟩ := C06_yaw_wind mini R hub shaft vert (V3.smul (-k) shaft) L G M ho [] (by
    show horizontal vert (V3.smul (-k) shaft) ≠ 0; rw [hh]; exact hne)
  rw [h1]
  change turn vert θ shaft = V3.smul (1 / V3.norm (horizontal vert (V3.smul (-k) shaft))) (horizontal vert (V3.smul (-k) shaft)) at h4
  have hn : V3.norm (V3.smul (-k) shaft) = k := by
    rw [norm_eq_sqrt_dot, dot_smul_left, dot_smul_right, ho.shaft]
    rw [show -k * (-k * 1) = k^2 by ring, Real.sqrt_sq hk.le]
  rw [hh, hn] at h4
  have h5 := congrArg (fun x => V3.dot x shaft) h4
  simp only [turn_horizontal shaft vert θ ho, dot_add_left, dot_smul_left, ho.shaft,
    (cross_unit vert shaft ho.vert ho.shaft ho.orth).2.2] at h5
  have hc : Real.cos θ = -1 := by
    have : 1 / k * (-k * 1) = -1 := by field_simp
    linarith
  congr 1
  have hs : Real.sin θ = 0 := by nlinarith [Real.sin_sq_add_cos_sq θ]
  have hp := Real.pi_pos
  rcases lt_trichotomy θ 0 with h0 | h0 | h0
  · have := Real.sin_neg_of_neg_of_neg_pi_lt h0 h2; linarith
  · rw [h0, Real.cos_zero] at hc; linarith
  · rcases lt_or_eq_of_le h3 with h6 | h6
    · have := Real.sin_pos_of_pos_of_lt_pi h0 h6; linarith
    · exact h6

example : horizontal ⟨0,1,0⟩ ⟨3, 1, 4⟩ ≠ 0 := by
  intro h; have := congrArg V3.x h; simp [horizontal, V3.dot] at this

/-! ### C07 -/

/-- C07 (all winds but the exactly opposed one): in any reachable state with horizontal wind, turning
the wind direction about the vertical by `yaw_error` gives the shaft, and `yaw_error` is
`yaw_pos - yaw_wind` modulo 2π.  Missing: the opposed wind, see `C07_opposed_refuted`. -/
theorem C07_yaw_error_partial (mini : (ℝ → Num) → ℝ) (R : ℝ) (hub shaft vert U0 : V3 ℝ) (L : Option Num) (G : Bool) (M : String)
    (ho : Orthonormal shaft vert) (h : List Op) :
    let w := (WT.new R hub shaft vert U0 L G M).run mini h
    let e_w := V3.smul (1 / V3.norm w.U0_g) w.U0_g
    w.U0_g ≠ 0 → V3.dot w.U0_g vert = 0 → w.e_shaft_g ≠ -e_w →
    ∃ θ yw : ℝ, w.yawError = .fin θ ∧ -Real.pi < θ ∧ θ < Real.pi ∧ turn vert θ e_w = w.e_shaft_g ∧
      w.yawWind = .fin yw ∧ ∃ k : ℤ, θ = lastYaw h - yw + 2 * Real.pi * k := by
  intro w e_w hU hv hne
  have hi := frame_run mini shaft vert R h _ (frame_new R hub shaft vert U0 L G M)
  have hn := norm_pos hU
  obtain ⟨y1, y2, y3, -⟩ := C05_last_yaw mini R hub shaft vert U0 L G M h
  have hs : Orthonormal w.e_shaft_g vert := by rw [show w.e_shaft_g = _ from y2]; exact turn_ortho shaft vert _ ho
  have he : Orthonormal e_w vert := ⟨dot_normalised _ hU, ho.vert, by simp only [e_w, dot_smul_left, hv, mul_zero]⟩
  obtain ⟨d1, d2⟩ := plane_decomp e_w vert w.e_shaft_g he hs.orth
  rw [hs.shaft] at d2
  obtain ⟨θ, h1, h2, h3, h4, h5, h6⟩ := signed_angle _ _ 1 d2 one_pos
  have hturn : turn vert θ e_w = w.e_shaft_g := by rw [turn_horizontal e_w vert θ he, h2, h3, ← d1]
  have hcond : V3.dot (V3.cross e_w w.e_shaft_g) vert ≠ 0 ∨ V3.dot w.e_shaft_g e_w = 1 := by
    by_contra hc
    push Not at hc
    obtain ⟨a1, a2⟩ := hc
    rw [a1] at d2
    have : V3.dot w.e_shaft_g e_w = -1 := by
      have : (V3.dot w.e_shaft_g e_w - 1) * (V3.dot w.e_shaft_g e_w + 1) = 0 := by linarith
      rcases mul_eq_zero.mp this with h | h
      · exact absurd (by linarith) a2
      · linarith
    rw [a1, this] at d1
    apply hne
    rw [d1]
    ext <;> simp
  have hsign := h6 hcond
  rw [one_mul] at hsign
  have hval : w.yawError = .fin θ := by
    rw [← hsign]
    unfold WT.yawError
    simp only
    rw [show w.e_vert_g = vert from y3, sdiv_fin _ hn.ne']
    simp only [fin_cross, fin_dot]
    rw [dot_comm w.e_shaft_g]
  have hhor : horizontal vert w.U0_g = w.U0_g := by
    unfold horizontal; rw [hv]; ext <;> simp
  obtain ⟨yw, w1, -, -, w4⟩ := C06_yaw_wind mini R hub shaft vert U0 L G M ho h (by
    show horizontal vert w.U0_g ≠ 0; rw [hhor]; exact hU)
  change turn vert yw shaft = V3.smul (1 / V3.norm (horizontal vert w.U0_g)) (horizontal vert w.U0_g) at w4
  rw [hhor] at w4
  refine ⟨θ, yw, hval, h4, lt_of_le_of_ne h5 ?_, hturn, w1, ?_⟩
  · intro hpi
    rw [hpi] at h2 h3
    rw [Real.cos_pi] at h2
    rw [Real.sin_pi] at h3
    rcases hcond with hc | hc
    · exact hc h3.symm
    · linarith
  · have e1 : turn vert (θ + yw) shaft = turn vert (lastYaw h) shaft := by
      rw [← turn_turn shaft vert θ yw ho, w4, ← y2]; exact hturn
    obtain ⟨k, hk⟩ := turn_inj shaft vert _ _ ho e1
    exact ⟨k, by linarith⟩

/-- C07 is false for a wind exactly opposed to the shaft: `yaw_error` is then 0, for every orthonormal
turbine and every history. -/
theorem C07_opposed_refuted (mini : (ℝ → Num) → ℝ) (R : ℝ) (hub shaft vert U0 : V3 ℝ) (L : Option Num) (G : Bool) (M : String)
    (ho : Orthonormal shaft vert) (h : List Op) :
    let w := (WT.new R hub shaft vert U0 L G M).run mini h
    let e_w := V3.smul (1 / V3.norm w.U0_g) w.U0_g
    w.U0_g ≠ 0 → w.e_shaft_g = -e_w → w.yawError = .fin 0 ∧ turn vert 0 e_w ≠ w.e_shaft_g := by
  intro w e_w hU hop
  have hn := norm_pos hU
  have he : V3.dot e_w e_w = 1 := dot_normalised _ hU
  constructor
  · unfold WT.yawError
    simp only
    rw [sdiv_fin _ hn.ne', hop]
    have e0 : V3.cross e_w (-e_w) = 0 := by
      ext
      · simp [V3.cross]; ring
      · simp [V3.cross]; ring
      · simp [V3.cross]; ring
    have e1 : V3.dot e_w (-e_w) = -1 := by
      have : V3.dot e_w (-e_w) = -V3.dot e_w e_w := by simp [V3.dot]; ring
      rw [this, he]
    rw [fin_cross, fin_dot, fin_dot]
    change Num.sign (Num.fin (V3.dot (V3.cross e_w (-e_w)) w.e_vert_g)) * Num.arccos (.fin (V3.dot e_w (-e_w))) = _
    rw [e0, e1]
    simp [V3.dot, Num.sign, Num.arccos]
  · intro e
    rw [hop] at e
    have := congrArg (fun x => V3.dot x e_w) e
    simp only [turn] at this
    simp only [Real.cos_zero, Real.sin_zero, sub_self, zero_mul, dot_add_left, dot_smul_left, he] at this
    have e2 : V3.dot (-e_w) e_w = -1 := by
      have : V3.dot (-e_w) e_w = -V3.dot e_w e_w := by simp [V3.dot]; ring
      rw [this, he]
    rw [e2] at this
    linarith

/-- the opposed wind is reachable with the default vectors -/
example (mini : (ℝ → Num) → ℝ) : ((WT.new 50 0 ⟨0,0,1⟩ ⟨0,1,0⟩ ⟨0,0,-10⟩ none false "VC").run mini []).yawError = .fin 0 := by
  refine (C07_opposed_refuted mini 50 0 ⟨0,0,1⟩ ⟨0,1,0⟩ ⟨0,0,-10⟩ none false "VC" default_orthonormal [] ?_ ?_).1
  · intro h
    have := congrArg V3.z h
    change (-10 : ℝ) = 0 at this
    norm_num at this
  · have hn : V3.norm ⟨0,0,-10⟩ = 10 := by
      unfold V3.norm
      rw [show (0:ℝ)^2 + 0^2 + (-10)^2 = 10^2 by norm_num, Real.sqrt_sq (by norm_num)]
    change M3.mulVec (rotMatAxisAngle ⟨0,1,0⟩ 0) ⟨0,0,1⟩ = -V3.smul (1 / V3.norm ⟨0,0,-10⟩) ⟨0,0,-10⟩
    rw [hn]
    ext <;> simp [M3.mulVec, rotMatAxisAngle]

/-! ### C08 -/

/-- C08: in any reachable state where no skew angle is stored, a call of `compute_u` stores the angle χ
for which the wind, expressed in the cylinder frame, is `|u_h| (sin χ, 0, cos χ)` plus its vertical
part on the y axis: the wake axis `x = tan(χ) z` follows the horizontal wind. -/
theorem C08_wake_follows_wind (mini : (ℝ → Num) → ℝ) (R : ℝ) (hub shaft vert U0 : V3 ℝ) (L : Option Num) (G : Bool) (M : String)
    (ho : Orthonormal shaft vert) (h : List Op) (pts : List (V3 ℝ)) (o : Opts) :
    let w := (WT.new R hub shaft vert U0 L G M).run mini h
    let uh := horizontal vert w.U0_g
    uh ≠ 0 → w.chi = none →
    ∃ χ : ℝ, (w.computeU pts o).2.chi = some (.fin χ) ∧
      transformT w.T_c2g w.U0_g = ⟨V3.norm uh * Real.sin χ, V3.dot w.U0_g vert, V3.norm uh * Real.cos χ⟩ ∧
      ∃ yw : ℝ, w.yawWind = .fin yw ∧ χ = yw - lastYaw h := by
  intro w uh hU hc
  have hi := frame_run mini shaft vert R h _ (frame_new R hub shaft vert U0 L G M)
  obtain ⟨χ, θ, h1, h2, h3, h4⟩ := chiAuto_eq shaft vert R ho w hi hU
  refine ⟨χ, ?_, h4, θ, h2, ?_⟩
  · rw [computeU_state]; simp only [hc, h1]
  · rw [h3, yaw_run_new mini h _ rfl]

/-- C08: for horizontal wind pointing downstream of the rotor plane, the wake axis direction is the
wind: the wind in the cylinder frame is a positive multiple of `(tan χ, 0, 1)`, with the slope `m` used
by the skewed-cylinder routines. -/
theorem C08_slope (mini : (ℝ → Num) → ℝ) (R : ℝ) (hub shaft vert U0 : V3 ℝ) (L : Option Num) (G : Bool) (M : String)
    (ho : Orthonormal shaft vert) (h : List Op) (pts : List (V3 ℝ)) (o : Opts) :
    let w := (WT.new R hub shaft vert U0 L G M).run mini h
    V3.dot w.U0_g vert = 0 → 0 < V3.dot w.U0_g w.e_shaft_g → w.chi = none →
    ∃ (χ : Num) (m k : ℝ), (w.computeU pts o).2.chi = some χ ∧ Num.tan χ = .fin m ∧ 0 < k ∧
      transformT w.T_c2g w.U0_g = V3.smul k ⟨m, 0, 1⟩ := by
  intro w hv hs hc
  have hhor : horizontal vert w.U0_g = w.U0_g := by
    unfold horizontal; rw [hv]; ext <;> simp
  have hne : w.U0_g ≠ 0 := by
    intro e; rw [e] at hs; simp [V3.dot] at hs
  obtain ⟨χ, h1, h2, -⟩ := C08_wake_follows_wind mini R hub shaft vert U0 L G M ho h pts o (by
    show horizontal vert w.U0_g ≠ 0; rw [hhor]; exact hne) hc
  change transformT w.T_c2g w.U0_g = ⟨V3.norm (horizontal vert w.U0_g) * Real.sin χ, V3.dot w.U0_g vert,
    V3.norm (horizontal vert w.U0_g) * Real.cos χ⟩ at h2
  rw [hhor, hv] at h2
  have hi := frame_run mini shaft vert R h _ (frame_new R hub shaft vert U0 L G M)
  obtain ⟨a, s, e1, -, e3, -⟩ := frame_cols shaft vert R ho w hi
  have hz : V3.dot w.U0_g w.e_shaft_g = V3.norm w.U0_g * Real.cos χ := by
    have := congrArg V3.z h2
    rw [e1, transformT_cols] at this
    rw [hi.e_shaft_g, turn_eq, ← e3]; exact this
  have hn := norm_pos hne
  have hcos : 0 < Real.cos χ := by
    rw [hz] at hs
    by_contra hneg
    nlinarith
  refine ⟨.fin χ, Real.tan χ, V3.norm w.U0_g * Real.cos χ, h1, by simp [Num.tan, hcos.ne'], by positivity, ?_⟩
  rw [h2, Real.tan_eq_sin_div_cos]
  ext
  · simp only [V3.smul_x]; field_simp
  · simp
  · simp

example (mini : (ℝ → Num) → ℝ) : ((WT.new 50 0 ⟨0,0,1⟩ ⟨0,1,0⟩ ⟨3,0,10⟩ none false "VC").run mini [.yaw 0.1]).chi = none := rfl

end Wiz
