import Verif.Props.NoSwirlStations
/-! # C145: the induced velocity at any radius reproduces the prescribed thrust, within the resolution of the stations -/
set_option autoImplicit false
namespace Wiz
open Spec Classical Real
noncomputable section

/-- the station next to a radius -/
theorem find_station (n : ℕ) (x : ℕ → ℝ) (ρ : ℝ) (hn : 2 ≤ n) (hinc : ∀ i j, i < j → j < n → x i < x j) (h0 : x 0 < ρ) (h1 : ρ < x (n-1)) (hne : ∀ j < n, ρ ≠ x j) :
    ∃ k, 0 < k ∧ k < n ∧ (∀ j < k, x j < ρ) ∧ ∀ j < n, k ≤ j → ρ < x j := by
  have hex : ∃ k, k < n ∧ ρ < x k := ⟨n-1, by omega, h1⟩
  obtain ⟨f1, f2⟩ := Nat.find_spec hex
  refine ⟨Nat.find hex, ?_, f1, ?_, ?_⟩
  · rcases Nat.eq_zero_or_pos (Nat.find hex) with h | h
    · rw [h] at f2; exact absurd (h0.trans f2) (lt_irrefl _)
    · exact h
  · intro j hj
    have hjn : j < n := by omega
    have := Nat.find_min hex hj
    rcases lt_trichotomy (x j) ρ with h | h | h
    · exact h
    · exact absurd h.symm (hne j hjn)
    · exact absurd ⟨hjn, h⟩ this
  · intro j hj hk
    rcases Nat.eq_or_lt_of_le hk with h | h
    · rw [← h]; exact f2
    · exact f2.trans (hinc _ _ h hj)

/-- the stations of `nCyl=n` -/
theorem spread_stations (n : ℕ) (hn : 2 ≤ n) (R : ℝ) (hR : 0 < R) (x : ℕ → ℝ) (hx : ∀ i, x i = (0.005 + i * (0.99 / ((n:ℝ) - 1))) * R) :
    0 < x 0 ∧ (∀ i j, i < j → j < n → x i < x j) ∧ x 0 = 0.005 * R ∧ x (n-1) = 0.995 * R ∧ (∀ i < n, 0.005 * R ≤ x i ∧ x i ≤ 0.995 * R) ∧
      ∀ k, 0 < k → x k - x (k-1) = 0.99 * R / ((n:ℝ) - 1) := by
  have hn1 : (0:ℝ) < (n:ℝ) - 1 := by
    have : (2:ℝ) ≤ n := by exact_mod_cast hn
    linarith
  obtain ⟨-, s2, s3⟩ := stations n hn R hR
  have hx0 : 0 < x 0 := by rw [hx]; exact s2
  have hinc : ∀ i j, i < j → j < n → x i < x j := fun i j hij hj => by rw [hx, hx]; exact s3 i j hij hj
  have hxe : x 0 = 0.005 * R := by rw [hx]; simp
  have hxl : x (n-1) = 0.995 * R := by
    rw [hx, Nat.cast_sub (by omega)]
    push_cast
    field_simp
    norm_num
  have hxm : ∀ i < n, 0.005 * R ≤ x i ∧ x i ≤ 0.995 * R := by
    intro i hi
    constructor
    · rw [← hxe]
      rcases Nat.eq_zero_or_pos i with rfl | h
      · exact le_rfl
      · exact (hinc 0 i h hi).le
    · rw [← hxl]
      rcases Nat.lt_or_ge i (n-1) with h | h
      · exact (hinc i _ h (by omega)).le
      · rw [show i = n - 1 by omega]
  have hxs : ∀ k, 0 < k → x k - x (k-1) = 0.99 * R / ((n:ℝ) - 1) := by
    intro k hk
    rw [hx, hx, Nat.cast_sub (by omega)]
    push_cast
    field_simp
    ring
  exact ⟨hx0, hinc, hxe, hxl, hxm, hxs⟩

/-- C145: a turbine loaded with thrust coefficients given at any radii (piecewise-linear function `T` through them) and spread by the program over `nCyl=n≥2` stations, tip-speed ratio of 20 or
more, or infinite. At every radius `ρ` between 0.5% and 99.5% of the rotor radius (off the stations) the air in the rotor plane is slowed down by `|U0| a` with `a ≤ 1/2`, and the thrust coefficient
`4a(1-a)` of that slow-down is the prescribed one `T(ρ)` up to the spacing of the stations times the slope `S` of `T` and the convection term of the solver. -/
theorem C145_noswirl (mini : (ℝ → Num) → ℝ) (R : ℝ) (hub shaft vert U0 : V3 ℝ) (L : Option Num) (gr : Bool)
    (M : String) (ho : Orthonormal shaft vert) (hR : 0 < R) (h : List Op) (pts : List (V3 ℝ)) (hp : pts ≠ []) (o : Opts) (hnw : o.no_wake = false)
    (hlo : o.longi = false) (hro : o.root = false) (hta : o.tang = true)
    (n : ℕ) (hn : 2 ≤ n) (r Ct : List ℝ) (hr : r ≠ []) (hincr : r.Pairwise (· < ·)) (hlen : Ct.length = r.length) (T : ℝ → ℝ) (hT : Interpolates r Ct T)
    (C S : ℝ) (hC : C ≤ Ctc) (hTC : ∀ y, 0.005 * R ≤ y → y ≤ 0.995 * R → 0 ≤ T y ∧ T y ≤ C)
    (hS : ∀ y z, 0.005 * R ≤ y → y ≤ z → z ≤ 0.995 * R → |T z - T y| ≤ S * (z - y)) (Λ : Num) (Ω V : ℝ) :
    let a : LoadArgs := { r := some r, Ct := some (Ct.map .fin), Lambda := some Λ, nCyl := some n }
    let w := (WT.new R hub shaft vert U0 L gr M).run mini (h ++ [.loading a])
    let s := w.e_shaft_g
    V = V3.norm w.U0_g → 0 < V → ((∃ lam, Λ = .fin lam ∧ Ω = lam * V / R) ∨ Λ = .pinf ∧ Ω = 800) → 20 ≤ Ω * R / V →
    C + V^2 * C^2/(16*π*Ω^3*(0.005*R + 0.495*R/((n:ℝ)-1))^2) ≤ 1 →
    o.ground.getD w.Ground = false → o.Model.getD w.Model = "VC" →
    ∀ chi, (w.computeU pts o).2.chi = some chi → ¬ (Num.fin 1e-7 < Num.abs chi) →
    ∃ u, (w.computeU pts o).1 = .ok u ∧ ∀ (i : ℕ) (p : V3 ℝ), pts[i]? = some p → ∃ v, u[i]? = some (V3.fin v) ∧
      ∀ ρ, V3.dot (p - w.r_hub) s = 0 → ρ = axisDist s w.r_hub p → 0.005 * R < ρ → ρ < 0.995 * R → (∀ j < n, 1e-8 * R ≤ |ρ - (0.005 + j * (0.99 / ((n:ℝ) - 1))) * R|) →
        ∃ A ≤ 1/2, V3.dot (v - if o.only_ind then 0 else w.U0_g) s = -(V * A) ∧
          |4 * A * (1 - A) - T ρ| ≤ S * (0.99 * R / ((n:ℝ) - 1)) + V^2 * C^2/(16*π*Ω^3*ρ^2) := by
  intro a w s hV hV0 hΛ hL hrad hg hM chi hchi hsk
  have hΩ : 0 < Ω := by
    by_contra hneg
    have : Ω * R / V ≤ 0 := div_nonpos_of_nonpos_of_nonneg (mul_nonpos_of_nonpos_of_nonneg (not_lt.mp hneg) hR.le) hV0.le
    linarith
  have hn1 : (0:ℝ) < (n:ℝ) - 1 := by
    have : (2:ℝ) ≤ n := by exact_mod_cast hn
    linarith
  obtain ⟨x, hx⟩ : ∃ x : ℕ → ℝ, ∀ i, x i = (0.005 + i * (0.99 / ((n:ℝ) - 1))) * R := ⟨_, fun _ => rfl⟩
  obtain ⟨hx0, hinc, hxe, hxl, hxm, hxs⟩ := spread_stations n hn R hR x hx
  obtain ⟨o1, o2⟩ := rcyl_outside n x R hn hinc
  have hpos : ∀ i < n, 0 < x i := fun i hi => lt_of_lt_of_le (by positivity) (hxm i hi).1
  have hpi := pi_pos
  have hb := ctNoSwirl_bounds n x (fun i => T (x i)) R V Ω C hΩ hn hx0 hinc (fun i hi => hTC _ (hxm i hi).1 (hxm i hi).2)
  have hrc0 : ∀ k < n, 0.005*R + 0.495*R/((n:ℝ)-1) ≤ rcyl n x R k := by
    have e0 : rcyl n x R 0 = 0.005*R + 0.495*R/((n:ℝ)-1) := by
      have := hxs 1 one_pos
      simp only [Nat.sub_self] at this
      unfold rcyl
      rw [if_neg (by omega), if_neg (by omega), zero_add]
      have h2 : 0.495*R/((n:ℝ)-1) = (0.99 * R / ((n:ℝ) - 1))/2 := by ring
      rw [h2]
      linarith
    intro k
    induction k with
    | zero => intro _; rw [e0]
    | succ k ih => intro hk; exact (ih (by omega)).trans (o2 k hk).le
  have hC0 : 0 ≤ C := by
    have := hTC (x 0) (hxm 0 (by omega)).1 (hxm 0 (by omega)).2
    linarith
  have hE1 : ∀ k < n, ctNoSwirl n x (fun i => T (x i)) R V Ω k ≤ 1 := by
    intro k hk
    have h1 := (hb k hk).2
    obtain ⟨t0, t1⟩ := hTC _ (hxm k hk).1 (hxm k hk).2
    have h2 : V^2 * (T (x k))^2/(16*π*Ω^3*(rcyl n x R k)^2) ≤ V^2 * C^2/(16*π*Ω^3*(0.005*R + 0.495*R/((n:ℝ)-1))^2) := by
      have := hrc0 k hk
      gcongr
    linarith
  obtain ⟨u, hu, H⟩ := C144_spread mini R hub shaft vert U0 L gr M ho hR h pts hp o hnw hlo hro hta n r Ct hr hincr hlen T hT x hx
    (ctNoSwirl n x (fun i => T (x i)) R V Ω) (fun k => (1 - √(1 - ctNoSwirl n x (fun i => T (x i)) R V Ω k))/2) Λ Ω V hn hV hV0 hΛ hL
    (fun i hi => (hTC _ (hxm i hi).1 (hxm i hi).2).2.trans hC) (fun k hk => rfl) hE1 (by
      intro k hk
      have := sq_sqrt (sub_nonneg.mpr (hE1 k hk))
      generalize ctNoSwirl n x (fun i => T (x i)) R V Ω k = E at *
      exact ⟨by nlinarith, by linarith [sqrt_nonneg (1 - E)]⟩) hg hM chi hchi hsk
  refine ⟨u, hu, fun i p hpi' => ?_⟩
  obtain ⟨v, v1, v2, -⟩ := H i p hpi'
  refine ⟨v, v1, fun ρ hpl hρ hρ0 hρ1 hoff => ?_⟩
  have hoff' : ∀ j < n, 1e-8 * x j ≤ |ρ - x j| := by
    intro j hj
    have h1 := hoff j hj
    rw [← hx] at h1
    have := (hxm j hj).2
    refine le_trans ?_ h1
    have : x j ≤ R := by linarith
    gcongr
  obtain ⟨k, k0, k1, k2, k3⟩ := find_station n x ρ hn hinc (by rw [hxe]; exact hρ0) (by rw [hxl]; exact hρ1) (by
    intro j hj e
    have h1 := hoff' j hj
    rw [e, sub_self, abs_zero] at h1
    have := hpos j hj
    nlinarith)
  have hv := v2 k k1.le hpl (by rw [← hρ]; exact hoff') (by rw [← hρ]; exact k2) (by rw [← hρ]; exact k3)
  rw [if_pos k1] at hv
  have hE := hE1 k k1
  obtain ⟨b1, b2⟩ := hb k k1
  have hsq := sq_sqrt (sub_nonneg.mpr hE)
  refine ⟨_, ?_, hv, ?_⟩
  · linarith [sqrt_nonneg (1 - ctNoSwirl n x (fun i => T (x i)) R V Ω k)]
  · have e4 : 4 * ((1 - √(1 - ctNoSwirl n x (fun i => T (x i)) R V Ω k))/2) * (1 - (1 - √(1 - ctNoSwirl n x (fun i => T (x i)) R V Ω k))/2) = ctNoSwirl n x (fun i => T (x i)) R V Ω k := by
      nlinarith
    rw [e4]
    have hρp : 0 < ρ := lt_trans (by positivity) hρ0
    have hρx := k3 k k1 le_rfl
    have hrk := o1 k k1
    obtain ⟨t0, t1⟩ := hTC _ (hxm k k1).1 (hxm k k1).2
    have g1 : V^2 * (T (x k))^2/(16*π*Ω^3*(rcyl n x R k)^2) ≤ V^2 * C^2/(16*π*Ω^3*ρ^2) := by
      have := hρx.le.trans hrk.le
      gcongr
    have g2 : V^2 * C^2/(16*π*Ω^3*(rcyl n x R k)^2) ≤ V^2 * C^2/(16*π*Ω^3*ρ^2) := by
      have := hρx.le.trans hrk.le
      gcongr
    have hl := hS ρ (x k) hρ0.le hρx.le (hxm k k1).2
    have hS0 : 0 ≤ S := by
      by_contra hneg
      have := mul_neg_of_neg_of_pos (not_le.mp hneg) (sub_pos.mpr hρx)
      linarith [abs_nonneg (T (x k) - T ρ)]
    have hd : S * (x k - ρ) ≤ S * (0.99 * R / ((n:ℝ) - 1)) := by
      apply mul_le_mul_of_nonneg_left _ hS0
      rw [← hxs k k0]
      have := k2 (k-1) (by omega)
      linarith
    rw [abs_le] at hl ⊢
    generalize ctNoSwirl n x (fun i => T (x i)) R V Ω k = E at *
    constructor <;> linarith

/-- the thrust lost by evaluating the circulation at the cylinders and in the rotation of the wake -/
theorem loss_bound (n : ℕ) (r K : ℕ → ℝ) (R lam C : ℝ) (hR : 0 < R) (hl : 0 < lam) (hn : 2 ≤ n) (h0 : 0 < r 0) (hinc : ∀ i j, i < j → j < n → r i < r j)
    (hK : ∀ i < n, 0 ≤ K i ∧ K i ≤ C) (k : ℕ) (hk : k < n) :
    (K k)^2/4 * (1/(lam * r k / R)^2 - 1/(lam * rcyl n r R k / R)^2) +
      ∑ j ∈ Finset.Ico (k+1) (n-1), (K (j+1)/2)^2 * (1/(lam * rcyl n r R j / R)^2 - 1/(lam * rcyl n r R (j+1) / R)^2) ≤ C^2 * R^2/(4 * lam^2 * (r k)^2) := by
  have hpos : ∀ i < n, 0 < r i := by
    intro i hi
    rcases Nat.eq_zero_or_pos i with rfl | h
    · exact h0
    · exact h0.trans (hinc 0 i h hi)
  obtain ⟨o1, o2⟩ := rcyl_outside n r R hn hinc
  have hsq : ∀ x y : ℝ, 0 < x → x ≤ y → 1/(lam * y / R)^2 ≤ 1/(lam * x / R)^2 := by
    intro x y hx hxy
    apply one_div_le_one_div_of_le
    · positivity
    · have := hx.le
      gcongr
  have hq : ∀ i < n, (K i)^2 ≤ C^2 := fun i hi => pow_le_pow_left₀ (hK i hi).1 (hK i hi).2 2
  have hC := (hK k hk).1.trans (hK k hk).2
  have key : ∀ m lo, lo + m = n - 1 → lo < n → ∑ j ∈ Finset.Ico lo (n-1), (K (j+1)/2)^2 * (1/(lam * rcyl n r R j / R)^2 - 1/(lam * rcyl n r R (j+1) / R)^2) ≤ C^2/4 * (1/(lam * rcyl n r R lo / R)^2) := by
    intro m
    induction m with
    | zero =>
      intro lo hlo _
      rw [Finset.Ico_eq_empty (by omega), Finset.sum_empty]
      positivity
    | succ m ih =>
      intro lo hlo hlt
      rw [Finset.sum_eq_sum_Ico_succ_bot (by omega)]
      have h1 := ih (lo+1) (by omega) (by omega)
      have h2 := hsq _ _ ((hpos lo hlt).trans (o1 lo hlt)) (o2 lo (by omega)).le
      have h3 := mul_le_mul_of_nonneg_right (hq (lo+1) (by omega)) (sub_nonneg.mpr h2)
      have h4 : (K (lo+1)/2)^2 * (1/(lam * rcyl n r R lo / R)^2 - 1/(lam * rcyl n r R (lo+1) / R)^2) = (K (lo+1)^2 * (1/(lam * rcyl n r R lo / R)^2 - 1/(lam * rcyl n r R (lo+1) / R)^2))/4 := by ring
      rw [h4]
      linarith
  have hS : ∑ j ∈ Finset.Ico (k+1) (n-1), (K (j+1)/2)^2 * (1/(lam * rcyl n r R j / R)^2 - 1/(lam * rcyl n r R (j+1) / R)^2) ≤ C^2/4 * (1/(lam * rcyl n r R k / R)^2) := by
    rcases Nat.lt_or_ge (k+1) n with h | h
    · refine (key (n-1-(k+1)) (k+1) (by omega) h).trans ?_
      exact mul_le_mul_of_nonneg_left (hsq _ _ ((hpos k hk).trans (o1 k hk)) (o2 k h).le) (by positivity)
    · rw [Finset.Ico_eq_empty (by omega), Finset.sum_empty]
      positivity
  have h1 := hsq _ _ (hpos k hk) (o1 k hk).le
  have h2 := mul_le_mul_of_nonneg_right (hq k hk) (sub_nonneg.mpr h1)
  have e : C^2 * R^2/(4 * lam^2 * (r k)^2) = C^2/4 * (1/(lam * r k / R)^2) := by
    have := hpos k hk
    field_simp
  rw [e]
  linarith

/-- C145 below the tip-speed ratio 20 (wake rotation, exact minimiser): the thrust coefficient `4a(1-a)` of the slow-down at any radius exceeds the prescribed one by no more than the
spacing of the stations times the slope, and falls below it by no more than that plus `C² R²/(4 Λ² ρ²)`, the order of the thrust lost in the rotation of the wake. -/
theorem C145_swirl (mini : (ℝ → Num) → ℝ) (R : ℝ) (hub shaft vert U0 : V3 ℝ) (L : Option Num) (gr : Bool)
    (M : String) (ho : Orthonormal shaft vert) (hR : 0 < R) (h : List Op) (pts : List (V3 ℝ)) (hp : pts ≠ []) (o : Opts) (hnw : o.no_wake = false)
    (hlo : o.longi = false) (hro : o.root = false) (hta : o.tang = true)
    (n : ℕ) (hn : 2 ≤ n) (r Ct : List ℝ) (hr : r ≠ []) (hincr : r.Pairwise (· < ·)) (hlen : Ct.length = r.length) (T : ℝ → ℝ) (hT : Interpolates r Ct T)
    (C S : ℝ) (hC : C ≤ Ctc) (hTC : ∀ y, 0.005 * R ≤ y → y ≤ 0.995 * R → 0 < T y ∧ T y ≤ C)
    (hS : ∀ y z, 0.005 * R ≤ y → y ≤ z → z ≤ 0.995 * R → |T z - T y| ≤ S * (z - y)) (lam : ℝ) (hl : 0 < lam) (hl20 : lam < 20)
    (hmin : ∀ y, 0.005 * R ≤ y → y ≤ 0.995 * R → ∃ K, mini (fun k => .fin |k * (1 + k / (4 * (lam * y / R)^2)) - T y|) = K ∧ 0 ≤ K ∧ K * (1 + K / (4 * (lam * y / R)^2)) = T y) :
    let a : LoadArgs := { r := some r, Ct := some (Ct.map .fin), Lambda := some (.fin lam), nCyl := some n }
    let w := (WT.new R hub shaft vert U0 L gr M).run mini (h ++ [.loading a])
    let s := w.e_shaft_g
    ∀ V, V = V3.norm w.U0_g → 0 < V →
    o.ground.getD w.Ground = false → o.Model.getD w.Model = "VC" →
    ∀ chi, (w.computeU pts o).2.chi = some chi → ¬ (Num.fin 1e-7 < Num.abs chi) →
    ∃ u, (w.computeU pts o).1 = .ok u ∧ ∀ (i : ℕ) (p : V3 ℝ), pts[i]? = some p → ∃ v, u[i]? = some (V3.fin v) ∧
      ∀ ρ, V3.dot (p - w.r_hub) s = 0 → ρ = axisDist s w.r_hub p → 0.005 * R < ρ → ρ < 0.995 * R → (∀ j < n, 1e-8 * R ≤ |ρ - (0.005 + j * (0.99 / ((n:ℝ) - 1))) * R|) →
        ∃ A ≤ 1/2, V3.dot (v - if o.only_ind then 0 else w.U0_g) s = -(V * A) ∧
          T ρ - S * (0.99 * R / ((n:ℝ) - 1)) - C^2 * R^2/(4 * lam^2 * ρ^2) ≤ 4 * A * (1 - A) ∧ 4 * A * (1 - A) ≤ T ρ + S * (0.99 * R / ((n:ℝ) - 1)) := by
  intro a w s V hV hV0 hg hM chi hchi hsk
  have hn1 : (0:ℝ) < (n:ℝ) - 1 := by
    have : (2:ℝ) ≤ n := by exact_mod_cast hn
    linarith
  obtain ⟨x, hx⟩ : ∃ x : ℕ → ℝ, ∀ i, x i = (0.005 + i * (0.99 / ((n:ℝ) - 1))) * R := ⟨_, fun _ => rfl⟩
  obtain ⟨hx0, hinc, hxe, hxl, hxm, hxs⟩ := spread_stations n hn R hR x hx
  have hpos : ∀ i < n, 0 < x i := fun i hi => lt_of_lt_of_le (by positivity) (hxm i hi).1
  obtain ⟨K, hK⟩ : ∃ K : ℕ → ℝ, ∀ i, K i = mini (fun k => .fin |k * (1 + k / (4 * (lam * x i / R)^2)) - T (x i)|) := ⟨_, fun _ => rfl⟩
  have hKm : ∀ i < n, 0 ≤ K i ∧ K i * (1 + K i / (4 * (lam * x i / R)^2)) = T (x i) := by
    intro i hi
    obtain ⟨k, e, k0, k1⟩ := hmin (x i) (hxm i hi).1 (hxm i hi).2
    rw [hK, e]; exact ⟨k0, k1⟩
  have hKC : ∀ i < n, 0 ≤ K i ∧ K i ≤ C := by
    intro i hi
    obtain ⟨k0, k1⟩ := hKm i hi
    refine ⟨k0, ?_⟩
    have := (hTC _ (hxm i hi).1 (hxm i hi).2).2
    have h2 : 0 ≤ K i * (K i / (4 * (lam * x i / R)^2)) := by positivity
    linarith
  obtain ⟨E, hE⟩ : ∃ E : ℕ → ℝ, ∀ k, E k = T (x k) - (K k)^2/4 * (1/(lam * x k / R)^2 - 1/(lam * rcyl n x R k / R)^2) -
      ∑ j ∈ Finset.Ico (k+1) (n-1), (K (j+1)/2)^2 * (1/(lam * rcyl n x R j / R)^2 - 1/(lam * rcyl n x R (j+1) / R)^2) := ⟨_, fun _ => rfl⟩
  obtain ⟨u, hu, H⟩ := C143_spread mini R hub shaft vert U0 L gr M ho hR h pts hp o hnw hlo hro hta n r Ct hr hincr hlen T hT x hx K E lam hl hl20 hn
    (fun i hi => (hTC _ (hxm i hi).1 (hxm i hi).2).1) hK hKm (fun k _ => hE k) V hV hV0 hg hM chi hchi hsk
  refine ⟨u, hu, fun i p hpi' => ?_⟩
  obtain ⟨v, v1, v2⟩ := H i p hpi'
  refine ⟨v, v1, fun ρ hpl hρ hρ0 hρ1 hoff => ?_⟩
  have hoff' : ∀ j < n, 1e-8 * x j ≤ |ρ - x j| := by
    intro j hj
    have h1 := hoff j hj
    rw [← hx] at h1
    have := (hxm j hj).2
    refine le_trans ?_ h1
    have : x j ≤ R := by linarith
    gcongr
  obtain ⟨k, k0, k1, k2, k3⟩ := find_station n x ρ hn hinc (by rw [hxe]; exact hρ0) (by rw [hxl]; exact hρ1) (by
    intro j hj e
    have h1 := hoff' j hj
    rw [e, sub_self, abs_zero] at h1
    have := hpos j hj
    nlinarith)
  obtain ⟨hv, hlt⟩ := v2 k k1.le hpl (by rw [← hρ]; exact hoff') (by rw [← hρ]; exact k2) (by rw [← hρ]; exact k3)
  rw [if_pos k1] at hv
  have hlt := (hlt k1).1
  have hloss := loss_bound n x K R lam C hR hl hn hx0 hinc hKC k k1
  obtain ⟨t0, t1⟩ := hTC _ (hxm k k1).1 (hxm k k1).2
  have hEc : E k ≤ Ctc := by linarith
  have hEC : E k ≤ 1 := hEc.trans Ctc_lt_one.le
  have ha : aOfCt (E k) = (1 - √(1 - E k))/2 := by unfold aOfCt; rw [if_pos hEc]
  have hsq := sq_sqrt (sub_nonneg.mpr hEC)
  have h4 : 4 * aOfCt (E k) * (1 - aOfCt (E k)) = E k := by rw [ha]; nlinarith
  have hρp : 0 < ρ := lt_trans (by positivity) hρ0
  have hρx := k3 k k1 le_rfl
  have g1 : C^2 * R^2/(4 * lam^2 * (x k)^2) ≤ C^2 * R^2/(4 * lam^2 * ρ^2) := by gcongr
  have hlS := hS ρ (x k) hρ0.le hρx.le (hxm k k1).2
  have hS0 : 0 ≤ S := by
    by_contra hneg
    have := mul_neg_of_neg_of_pos (not_le.mp hneg) (sub_pos.mpr hρx)
    linarith [abs_nonneg (T (x k) - T ρ)]
  have hd : S * (x k - ρ) ≤ S * (0.99 * R / ((n:ℝ) - 1)) := by
    apply mul_le_mul_of_nonneg_left _ hS0
    rw [← hxs k k0]
    have := k2 (k-1) (by omega)
    linarith
  rw [abs_le] at hlS
  refine ⟨aOfCt (E k), ?_, hv, ?_, ?_⟩
  · rw [ha]; linarith [sqrt_nonneg (1 - E k)]
  · rw [h4]
    have := hE k
    linarith
  · rw [h4]; linarith

/-- a uniform thrust coefficient is interpolated by a constant -/
theorem interpolates_const (a b c : ℝ) : Interpolates [a, b] [c, c] (fun _ => c) where
  left := by simp
  right := by simp
  between := by
    intro k a' b' u v h1 h2 h3 h4 x _ _
    have hu : u = c ∧ v = c := by
      have m1 := List.mem_of_getElem? h3
      have m2 := List.mem_of_getElem? h4
      simp at m1 m2
      exact ⟨m1, m2⟩
    rw [hu.1, hu.2]; simp

/-- a concrete case: thrust coefficient 1/2 over a 50 m rotor spread over 11 stations, infinite tip-speed ratio: 30 m from the shaft the thrust coefficient of the slow-down is 1/2 within 1e-11 -/
example (mini : (ℝ → Num) → ℝ) :
    let w := (WT.new 50 ⟨1,2,3⟩ ⟨0,0,1⟩ ⟨0,1,0⟩ ⟨0,0,10⟩ none false "VC").run mini
      ([.chi (some 0)] ++ [.loading { r := some [0, 50], Ct := some ([1/2, 1/2].map Num.fin), Lambda := some .pinf, nCyl := some 11 }])
    ∃ u, (w.computeU [⟨31,2,3⟩] {}).1 = .ok u ∧ ∃ v, u[0]? = some (V3.fin v) ∧
      ∃ A ≤ 1/2, V3.dot (v - ⟨0,0,10⟩) ⟨0,0,1⟩ = -(10 * A) ∧ |4 * A * (1 - A) - 1/2| ≤ 1e-11 := by
  intro w
  have hn : V3.norm (⟨0,0,10⟩ : V3 ℝ) = 10 := by unfold V3.norm; simp
  obtain ⟨a, ha⟩ : ∃ a : LoadArgs, a = { r := some [0, 50], Ct := some ([1/2, 1/2].map Num.fin), Lambda := some .pinf, nCyl := some 11 } := ⟨_, rfl⟩
  have hw : w = (WT.new 50 ⟨1,2,3⟩ ⟨0,0,1⟩ ⟨0,1,0⟩ ⟨0,0,10⟩ none false "VC").run mini ([.chi (some 0)] ++ [.loading a]) := by rw [ha]
  clear_value w
  obtain ⟨e1, e2, -, -, e5, -, -, -, -, -, e11, e12, e13, e14⟩ := loading_frame mini
    ((WT.new 50 ⟨1,2,3⟩ ⟨0,0,1⟩ ⟨0,1,0⟩ ⟨0,0,10⟩ none false "VC").run mini [.chi (some 0)]) a
  have f2 : w.r_hub = ⟨1,2,3⟩ := by rw [hw]; exact e2
  have f5 : w.e_shaft_g = ⟨0,0,1⟩ := by
    rw [hw]
    refine e5.trans ?_
    have := (frame_run mini ⟨0,0,1⟩ ⟨0,1,0⟩ 50 [.chi (some 0)] _ (frame_new 50 ⟨1,2,3⟩ ⟨0,0,1⟩ ⟨0,1,0⟩ ⟨0,0,10⟩ none false "VC")).e_shaft_g
    rw [turn_eq] at this
    refine this.trans ?_
    change turn _ 0 _ = _
    unfold turn
    ext <;> simp
  have f11 : w.U0_g = ⟨0,0,10⟩ := by rw [hw]; exact e11
  have f12 : w.Ground = false := by rw [hw]; exact e12
  have f13 : w.chi = some 0 := by rw [hw]; exact e13
  have f14 : w.Model = "VC" := by rw [hw]; exact e14
  have hpi3 := pi_gt_three
  have H := C145_noswirl mini 50 ⟨1,2,3⟩ ⟨0,0,1⟩ ⟨0,1,0⟩ ⟨0,0,10⟩ none false "VC" ⟨by simp [V3.dot], by simp [V3.dot], by simp [V3.dot]⟩ (by norm_num)
    [.chi (some 0)] [⟨31,2,3⟩] (by simp) {} rfl rfl rfl rfl 11 (by norm_num) [0, 50] [1/2, 1/2] (by simp) (by simp) rfl _ (interpolates_const 0 50 (1/2))
    (1/2) 0 (by norm_num [Ctc, ac]) (fun y _ _ => by norm_num) (fun y z _ _ _ => by simp) .pinf 800 10
  rw [← ha] at H
  simp only [← hw] at H
  obtain ⟨u, hu, H⟩ := H (by rw [f11, hn]) (by norm_num) (Or.inr (by simp)) (by norm_num) (by
      have : 10^2 * (1/2:ℝ)^2/(16*π*800^3*(0.005*50 + 0.495*50/((11:ℕ)-1))^2) ≤ 10^2 * (1/2:ℝ)^2/(16*3*800^3*(0.005*50 + 0.495*50/((11:ℕ)-1))^2) := by
        have h0 : (0:ℝ) ≤ (0.005*50 + 0.495*50/((11:ℕ)-1))^2 := sq_nonneg _
        have h1 : (0:ℝ) < (0.005*50 + 0.495*50/((11:ℕ)-1))^2 := by norm_num
        generalize ((0.005*50 + 0.495*50/((11:ℕ)-1))^2 : ℝ) = q at *
        gcongr
      refine (add_le_add_right this _).trans ?_
      norm_num) (by rw [f12]; rfl) (by rw [f14]; rfl) 0
    (by rw [computeU_state]; change some (match w.chi with | some c => c | none => w.chiAuto) = _; rw [f13])
    (by simp [Num.abs_fin, Num.zero_def, Num.lt_fin]; norm_num)
  rw [f2, f5, f11] at H
  obtain ⟨v, v1, v2⟩ := H 0 ⟨31,2,3⟩ rfl
  have h30 : (30:ℝ) = axisDist ⟨0,0,1⟩ ⟨1,2,3⟩ ⟨31,2,3⟩ := by
    unfold axisDist V3.norm V3.cross
    norm_num [show √(900:ℝ) = 30 by rw [show (900:ℝ) = 30^2 by norm_num]; exact sqrt_sq (by norm_num)]
  obtain ⟨A, A1, A2, A3⟩ := v2 30 (by simp [V3.dot]) h30 (by norm_num) (by norm_num) (by
    intro j hj
    have : (j:ℝ) ≤ 6 ∨ (7:ℝ) ≤ j := by
      rcases Nat.lt_or_ge j 7 with h | h
      · left; exact_mod_cast Nat.lt_succ_iff.mp h
      · right; exact_mod_cast h
    rw [le_abs]
    rcases this with h | h
    · left; norm_num; linarith
    · right; norm_num; linarith)
  refine ⟨u, hu, v, v1, A, A1, A2, A3.trans ?_⟩
  have : 10^2 * (1/2:ℝ)^2/(16*π*800^3*30^2) ≤ 10^2 * (1/2:ℝ)^2/(16*3*800^3*30^2) := by gcongr
  rw [zero_mul, zero_add]
  refine this.trans ?_
  norm_num

/-- a concrete case with wake rotation: thrust coefficient 1/2 over a 50 m rotor, tip-speed ratio 5: 30 m from the shaft the thrust coefficient of the slow-down is within 1/144 of 1/2, and not above it -/
example : ∃ mini : (ℝ → Num) → ℝ,
    let w := (WT.new 50 ⟨1,2,3⟩ ⟨0,0,1⟩ ⟨0,1,0⟩ ⟨0,0,10⟩ none false "VC").run mini
      ([.chi (some 0)] ++ [.loading { r := some [0, 50], Ct := some ([1/2, 1/2].map Num.fin), Lambda := some (.fin 5), nCyl := some 11 }])
    ∃ u, (w.computeU [⟨31,2,3⟩] {}).1 = .ok u ∧ ∃ v, u[0]? = some (V3.fin v) ∧
      ∃ A ≤ 1/2, V3.dot (v - ⟨0,0,10⟩) ⟨0,0,1⟩ = -(10 * A) ∧ 1/2 - 1/144 ≤ 4 * A * (1 - A) ∧ 4 * A * (1 - A) ≤ 1/2 := by
  refine ⟨fun f => if h : ∃ K, 0 ≤ K ∧ f K = .fin 0 then h.choose else 0, ?_⟩
  intro w
  obtain ⟨mini, hmini⟩ : ∃ mini : (ℝ → Num) → ℝ, mini = fun f => if h : ∃ K, 0 ≤ K ∧ f K = .fin 0 then h.choose else 0 := ⟨_, rfl⟩
  have hm : ∀ y : ℝ, 0.005 * 50 ≤ y → y ≤ 0.995 * 50 → ∃ K, mini (fun k => .fin |k * (1 + k / (4 * (5 * y / 50)^2)) - 1/2|) = K ∧ 0 ≤ K ∧
      K * (1 + K / (4 * (5 * y / 50)^2)) = 1/2 := by
    intro y hy _
    have hl : 0 < 5 * y / 50 := by linarith
    generalize 5 * y / 50 = l at *
    obtain ⟨K, ⟨k1, _, k2⟩, _⟩ := C26_unique_root l (1/2) hl (by norm_num)
    have hex : ∃ K, 0 ≤ K ∧ (fun k => Num.fin |k * (1 + k / (4 * l^2)) - 1/2|) K = .fin 0 := ⟨K, k1.le, by simp only [k2]; simp⟩
    refine ⟨hex.choose, by rw [hmini]; simp only; rw [dif_pos hex], hex.choose_spec.1, ?_⟩
    have := Num.fin.inj hex.choose_spec.2
    exact sub_eq_zero.mp (abs_eq_zero.mp this)
  have hn : V3.norm (⟨0,0,10⟩ : V3 ℝ) = 10 := by unfold V3.norm; simp
  obtain ⟨a, ha⟩ : ∃ a : LoadArgs, a = { r := some [0, 50], Ct := some ([1/2, 1/2].map Num.fin), Lambda := some (.fin 5), nCyl := some 11 } := ⟨_, rfl⟩
  have hw : w = (WT.new 50 ⟨1,2,3⟩ ⟨0,0,1⟩ ⟨0,1,0⟩ ⟨0,0,10⟩ none false "VC").run mini ([.chi (some 0)] ++ [.loading a]) := by rw [ha, hmini]
  clear_value w
  clear hmini
  obtain ⟨e1, e2, -, -, e5, -, -, -, -, -, e11, e12, e13, e14⟩ := loading_frame mini
    ((WT.new 50 ⟨1,2,3⟩ ⟨0,0,1⟩ ⟨0,1,0⟩ ⟨0,0,10⟩ none false "VC").run mini [.chi (some 0)]) a
  have f2 : w.r_hub = ⟨1,2,3⟩ := by rw [hw]; exact e2
  have f5 : w.e_shaft_g = ⟨0,0,1⟩ := by
    rw [hw]
    refine e5.trans ?_
    have := (frame_run mini ⟨0,0,1⟩ ⟨0,1,0⟩ 50 [.chi (some 0)] _ (frame_new 50 ⟨1,2,3⟩ ⟨0,0,1⟩ ⟨0,1,0⟩ ⟨0,0,10⟩ none false "VC")).e_shaft_g
    rw [turn_eq] at this
    refine this.trans ?_
    change turn _ 0 _ = _
    unfold turn
    ext <;> simp
  have f11 : w.U0_g = ⟨0,0,10⟩ := by rw [hw]; exact e11
  have f12 : w.Ground = false := by rw [hw]; exact e12
  have f13 : w.chi = some 0 := by rw [hw]; exact e13
  have f14 : w.Model = "VC" := by rw [hw]; exact e14
  have H := C145_swirl mini 50 ⟨1,2,3⟩ ⟨0,0,1⟩ ⟨0,1,0⟩ ⟨0,0,10⟩ none false "VC" ⟨by simp [V3.dot], by simp [V3.dot], by simp [V3.dot]⟩ (by norm_num)
    [.chi (some 0)] [⟨31,2,3⟩] (by simp) {} rfl rfl rfl rfl 11 (by norm_num) [0, 50] [1/2, 1/2] (by simp) (by simp) rfl _ (interpolates_const 0 50 (1/2))
    (1/2) 0 (by norm_num [Ctc, ac]) (fun y _ _ => by norm_num) (fun y z _ _ _ => by simp) 5 (by norm_num) (by norm_num) hm
  rw [← ha] at H
  simp only [← hw] at H
  obtain ⟨u, hu, H⟩ := H 10 (by rw [f11, hn]) (by norm_num) (by rw [f12]; rfl) (by rw [f14]; rfl) 0
    (by rw [computeU_state]; change some (match w.chi with | some c => c | none => w.chiAuto) = _; rw [f13])
    (by simp [Num.abs_fin, Num.zero_def, Num.lt_fin]; norm_num)
  rw [f2, f5, f11] at H
  obtain ⟨v, v1, v2⟩ := H 0 ⟨31,2,3⟩ rfl
  have h30 : (30:ℝ) = axisDist ⟨0,0,1⟩ ⟨1,2,3⟩ ⟨31,2,3⟩ := by
    unfold axisDist V3.norm V3.cross
    norm_num [show √(900:ℝ) = 30 by rw [show (900:ℝ) = 30^2 by norm_num]; exact sqrt_sq (by norm_num)]
  obtain ⟨A, A1, A2, A3, A4⟩ := v2 30 (by simp [V3.dot]) h30 (by norm_num) (by norm_num) (by
    intro j hj
    have : (j:ℝ) ≤ 6 ∨ (7:ℝ) ≤ j := by
      rcases Nat.lt_or_ge j 7 with h | h
      · left; exact_mod_cast Nat.lt_succ_iff.mp h
      · right; exact_mod_cast h
    rw [le_abs]
    rcases this with h | h
    · left; norm_num; linarith
    · right; norm_num; linarith)
  exact ⟨u, hu, v, v1, A, A1, A2, le_trans (by norm_num) A3, A4.trans (by norm_num)⟩

end
end Wiz
