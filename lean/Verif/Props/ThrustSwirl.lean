import Verif.Props.TurbineSwirl2
import Verif.Props.LoadingSpread
/-! # C142: from the thrust coefficient to the swirl -/
set_option autoImplicit false
namespace Wiz
open Spec Classical Real
noncomputable section

/-- the circulation found for a prescribed thrust at `n` stations -/
theorem circulation_swirl (mini : (ℝ → Num) → ℝ) (n : ℕ) (r c : ℕ → ℝ) (R lam : ℝ) (hR : 0 < R) (hl : 0 < lam) (hr : ∀ i < n, 0 < r i) (hc : ∀ i < n, 0 < c i) :
    circulationFromPrescribedCt mini ((farr n r).map fun x => x / .fin R) (farr n c) (.fin lam) true =
      farr n fun i => mini fun k => .fin |k * (1 + k / (4 * (lam * r i / R)^2)) - c i| := by
  unfold circulationFromPrescribedCt farr arr
  rw [if_pos rfl, List.map_map, List.zipWith_map, List.zipWith_self]
  simp only [List.length_map, List.length_range, Nat.sub_self, List.replicate_zero, List.append_nil]
  apply List.map_congr_left
  intro i hi
  have hi := List.mem_range.mp hi
  have h1 := hr i hi
  have h2 : 0 < r i / R := div_pos h1 hR
  simp only [Function.comp_apply, Num.fin_div hR.ne']
  rw [if_pos ⟨by rw [Num.zero_def, Num.lt_fin]; exact hc i hi, by rw [Num.zero_def, Num.lt_fin]; exact h2⟩, Num.fin_mul]
  congr 2
  funext k
  rw [ctObjective_fin _ _ _ (mul_pos hl h2).ne', mul_div_assoc]
  rfl

/-- `update_loading` with the thrust coefficients of `n` stations stores the same wake as with the circulations found from them -/
theorem loading_ct (mini : (ℝ → Num) → ℝ) (w : WT) (hR : 0 < w.R) (hU : 0 < V3.norm w.U0_g) (n : ℕ) (r c : ℕ → ℝ) (lam : ℝ) (hl : 0 < lam) (hl20 : lam < 20)
    (hn : 0 < n) (h0 : 0 < r 0) (hinc : ∀ i j, i < j → j < n → r i < r j) (hnR : n = 1 → r 0 ≤ w.R) (hc : ∀ i < n, 0 < c i)
    (a : LoadArgs) (G0 : Option (List Num)) (hre : reinterp w.R a = .ok (some ((List.range n).map r), some ((List.range n).map fun i => .fin (c i)), G0))
    (hla : a.Lambda = some (.fin lam)) (hf : a.gamma_t_Ct = none)
    (G : ℕ → ℝ) (hG : ∀ i, G i = (mini fun k => .fin |k * (1 + k / (4 * (lam * r i / w.R)^2)) - c i|) * π * (V3.norm w.U0_g)^2 / (lam * V3.norm w.U0_g / w.R)) :
    ∃ gt : List ℝ, gt.length = n ∧ (w.updateLoading mini a).1 = .ok () ∧ (w.updateLoading mini a).2 = { w with
      gamma_t := some (gt.map .fin), gamma_l := some (farr n fun i => (G i - (if i = n - 1 then 0 else G (i+1))) / (2 * π * r i)), Gamma_r := some (.fin (-G 0)),
      Lambda := some (.fin lam), r := some ((List.range n).map r), Ct := some ((List.range n).map fun i => .fin (c i)) } := by
  have hpos : ∀ i < n, 0 < r i := by
    intro i hi
    rcases Nat.eq_zero_or_pos i with rfl | h
    · exact h0
    · exact h0.trans (hinc 0 i h hi)
  have hLam : lam * V3.norm w.U0_g / w.R * w.R / V3.norm w.U0_g = lam := by
    rw [div_mul_cancel₀ _ hR.ne', mul_div_assoc, div_self hU.ne', mul_one]
  have hΩ : 0 < lam * V3.norm w.U0_g / w.R := by positivity
  obtain ⟨v, g, e, e1, e2, e3⟩ := fromGamma_swirl n r G w.R (V3.norm w.U0_g) (lam * V3.norm w.U0_g / w.R) hn h0 hinc hnR hU hΩ (by rw [hLam]; exact hl20)
  have e' : (Num.fin lam * .fin (V3.norm w.U0_g) / .fin w.R : Num) = .fin (lam * V3.norm w.U0_g / w.R) := by
    rw [Num.fin_mul, Num.fin_div hR.ne']
  generalize hO : lam * V3.norm w.U0_g / w.R = Ω at *
  have hct : wakeVorticityFromCt mini (farr n r) (farr n c) (.fin w.R) (.fin (V3.norm w.U0_g)) (.fin Ω) = .ok v := by
    rw [← e]
    unfold wakeVorticityFromCt wakeVorticityFromGamma
    have c1 : capOmega (.fin Ω) = .fin Ω := by
      unfold capOmega; rw [if_neg (by intro h; exact h)]
    have c3 : (Num.fin Ω * Num.fin w.R / Num.fin (V3.norm w.U0_g) : Num) = .fin lam := by
      rw [Num.fin_mul, Num.fin_div hU.ne', hLam]
    have c2 : decide ((Num.fin lam : Num) < 20) = true := by
      rw [decide_eq_true_iff, Num.ofNat_def, Num.lt_fin]
      exact_mod_cast hl20
    simp only [c1, c3, c2]
    rw [circulation_swirl mini n r c w.R lam hR hl hpos hc]
    congr 1
    unfold farr arr
    rw [List.map_map]
    apply List.map_congr_left
    intro i _
    simp only [Function.comp_apply, Num.fin_mul, Num.fin_pow, Num.fin_div hΩ.ne']
    rw [hG i]
  have e4 : loadingSolve mini w.R (.fin (V3.norm w.U0_g)) (Num.fin lam * .fin (V3.norm w.U0_g) / .fin w.R) (some ((List.range n).map r))
      (some ((List.range n).map fun i => Num.fin (c i))) G0 none = .ok (v.gamma_t, v.gamma_l, v.Gamma_r) := by
    rw [e']
    unfold loadingSolve
    simp only
    rw [farr_map]
    change (match wakeVorticityFromCt mini (farr n r) (farr n c) _ _ _ with | .ok v => _ | .error e => _) = _
    rw [hct]
  refine ⟨(List.range n).map g, by simp, ?_, ?_⟩
  · unfold WT.updateLoading
    simp only [hre, hla, hf, e4]
  · unfold WT.updateLoading
    simp only [hre, hla, hf, e4, e1, e2, e3, farr_map]

/-- the relation between circulation and tangential induction -/
theorem induction_of_root (K A l c δ : ℝ) (hl : 0 < l) (hK : 0 ≤ K) (hA : 0 ≤ A) (hAe : A * (1 + A) = c / (4*l^2)) (hr : |K * (1 + K / (4*l^2)) - c| ≤ δ) :
    |K - 4*l^2*A| ≤ δ := by
  have hl2 : 0 < 4*l^2 := by positivity
  refine C26_residual_bound l c K (4*l^2*A) δ hl hK (by positivity) ?_ ?_
  · rw [mul_div_cancel_left₀ _ hl2.ne', mul_assoc, hAe, mul_div_cancel₀ _ hl2.ne']
  · rw [ctObjective_fin _ _ _ hl.ne', Num.le_fin]; exact hr

/-- the swirl of a turbine whose loading came from thrust coefficients, any of the forms of the arguments -/
theorem ct_swirl (mini : (ℝ → Num) → ℝ) (R : ℝ) (hub shaft vert U0 : V3 ℝ) (L : Option Num) (gr : Bool)
    (M : String) (ho : Orthonormal shaft vert) (hR : 0 < R) (h hist : List Op) (pts : List (V3 ℝ)) (hp : pts ≠ []) (o : Opts) (hnw : o.no_wake = false)
    (hlo : o.longi = true) (hro : o.root = true)
    (n : ℕ) (r c : ℕ → ℝ) (lam δ : ℝ) (hl : 0 < lam) (hl20 : lam < 20) (hn : 2 ≤ n) (h0 : 0 < r 0) (hinc : ∀ i j, i < j → j < n → r i < r j)
    (hc : ∀ i < n, 0 < c i) (a : LoadArgs) (G0 : Option (List Num)) (hre : reinterp R a = .ok (some ((List.range n).map r), some ((List.range n).map fun i => .fin (c i)), G0))
    (hla : a.Lambda = some (.fin lam)) (hf : a.gamma_t_Ct = none) (hh : hist = h ++ [.loading a])
    (hmin : ∀ i < n, ∃ K, mini (fun k => .fin |k * (1 + k / (4 * (lam * r i / R)^2)) - c i|) = K ∧ 0 ≤ K ∧ |K * (1 + K / (4 * (lam * r i / R)^2)) - c i| ≤ δ) :
    let w := (WT.new R hub shaft vert U0 L gr M).run mini hist
    let s := w.e_shaft_g
    0 < V3.norm w.U0_g → o.ground.getD w.Ground = false → o.Model.getD w.Model = "VC" →
    ∀ chi, (w.computeU pts o).2.chi = some chi → ¬ (Num.fin 1e-7 < Num.abs chi) →
    ∃ u, (w.computeU pts o).1 = .ok u ∧ ∀ (i : ℕ) (p : V3 ℝ) (ρ : ℝ) (k : ℕ), pts[i]? = some p → V3.dot (p - w.r_hub) s = 0 → ρ = axisDist s w.r_hub p → 0 < ρ →
      k ≤ n → (∀ j < k, r j < ρ) → (∀ j < n, k ≤ j → ρ < r j) →
      ∃ v, u[i]? = some (V3.fin v) ∧
        (k < n → ∀ A, 0 ≤ A → A * (1 + A) = c k / (4 * (lam * r k / R)^2) →
          |ρ * swirlAbout s w.r_hub p (v - if o.only_ind then 0 else w.U0_g) + A * (lam * V3.norm w.U0_g / R) * r k^2| ≤ δ * V3.norm w.U0_g * R / (4*lam)) ∧
        (k = n → swirlAbout s w.r_hub p (v - if o.only_ind then 0 else w.U0_g) = 0) := by
  intro w s hU hg hM chi hchi hsk
  obtain ⟨w0, hw0⟩ : ∃ w0, w0 = (WT.new R hub shaft vert U0 L gr M).run mini h := ⟨_, rfl⟩
  have hw : w = (w0.updateLoading mini a).2 := by
    simp only [w]; rw [hh, run_append, ← hw0]; rfl
  have hfr := frame_run mini shaft vert R h _ (frame_new R hub shaft vert U0 L gr M)
  rw [← hw0] at hfr
  have hU0 : w.U0_g = w0.U0_g := by
    rw [hw]
    unfold WT.updateLoading
    simp only
    repeat' split
    all_goals rfl
  obtain ⟨V, hV⟩ : ∃ V, V = V3.norm w.U0_g := ⟨_, rfl⟩
  obtain ⟨G, hG⟩ : ∃ G : ℕ → ℝ, ∀ i, G i = (mini fun k => .fin |k * (1 + k / (4 * (lam * r i / R)^2)) - c i|) * π * V^2 / (lam * V / R) := ⟨_, fun _ => rfl⟩
  have hU' : 0 < V3.norm w0.U0_g := by rw [← hU0]; exact hU
  have hRw : w0.R = R := hfr.R
  obtain ⟨gt, g1, -, g2⟩ := loading_ct mini w0 (by rw [hRw]; exact hR) hU' n r c lam hl hl20 (by omega) h0 hinc (by omega) hc a G0 (by rw [hRw]; exact hre) hla hf G
    (by rw [← hU0, hRw, ← hV]; exact hG)
  rw [← hw] at g2
  have hpos : ∀ i < n, 0 < r i := by
    intro i hi
    rcases Nat.eq_zero_or_pos i with rfl | h
    · exact h0
    · exact h0.trans (hinc 0 i h hi)
  obtain ⟨sh, hsh⟩ : ∃ sh : List (ℝ × ℝ), sh = (List.range n).map fun i => ((G i - (if i = n - 1 then 0 else G (i+1))) / (2 * π * r i), r i) := ⟨_, rfl⟩
  have hst : StoredWake w gt sh (-G 0) := by
    refine ⟨by rw [g2], by rw [g2], ?_, by rw [hsh]; simpa using g1, ?_, Or.inl ⟨by rw [hsh]; simp; omega, ?_⟩⟩
    · rw [g2, hsh, List.map_map]; rfl
    · intro y hy
      rw [hsh] at hy
      obtain ⟨i, hi, rfl⟩ := List.mem_map.mp hy
      exact hpos i (List.mem_range.mp hi)
    · rw [g2, hsh, List.map_map]; rfl
  obtain ⟨u, hu, H⟩ := C138_rotor_plane mini R hub shaft vert U0 L gr M ho hR hist pts hp o hnw hlo hro gt sh (-G 0) chi hst hg hM hchi hsk
  refine ⟨u, hu, fun i p ρ k hi hz hρ hρ0 hk hk1 hk2 => ?_⟩
  obtain ⟨v, v1, v2⟩ := H i p ρ hi hz hρ hρ0 (by
    intro y hy
    rw [hsh] at hy
    obtain ⟨j, hj, rfl⟩ := List.mem_map.mp hy
    have hj := List.mem_range.mp hj
    rcases lt_or_ge j k with h | h
    · exact (hk1 j h).ne'
    · exact (hk2 j hj h).ne)
  rw [hsh, enclosed_loading n k r G ρ (by omega) (fun i hi => (hpos i hi).ne') hk fun j hj =>
    ⟨fun h => by by_contra h'; exact lt_asymm h (hk2 j hj (by omega)), fun h => hk1 j h⟩] at v2
  refine ⟨v, v1, ?_, ?_⟩
  · intro hkn A hA hAe
    rw [v2, if_pos hkn, ← hV]
    obtain ⟨K, hK, hK0, hKd⟩ := hmin k hkn
    have hV0 : 0 < V := by rw [hV]; exact hU
    have hrk := hpos k hkn
    have b := induction_of_root K A (lam * r k / R) (c k) δ (by positivity) hK0 hA hAe hKd
    have hpi := pi_pos
    have : ρ * (-G k / (4*π*ρ)) + A * (lam * V / R) * r k^2 = -(V * R / (4*lam)) * (K - 4*(lam * r k / R)^2*A) := by
      rw [hG k, hK]
      field_simp
      ring
    rw [this, abs_mul, abs_neg, abs_of_pos (by positivity : 0 < V * R / (4*lam))]
    calc V * R / (4*lam) * |K - 4*(lam * r k / R)^2*A| ≤ V * R / (4*lam) * δ := by gcongr
      _ = _ := by ring
  · intro hkn
    rw [v2, if_neg (by omega)]
    simp

/-- C142: a turbine loaded with the thrust coefficients `c` of `n≥2` stations at a tip-speed ratio `lam<20` (any earlier history, straight wake) swirls the rotor plane
with the tangential induction `a'` of momentum theory with wake rotation, `a'(1+a') = Ct/(4λ²)`, `λ` being the local speed ratio: between the stations `k-1` and `k`
the angular momentum `ρ u_θ` is `-a' Ω r_k²`, and outside of all stations it is zero. `δ` is the residual left by the scalar minimiser (0 if it is exact). -/
theorem C142_stations (mini : (ℝ → Num) → ℝ) (R : ℝ) (hub shaft vert U0 : V3 ℝ) (L : Option Num) (gr : Bool)
    (M : String) (ho : Orthonormal shaft vert) (hR : 0 < R) (h : List Op) (pts : List (V3 ℝ)) (hp : pts ≠ []) (o : Opts) (hnw : o.no_wake = false)
    (hlo : o.longi = true) (hro : o.root = true)
    (n : ℕ) (r c : ℕ → ℝ) (lam δ : ℝ) (hl : 0 < lam) (hl20 : lam < 20) (hn : 2 ≤ n) (h0 : 0 < r 0) (hinc : ∀ i j, i < j → j < n → r i < r j)
    (hc : ∀ i < n, 0 < c i)
    (hmin : ∀ i < n, ∃ K, mini (fun k => .fin |k * (1 + k / (4 * (lam * r i / R)^2)) - c i|) = K ∧ 0 ≤ K ∧ |K * (1 + K / (4 * (lam * r i / R)^2)) - c i| ≤ δ) :
    let a : LoadArgs := { r := some ((List.range n).map r), Ct := some ((List.range n).map fun i => .fin (c i)), Lambda := some (.fin lam), nCyl := none }
    let w := (WT.new R hub shaft vert U0 L gr M).run mini (h ++ [.loading a])
    let s := w.e_shaft_g
    0 < V3.norm w.U0_g → o.ground.getD w.Ground = false → o.Model.getD w.Model = "VC" →
    ∀ chi, (w.computeU pts o).2.chi = some chi → ¬ (Num.fin 1e-7 < Num.abs chi) →
    ∃ u, (w.computeU pts o).1 = .ok u ∧ ∀ (i : ℕ) (p : V3 ℝ) (ρ : ℝ) (k : ℕ), pts[i]? = some p → V3.dot (p - w.r_hub) s = 0 → ρ = axisDist s w.r_hub p → 0 < ρ →
      k ≤ n → (∀ j < k, r j < ρ) → (∀ j < n, k ≤ j → ρ < r j) →
      ∃ v, u[i]? = some (V3.fin v) ∧
        (k < n → ∀ A, 0 ≤ A → A * (1 + A) = c k / (4 * (lam * r k / R)^2) →
          |ρ * swirlAbout s w.r_hub p (v - if o.only_ind then 0 else w.U0_g) + A * (lam * V3.norm w.U0_g / R) * r k^2| ≤ δ * V3.norm w.U0_g * R / (4*lam)) ∧
        (k = n → swirlAbout s w.r_hub p (v - if o.only_ind then 0 else w.U0_g) = 0) :=
  ct_swirl mini R hub shaft vert U0 L gr M ho hR h _ pts hp o hnw hlo hro n r c lam δ hl hl20 hn h0 hinc hc _ none rfl rfl rfl rfl hmin

/-- the stations and thrust coefficients chosen by `nCyl=n≥2` -/
theorem spread_reinterp (R : ℝ) (hR : 0 < R) (n : ℕ) (hn : 2 ≤ n) (r Ct : List ℝ) (hr : r ≠ []) (hinc : r.Pairwise (· < ·))
    (hl : Ct.length = r.length) (L : ℝ → ℝ) (hL : Interpolates r Ct L) (Λ? : Option Num) (x : ℕ → ℝ) (hx : ∀ i, x i = (0.005 + i * (0.99 / ((n:ℝ) - 1))) * R) :
    reinterp R { r := some r, Ct := some (Ct.map .fin), Lambda := Λ?, nCyl := some n } =
      .ok (some ((List.range n).map x), some ((List.range n).map fun i => .fin (L (x i))), none) := by
  have hv : (linspace 0.005 0.995 n).map (fun y => y * R) = (List.range n).map x := by
    unfold linspace
    rw [List.map_map]
    apply List.map_congr_left
    intro i _
    simp only [Function.comp_apply, hx]
    norm_num
  unfold reinterp
  simp only
  rw [if_neg (by omega)]
  unfold interpArr
  simp only
  rw [if_neg (by simp [hl, hr]), hv, List.map_map]
  simp only
  congr 3
  apply congrArg
  apply List.map_congr_left
  intro i _
  exact interp1_linear (x i) r Ct L hr hinc hl hL

/-- C142 with the thrust coefficients given at any radii and spread by the program over `nCyl=n≥2` stations between 0.5% and 99.5% of the radius: the same, the thrust coefficient of a
station being the value of the piecewise-linear function through the given samples. -/
theorem C142_spread (mini : (ℝ → Num) → ℝ) (R : ℝ) (hub shaft vert U0 : V3 ℝ) (L : Option Num) (gr : Bool)
    (M : String) (ho : Orthonormal shaft vert) (hR : 0 < R) (h : List Op) (pts : List (V3 ℝ)) (hp : pts ≠ []) (o : Opts) (hnw : o.no_wake = false)
    (hlo : o.longi = true) (hro : o.root = true)
    (n : ℕ) (r Ct : List ℝ) (hr : r ≠ []) (hincr : r.Pairwise (· < ·)) (hlen : Ct.length = r.length) (C : ℝ → ℝ) (hC : Interpolates r Ct C)
    (x : ℕ → ℝ) (hx : ∀ i, x i = (0.005 + i * (0.99 / ((n:ℝ) - 1))) * R)
    (lam δ : ℝ) (hl : 0 < lam) (hl20 : lam < 20) (hn : 2 ≤ n)
    (hc : ∀ i < n, 0 < C (x i))
    (hmin : ∀ i < n, ∃ K, mini (fun k => .fin |k * (1 + k / (4 * (lam * x i / R)^2)) - C (x i)|) = K ∧ 0 ≤ K ∧ |K * (1 + K / (4 * (lam * x i / R)^2)) - C (x i)| ≤ δ) :
    let a : LoadArgs := { r := some r, Ct := some (Ct.map .fin), Lambda := some (.fin lam), nCyl := some n }
    let w := (WT.new R hub shaft vert U0 L gr M).run mini (h ++ [.loading a])
    let s := w.e_shaft_g
    0 < V3.norm w.U0_g → o.ground.getD w.Ground = false → o.Model.getD w.Model = "VC" →
    ∀ chi, (w.computeU pts o).2.chi = some chi → ¬ (Num.fin 1e-7 < Num.abs chi) →
    ∃ u, (w.computeU pts o).1 = .ok u ∧ ∀ (i : ℕ) (p : V3 ℝ) (ρ : ℝ) (k : ℕ), pts[i]? = some p → V3.dot (p - w.r_hub) s = 0 → ρ = axisDist s w.r_hub p → 0 < ρ →
      k ≤ n → (∀ j < k, x j < ρ) → (∀ j < n, k ≤ j → ρ < x j) →
      ∃ v, u[i]? = some (V3.fin v) ∧
        (k < n → ∀ A, 0 ≤ A → A * (1 + A) = C (x k) / (4 * (lam * x k / R)^2) →
          |ρ * swirlAbout s w.r_hub p (v - if o.only_ind then 0 else w.U0_g) + A * (lam * V3.norm w.U0_g / R) * x k^2| ≤ δ * V3.norm w.U0_g * R / (4*lam)) ∧
        (k = n → swirlAbout s w.r_hub p (v - if o.only_ind then 0 else w.U0_g) = 0) := by
  obtain ⟨-, s2, s3⟩ := stations n hn R hR
  exact ct_swirl mini R hub shaft vert U0 L gr M ho hR h _ pts hp o hnw hlo hro n x (fun i => C (x i)) lam δ hl hl20 hn (by rw [hx]; exact s2)
    (fun i j hij hj => by rw [hx, hx]; exact s3 i j hij hj) hc _ none
    (spread_reinterp R hR n hn r Ct hr hincr hlen C hC _ x hx) rfl rfl rfl hmin

/-- a concrete case: two stations at 20 m and 40 m of a 50 m rotor, Ct=0.8 and tip-speed ratio 5, whatever exact minimiser; the swirl 30 m from the shaft is
`-a' Ω 40²/30` with `a'(1+a') = 0.8/(4·4²)` -/
example : ∃ mini : (ℝ → Num) → ℝ,
    let w := (WT.new 50 ⟨1,2,3⟩ ⟨0,0,1⟩ ⟨0,1,0⟩ ⟨0,0,10⟩ none false "VC").run mini
      ([.chi (some 0)] ++ [.loading { r := some ((List.range 2).map fun i : ℕ => 20 * ((i:ℝ) + 1)), Ct := some ((List.range 2).map fun _ : ℕ => Num.fin 0.8), Lambda := some (.fin 5), nCyl := none }])
    let o : Opts := { longi := true, root := true }
    ∃ u, (w.computeU [⟨31,2,3⟩] o).1 = .ok u ∧ ∃ v, u[0]? = some (V3.fin v) ∧
      30 * swirlAbout ⟨0,0,1⟩ ⟨1,2,3⟩ ⟨31,2,3⟩ (v - ⟨0,0,10⟩) = - ((√(1 + 0.8/16) - 1)/2) * 1600 := by
  have hroot : ∀ l : ℝ, 0 < l → ∃ K : ℝ, 0 ≤ K ∧ |K * (1 + K / (4*l^2)) - 0.8| = 0 := by
    intro l hl
    obtain ⟨K, ⟨a, _, e⟩, _⟩ := C26_unique_root l 0.8 hl (by norm_num)
    exact ⟨K, a.le, by rw [e]; simp⟩
  refine ⟨fun f => if h : ∃ K, 0 ≤ K ∧ f K = .fin 0 then h.choose else 0, ?_⟩
  intro w o
  obtain ⟨mini, hmini⟩ : ∃ mini : (ℝ → Num) → ℝ, mini = fun f => if h : ∃ K, 0 ≤ K ∧ f K = .fin 0 then h.choose else 0 := ⟨_, rfl⟩
  have hm : ∀ i : ℕ, i < 2 → ∃ K, mini (fun k => .fin |k * (1 + k / (4 * (5 * (20 * ((i:ℝ) + 1)) / 50)^2)) - 0.8|) = K ∧ 0 ≤ K ∧
      |K * (1 + K / (4 * (5 * (20 * ((i:ℝ) + 1)) / 50)^2)) - 0.8| ≤ 0 := by
    intro i _
    have hl : 0 < (5 * (20 * ((i:ℝ) + 1)) / 50) := by positivity
    generalize (5 * (20 * ((i:ℝ) + 1)) / 50) = l at *
    obtain ⟨K, k1, k2⟩ := hroot l hl
    have hex : ∃ K, 0 ≤ K ∧ (fun k => Num.fin |k * (1 + k / (4 * l^2)) - 0.8|) K = .fin 0 := ⟨K, k1, by simp only [k2]⟩
    refine ⟨hex.choose, by rw [hmini]; simp only; rw [dif_pos hex], hex.choose_spec.1, ?_⟩
    have := hex.choose_spec.2
    exact (Num.fin.inj this).le
  have hw : w = (WT.new 50 ⟨1,2,3⟩ ⟨0,0,1⟩ ⟨0,1,0⟩ ⟨0,0,10⟩ none false "VC").run mini
      ([.chi (some 0)] ++ [.loading { r := some ((List.range 2).map fun i : ℕ => 20 * ((i:ℝ) + 1)), Ct := some ((List.range 2).map fun _ : ℕ => Num.fin 0.8), Lambda := some (.fin 5), nCyl := none }]) := by
    rw [hmini]
  clear_value w
  clear hmini
  have hn : V3.norm (⟨0,0,10⟩ : V3 ℝ) = 10 := by unfold V3.norm; simp
  obtain ⟨e1, e2, -, -, e5, -, -, -, -, -, e11, e12, e13, e14⟩ := loading_frame mini
    ((WT.new 50 ⟨1,2,3⟩ ⟨0,0,1⟩ ⟨0,1,0⟩ ⟨0,0,10⟩ none false "VC").run mini [.chi (some 0)])
    { r := some ((List.range 2).map fun i : ℕ => 20 * ((i:ℝ) + 1)), Ct := some ((List.range 2).map fun _ : ℕ => Num.fin 0.8), Lambda := some (.fin 5), nCyl := none }
  have f2 : w.r_hub = ⟨1,2,3⟩ := by rw [hw]; exact e2
  have f5 : w.e_shaft_g = ⟨0,0,1⟩ := by
    rw [hw]
    refine e5.trans ?_
    have := (frame_run mini ⟨0,0,1⟩ ⟨0,1,0⟩ 50 [.chi (some 0)] _ (frame_new 50 ⟨1,2,3⟩ ⟨0,0,1⟩ ⟨0,1,0⟩ ⟨0,0,10⟩ none false "VC")).e_shaft_g
    rw [turn_eq] at this
    refine this.trans ?_
    change turn _ 0 _ = _
    unfold turn
    ext <;> simp
  have f11 : w.U0_g = ⟨0,0,10⟩ := by rw [hw]; exact e11
  have f12 : w.Ground = false := by rw [hw]; exact e12
  have f13 : w.chi = some 0 := by rw [hw]; exact e13
  have f14 : w.Model = "VC" := by rw [hw]; exact e14
  have H := C142_stations mini 50 ⟨1,2,3⟩ ⟨0,0,1⟩ ⟨0,1,0⟩ ⟨0,0,10⟩ none false "VC" ⟨by simp [V3.dot], by simp [V3.dot], by simp [V3.dot]⟩ (by norm_num)
    [.chi (some 0)] [⟨31,2,3⟩] (by simp) o rfl rfl rfl 2 (fun i => 20 * ((i:ℝ) + 1)) (fun _ => 0.8) 5 0 (by norm_num) (by norm_num) le_rfl (by norm_num)
    (fun i j hij _ => by have : (i:ℝ) < j := by exact_mod_cast hij
                         linarith) (fun _ _ => by norm_num) hm
  simp only [← hw] at H
  obtain ⟨u, hu, H⟩ := H (by rw [f11, hn]; norm_num) (by rw [f12]; rfl) (by rw [f14]; rfl) 0
    (by rw [computeU_state]; change some (match w.chi with | some c => c | none => w.chiAuto) = _; rw [f13])
    (by simp [Num.abs_fin, Num.zero_def, Num.lt_fin]; norm_num)
  have h30 : axisDist ⟨0,0,1⟩ ⟨1,2,3⟩ ⟨31,2,3⟩ = 30 := by
    unfold axisDist V3.norm V3.cross
    simp
    norm_num
  rw [f2, f5, f11] at H
  obtain ⟨v, v1, v2, -⟩ := H 0 ⟨31,2,3⟩ 30 1 rfl (by simp [V3.dot]) h30.symm (by norm_num) (by norm_num)
    (by intro j hj; have : j = 0 := by omega
        subst this; norm_num) (by intro j h1 h2; have : j = 1 := by omega
                                  subst this; norm_num)
  refine ⟨u, hu, v, v1, ?_⟩
  have hs : √(1 + 0.8/16 : ℝ)^2 = 1 + 0.8/16 := sq_sqrt (by norm_num)
  have hs1 : 1 ≤ √(1 + 0.8/16 : ℝ) := by rw [one_le_sqrt]; norm_num
  have b := v2 (by norm_num) ((√(1 + 0.8/16) - 1)/2) (by linarith) (by
    push_cast
    nlinarith [hs])
  rw [hn] at b
  have b := abs_nonpos_iff.mp (b.trans (by norm_num))
  have e : v - (if o.only_ind = true then 0 else ⟨0,0,10⟩) = v - ⟨0,0,10⟩ := by rw [if_neg (by simp [o])]
  rw [e] at b
  push_cast at b
  linarith

end
end Wiz
