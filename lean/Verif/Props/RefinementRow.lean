import Verif.Props.RowResolution
import Verif.Props.RefinementSwirl

/-!
# C158 in a farm: refinement of the stations of one rotor of a row
-/
set_option autoImplicit false
namespace Wiz
noncomputable section
open Real Classical Spec

/-- In a row of rotors over the ground (the neighbours with any stations, radii and histories), refining the stations of one rotor loaded with `update_loading(r,Ct,Lambda,nCyl=n)` the thrust
coefficient of the slow-down of the farm in its disk converges to the prescribed one less the pressure of the rotation of its own wake, with the rate `1/(n-1)`. -/
theorem C158_row (mini : (ℝ → Num) → ℝ) (args : ℕ → TurbineArgs) (hist : ℕ → List Op) (ts : List ℕ) (hnd : ts.Nodup) (t0 : ℕ) (ht0 : t0 ∈ ts) (st : ℕ → List (ℝ × ℝ))
    (pts : List (V3 ℝ)) (hp : pts ≠ []) (o : Opts) (hnw : o.no_wake = false) (hta : o.tang = true) (hlo : o.longi = false) (hro : o.root = false)
    (U0 : Option (V3 ℝ)) (w : ℕ → WT) (hw : ∀ t, w t = ((args t).build).run mini (hist t))
    (ho : ∀ t ∈ ts, Orthonormal (args t).shaft (args t).vert) (hst : ∀ t ∈ ts, t ≠ t0 → HasStations (w t) (st t) ∧ ∀ y ∈ st t, 0 < y.2)
    (hM : ∀ t ∈ ts, o.Model.getD (w t).Model = "VC")
    (hchi : ∀ t ∈ ts, ∃ chi, ((w t).computeU pts o).2.chi = some chi ∧ ¬ (Num.fin 1e-7 < Num.abs chi)) (s : V3 ℝ) (hs : ∀ t ∈ ts, (w t).e_shaft_g = s)
    (R : ℝ) (hRt : (args t0).R = R) (hR : 0 < R) (h : List Op)
    (n : ℕ) (hn : 2 ≤ n) (r Ct : List ℝ) (hr : r ≠ []) (hincr : r.Pairwise (· < ·)) (hlen : Ct.length = r.length) (T K : ℝ → ℝ) (hT : Interpolates r Ct T)
    (C S : ℝ) (hC : C ≤ Ctc) (hTC : ∀ y, 0.005 * R ≤ y → y ≤ 0.995 * R → 0 < T y ∧ T y ≤ C)
    (hS : ∀ y z, 0.005 * R ≤ y → y ≤ z → z ≤ 0.995 * R → |T z - T y| ≤ S * (z - y)) (lam : ℝ) (hl : 0 < lam) (hl20 : lam < 20)
    (hmin : ∀ y, 0.005 * R ≤ y → y ≤ 0.995 * R → mini (fun k => .fin |k * (1 + k / (4 * (lam * y / R)^2)) - T y|) = K y ∧ 0 ≤ K y ∧ K y * (1 + K y / (4 * (lam * y / R)^2)) = T y)
    (hload : hist t0 = h ++ [.loading { r := some r, Ct := some (Ct.map .fin), Lambda := some (.fin lam), nCyl := some n }])
    (V : ℝ) (hV : V = V3.norm (w t0).U0_g) (hV0 : 0 < V) :
    let q := frun mini (ts.map .turbine) w []
    ∃ u, (farmVelocity q.1 q.2 pts o U0).1 = .ok u ∧ ∀ (i : ℕ) (p : V3 ℝ) (ρ : ℝ), pts[i]? = some p → ρ = V3.norm (p - (w t0).r_hub) →
      (∀ t ∈ ts, V3.dot (p - (w t).r_hub) s = 0) → 0.005 * R < ρ → ρ < 0.995 * R →
      (∀ j < n, 1e-8 * R ≤ |ρ - (0.005 + j * (0.99 / ((n:ℝ) - 1))) * R|) →
      (∀ t ∈ ts, t ≠ t0 → ∀ y ∈ st t, (1 + 1e-8) * y.2 ≤ V3.norm (p - (w t).r_hub)) →
      (∀ t ∈ ts, t ≠ t0 → o.ground.getD (w t).Ground = true → ∀ y ∈ st t, (1 + 1e-8) * y.2 ≤ V3.norm (p - groundImage (args t).vert (w t).r_hub)) →
      (o.ground.getD (w t0).Ground = true → R ≤ V3.norm (p - groundImage (args t0).vert (w t0).r_hub)) →
      ∃ v A, u[i]? = some (V3.fin v) ∧ A ≤ 1/2 ∧ V3.dot v s = V3.dot (U0.getD 0) s - V * A ∧
        |4 * A * (1 - A) - (T ρ - ∫ y in ρ..(0.995*R), 2 * (V * R * K y/(2 * lam * y))^2/(V^2 * y))| ≤
          0.99 * R / ((n:ℝ) - 1) * (S + 3 * (C^2 * R^2/(2 * lam^2 * ρ^3)) + C * R^2/(4 * lam^2 * ρ^2) * (S + C^2 * R^2/(2 * lam^2 * ρ^3))) := by
  intro q
  obtain ⟨x, hx⟩ : ∃ x : ℕ → ℝ, ∀ i, x i = (0.005 + i * (0.99 / ((n:ℝ) - 1))) * R := ⟨_, fun _ => rfl⟩
  obtain ⟨hx0, hinc, hxe, hxl, hxm, hxs⟩ := spread_stations n hn R hR x hx
  obtain ⟨k, hK⟩ : ∃ k : ℕ → ℝ, ∀ i, k i = mini (fun k => .fin |k * (1 + k / (4 * (lam * x i / R)^2)) - T (x i)|) := ⟨_, fun _ => rfl⟩
  have hKm : ∀ i < n, 0 ≤ k i ∧ k i * (1 + k i / (4 * (lam * x i / R)^2)) = T (x i) := by
    intro i hi
    obtain ⟨e, k0, k1⟩ := hmin (x i) (hxm i hi).1 (hxm i hi).2
    rw [hK, e]; exact ⟨k0, k1⟩
  have ew : w t0 = (WT.new R (args t0).hub (args t0).shaft (args t0).vert (args t0).U0 (args t0).Lambda (args t0).Ground (args t0).Model).run mini
      (h ++ [.loading { r := some r, Ct := some (Ct.map .fin), Lambda := some (.fin lam), nCyl := some n }]) := by
    rw [hw t0, hload, ← hRt]; rfl
  obtain ⟨k1, k2, k3, -⟩ := thrust_rings mini R (args t0).hub (args t0).shaft (args t0).vert (args t0).U0 (args t0).Lambda (args t0).Ground (args t0).Model hR h n x (fun i => T (x i)) k _
    lam hl hl20 hn hx0 hinc (fun i hi => (hTC _ (hxm i hi).1 (hxm i hi).2).1) hK hKm (fun _ _ => rfl) _ _
    (spread_reinterp R hR n hn r Ct hr hincr hlen T hT _ x hx) rfl rfl rfl (w t0) ew V hV hV0
  obtain ⟨u, u0, h1, h2, h3⟩ := row_spread mini args hist ts hnd t0 ht0 st pts hp o hnw hta hlo hro U0 w hw ho hst hM hchi s hs R hR n hn x hx _ k1 (by simp) (Or.inr k2) k3
  obtain ⟨chi, c1, c2⟩ := hchi t0 ht0
  have key := C158_swirl mini R (args t0).hub (args t0).shaft (args t0).vert (args t0).U0 (args t0).Lambda (args t0).Ground (args t0).Model (ho t0 ht0) hR h pts hp
    { o with ground := some false, only_ind := true } hnw hlo hro hta n hn r Ct hr hincr hlen T K hT C S hC hTC hS lam hl hl20 hmin
  dsimp only at key
  rw [← ew] at key
  obtain ⟨u0', y1, y2⟩ := key V hV hV0 rfl (hM t0 ht0) chi (by rw [computeU_state] at c1 ⊢; exact c1) c2
  rw [h2] at y1
  obtain rfl : u0 = u0' := by simpa using y1
  have hss : V3.dot s s = 1 := by
    obtain ⟨-, -, -, -, -, a6⟩ := rotorAxes_run mini R (args t0).hub (args t0).shaft (args t0).vert (args t0).U0 (args t0).Lambda (args t0).Ground (args t0).Model (ho t0 ht0)
      (h ++ [.loading { r := some r, Ct := some (Ct.map .fin), Lambda := some (.fin lam), nCyl := some n }])
    rw [← ew, hs t0 ht0] at a6
    exact a6
  refine ⟨u, h1, fun i p ρ hpi hρ hz hρ0 hρ1 hoff hn' hg hg0 => ?_⟩
  obtain ⟨v, v0, v1, v2, v3⟩ := h3 i p hpi hz (fun j hj => by rw [← hρ, hx]; exact hoff j hj) hn' hg hg0
  obtain ⟨v', z1, z2⟩ := y2 i p hpi
  rw [v2] at z1
  obtain rfl : v0 = v' := by
    have := Option.some.inj z1
    simp only [V3.fin, V3.mk.injEq, Num.fin_inj] at this
    ext
    · exact this.1
    · exact this.2.1
    · exact this.2.2
  rw [hs t0 ht0] at z2
  obtain ⟨A, A1, A2, A3⟩ := z2 ρ (hz t0 ht0) (by rw [hρ, axisDist_plane s _ p hss (hz t0 ht0)]) hρ0 hρ1 hoff
  refine ⟨v, A, v1, A1, ?_, A3⟩
  have e : v0 - (if ({ o with ground := some false, only_ind := true } : Opts).only_ind then 0 else (w t0).U0_g) = v0 := by ext <;> simp
  rw [e] at A2
  rw [v3, A2]; ring

/-- a concrete case: three 50 m rotors over the ground, 200 m apart; that of the middle loaded with the thrust coefficient 1/2 at 1001 stations and tip-speed ratio 5, the others with
one station of any strength -/
example (γ : ℝ) : ∃ (mini : (ℝ → Num) → ℝ) (K : ℝ → ℝ), (∀ y, 0.005 * 50 ≤ y → y ≤ 0.995 * 50 → 0 ≤ K y ∧ K y * (1 + K y / (4 * (5 * y / 50)^2)) = 1/2) ∧
    let args : ℕ → TurbineArgs := fun t => ⟨50, ⟨200*t, 80, 0⟩, ⟨0, 0, 1⟩, ⟨0, 1, 0⟩, ⟨0, 0, 10⟩, none, true, "VC"⟩
    let a1 : LoadArgs := { r := some [0, 50], Ct := some ([1/2, 1/2].map Num.fin), Lambda := some (.fin 5), nCyl := some 1001 }
    let a2 : LoadArgs := { Ct := some [.fin 1], Lambda := some .pinf, gamma_t_Ct := some fun _ => [.fin γ] }
    let w := fun t => ((args t).build).run mini ([.chi (some 0)] ++ [.loading (if t = 1 then a1 else a2)])
    let q := frun mini (([0, 1, 2] : List ℕ).map .turbine) w []
    ∃ u, (farmVelocity q.1 q.2 [⟨230, 80, 0⟩] {} (some ⟨0, 0, 10⟩)).1 = .ok u ∧ ∃ v A, u[0]? = some (V3.fin v) ∧ A ≤ 1/2 ∧
      V3.dot v ⟨0, 0, 1⟩ = 10 * (1 - A) ∧ |4 * A * (1 - A) - (1/2 - ∫ y in (30:ℝ)..(0.995*50), 2 * (10 * 50 * K y/(2 * 5 * y))^2/(10^2 * y))| ≤ 1e-4 := by
  obtain ⟨mini, hmini⟩ : ∃ mini : (ℝ → Num) → ℝ, mini = fun f => if h : ∃ K, 0 ≤ K ∧ f K = .fin 0 then h.choose else 0 := ⟨_, rfl⟩
  obtain ⟨K, hKd⟩ : ∃ K : ℝ → ℝ, ∀ y, K y = mini (fun k => .fin |k * (1 + k / (4 * (5 * y / 50)^2)) - 1/2|) := ⟨_, fun _ => rfl⟩
  have hm : ∀ y : ℝ, 0.005 * 50 ≤ y → y ≤ 0.995 * 50 → ∃ K, mini (fun k => .fin |k * (1 + k / (4 * (5 * y / 50)^2)) - 1/2|) = K ∧ 0 ≤ K ∧
      K * (1 + K / (4 * (5 * y / 50)^2)) = 1/2 := by
    intro y hy _
    have hl : 0 < 5 * y / 50 := by linarith
    generalize 5 * y / 50 = l at *
    obtain ⟨K, ⟨k1, _, k2⟩, _⟩ := C26_unique_root l (1/2) hl (by norm_num)
    have hex : ∃ K, 0 ≤ K ∧ (fun k => Num.fin |k * (1 + k / (4 * l^2)) - 1/2|) K = .fin 0 := ⟨K, k1.le, by simp only [k2]; simp⟩
    refine ⟨hex.choose, by rw [hmini]; simp only; rw [dif_pos hex], hex.choose_spec.1, ?_⟩
    have := Num.fin.inj hex.choose_spec.2
    exact sub_eq_zero.mp (abs_eq_zero.mp this)
  have hm' : ∀ y : ℝ, 0.005 * 50 ≤ y → y ≤ 0.995 * 50 → mini (fun k => .fin |k * (1 + k / (4 * (5 * y / 50)^2)) - 1/2|) = K y ∧ 0 ≤ K y ∧
      K y * (1 + K y / (4 * (5 * y / 50)^2)) = 1/2 := by
    intro y h0 h1
    obtain ⟨K', e, e1, e2⟩ := hm y h0 h1
    have : K y = K' := by rw [hKd, e]
    rw [this]
    exact ⟨e, e1, e2⟩
  refine ⟨mini, K, fun y h0 h1 => (hm' y h0 h1).2, ?_⟩
  clear hmini hKd hm
  intro args a1 a2 w q
  obtain ⟨ld, hld⟩ : ∃ ld : ℕ → LoadArgs, ∀ t, ld t = if t = 1 then a1 else a2 := ⟨_, fun _ => rfl⟩
  have hw : ∀ t, w t = ((args t).build).run mini ([.chi (some 0)] ++ [.loading (ld t)]) := by intro t; rw [hld]
  have hn : V3.norm (⟨0,0,10⟩ : V3 ℝ) = 10 := by unfold V3.norm; simp
  have hfr : ∀ t, (w t).r_hub = ⟨200*t, 80, 0⟩ ∧ (w t).e_shaft_g = ⟨0,0,1⟩ ∧ (w t).U0_g = ⟨0,0,10⟩ ∧ (w t).Ground = true ∧ (w t).chi = some 0 ∧ (w t).Model = "VC" ∧ (w t).R = 50 := by
    intro t
    obtain ⟨e1, e2, -, -, e5, -, -, -, -, -, e11, e12, e13, e14⟩ := loading_frame mini (((args t).build).run mini [.chi (some 0)]) (ld t)
    have hwt := hw t
    rw [run_append] at hwt
    refine ⟨by rw [hwt]; exact e2, ?_, by rw [hwt]; exact e11, by rw [hwt]; exact e12, by rw [hwt]; exact e13, by rw [hwt]; exact e14, by rw [hwt]; exact e1⟩
    rw [hwt]
    refine e5.trans ?_
    have := (frame_run mini ⟨0,0,1⟩ ⟨0,1,0⟩ 50 [.chi (some 0)] _ (frame_new 50 ⟨200*t, 80, 0⟩ ⟨0,0,1⟩ ⟨0,1,0⟩ ⟨0,0,10⟩ none true "VC")).e_shaft_g
    rw [turn_eq] at this
    refine this.trans ?_
    change turn _ 0 _ = _
    unfold turn
    ext <;> simp
  have hg : ∀ t, t ≠ 1 → (w t).gamma_t = some [.fin γ] := by
    intro t ht
    rw [hw t, run_append, hld, if_neg ht]
    rfl
  have hw1 : ([.chi (some 0)] ++ [.loading (ld 1)] : List Op) = [.chi (some 0)] ++ [.loading a1] := by rw [hld, if_pos rfl]
  clear_value w
  obtain ⟨u, hu, H⟩ := C158_row mini args (fun t => [.chi (some 0)] ++ [.loading (ld t)]) [0, 1, 2] (by decide) 1 (by simp) (fun _ => [(γ, 50)])
    [⟨230, 80, 0⟩] (by simp) {} rfl rfl rfl rfl (some ⟨0,0,10⟩) w hw (fun t _ => ⟨by simp [V3.dot, args], by simp [V3.dot, args], by simp [V3.dot, args]⟩)
    (fun t _ ht => ⟨Or.inl ⟨γ, hg t ht, by rw [(hfr t).2.2.2.2.2.2]⟩, by simp⟩) (fun t _ => by rw [(hfr t).2.2.2.2.2.1]; rfl)
    (fun t _ => ⟨0, by rw [computeU_state]; change some (match (w t).chi with | some c => c | none => (w t).chiAuto) = _; rw [(hfr t).2.2.2.2.1],
      by simp [Num.abs_fin, Num.zero_def, Num.lt_fin]; norm_num⟩) ⟨0,0,1⟩ (fun t _ => (hfr t).2.1) 50 rfl (by norm_num) [.chi (some 0)] 1001 (by norm_num)
    [0, 50] [1/2, 1/2] (by simp) (by simp) rfl _ K (interpolates_const 0 50 (1/2))
    (1/2) 0 (by norm_num [Ctc, ac]) (fun y _ _ => by norm_num) (fun y z _ _ _ => by simp) 5 (by norm_num) (by norm_num) hm' hw1 10 (by rw [(hfr 1).2.2.1, hn]) (by norm_num)
  have h3 : ∀ t ∈ ([0, 1, 2] : List ℕ), t = 0 ∨ t = 1 ∨ t = 2 := by intro t ht; simpa using ht
  obtain ⟨v, A, v1, A1, A2, A3⟩ := H 0 ⟨230, 80, 0⟩ 30 rfl (by
      rw [(hfr 1).1]
      unfold V3.norm
      norm_num [show √(900:ℝ) = 30 by rw [show (900:ℝ) = 30^2 by norm_num]; exact sqrt_sq (by norm_num)])
    (fun t _ => by rw [(hfr t).1]; simp [V3.dot]) (by norm_num) (by norm_num) (by
    intro j hj
    have : (j:ℝ) ≤ 601 ∨ (602:ℝ) ≤ j := by
      rcases Nat.lt_or_ge j 602 with h | h
      · left; exact_mod_cast Nat.lt_succ_iff.mp h
      · right; exact_mod_cast h
    rw [le_abs]
    rcases this with h | h
    · left; norm_num; linarith
    · right; norm_num; linarith) (by
    intro t ht h y hy
    rw [List.mem_singleton.1 hy, (hfr t).1]
    refine Real.le_sqrt_of_sq_le ?_
    simp only [V3.sub_x, V3.sub_y, V3.sub_z]
    rcases h3 t ht with rfl | rfl | rfl
    · norm_num
    · exact absurd rfl h
    · norm_num) (by
    intro t ht h _ y hy
    rw [List.mem_singleton.1 hy, (hfr t).1]
    refine Real.le_sqrt_of_sq_le ?_
    simp only [groundImage, V3.dot, V3.smul, V3.sub_x, V3.sub_y, V3.sub_z, args]
    norm_num
    nlinarith [sq_nonneg (230 - 200 * (t:ℝ))]) (by
    intro _
    rw [(hfr 1).1]
    refine Real.le_sqrt_of_sq_le ?_
    simp only [groundImage, V3.dot, V3.smul, V3.sub_x, V3.sub_y, V3.sub_z, args]
    norm_num)
  refine ⟨u, hu, v, A, v1, A1, ?_, A3.trans ?_⟩
  · rw [A2]; simp [V3.dot]; ring
  norm_num

end
end Wiz
