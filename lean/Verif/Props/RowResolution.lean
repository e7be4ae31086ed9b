import Verif.Props.Row
import Verif.Props.Resolution
/-! # C157: in a row of turbines over the ground, a rotor works in its plane as if it were alone -/
set_option autoImplicit false
namespace Wiz
open Spec Classical Real
noncomputable section

/-- C157: a farm of turbines of the same plane and shaft direction.  In that plane, at a point inside or outside of the disk of the turbine `t0` (off its stations) and outside of the disks of the other
turbines and of all images below the ground, the velocity along the shaft that `velocity_field` returns is exactly the free stream plus what `compute_u` returns for `t0` alone and without ground. -/
theorem C157_alone (mini : (ℝ → Num) → ℝ) (args : ℕ → TurbineArgs) (hist : ℕ → List Op) (ts : List ℕ) (hnd : ts.Nodup) (t0 : ℕ) (ht0 : t0 ∈ ts) (st : ℕ → List (ℝ × ℝ))
    (pts : List (V3 ℝ)) (hp : pts ≠ []) (o : Opts) (hnw : o.no_wake = false) (hta : o.tang = true) (hlo : o.longi = false) (hro : o.root = false)
    (U0 : Option (V3 ℝ)) (w : ℕ → WT) (hw : ∀ t, w t = ((args t).build).run mini (hist t))
    (ho : ∀ t ∈ ts, Orthonormal (args t).shaft (args t).vert) (hst : ∀ t ∈ ts, HasStations (w t) (st t)) (hpos : ∀ t ∈ ts, ∀ y ∈ st t, 0 < y.2)
    (hM : ∀ t ∈ ts, o.Model.getD (w t).Model = "VC")
    (hchi : ∀ t ∈ ts, ∃ chi, ((w t).computeU pts o).2.chi = some chi ∧ ¬ (Num.fin 1e-7 < Num.abs chi)) (s : V3 ℝ) (hs : ∀ t ∈ ts, (w t).e_shaft_g = s) :
    let q := frun mini (ts.map .turbine) w []
    let alone : Opts := { o with ground := some false, only_ind := true }
    ∃ u u0, (farmVelocity q.1 q.2 pts o U0).1 = .ok u ∧ ((w t0).computeU pts alone).1 = .ok u0 ∧ ∀ (i : ℕ) (p : V3 ℝ), pts[i]? = some p →
      (∀ t ∈ ts, V3.dot (p - (w t).r_hub) s = 0) →
      (∀ y ∈ st t0, 1e-8 * y.2 ≤ |V3.norm (p - (w t0).r_hub) - y.2|) →
      (∀ t ∈ ts, t ≠ t0 → ∀ y ∈ st t, (1 + 1e-8) * y.2 ≤ V3.norm (p - (w t).r_hub)) →
      (∀ t ∈ ts, o.ground.getD (w t).Ground = true → ∀ y ∈ st t, (1 + 1e-8) * y.2 ≤ V3.norm (p - groundImage (args t).vert (w t).r_hub)) →
      ∃ v v0, u[i]? = some (V3.fin v) ∧ u0[i]? = some (V3.fin v0) ∧ V3.dot v s = V3.dot (U0.getD 0) s + V3.dot v0 s := by
  intro q alone
  obtain ⟨u, hu, hfar⟩ := C150_farm mini args hist ts st pts hp o hnw hta hlo hro U0 w hw ho hst hpos hM hchi s hs
  obtain ⟨chi, c1, c2⟩ := hchi t0 ht0
  have key := C150_turbine mini (args t0).R (args t0).hub (args t0).shaft (args t0).vert (args t0).U0 (args t0).Lambda (args t0).Ground (args t0).Model
    (ho t0 ht0) (hist t0) pts hp alone hnw hlo hro hta (st t0) (hpos t0 ht0)
  have ew : w t0 = (WT.new (args t0).R (args t0).hub (args t0).shaft (args t0).vert (args t0).U0 (args t0).Lambda (args t0).Ground (args t0).Model).run mini (hist t0) := hw t0
  rw [← ew] at key
  obtain ⟨u0, hu0, hal⟩ := key (hst t0 ht0) (hM t0 ht0) chi (by rw [computeU_state] at c1 ⊢; exact c1) c2
  refine ⟨u, u0, hu, hu0, fun i p hpi hz h0 hn hg => ?_⟩
  have hcc : ∀ t ∈ ts, ∀ c ∈ wakeCentres (o.ground.getD (w t).Ground) (args t).vert (w t).r_hub,
      c = (w t).r_hub ∨ (c = groundImage (args t).vert (w t).r_hub ∧ o.ground.getD (w t).Ground = true) := by
    intro t ht c hc
    unfold wakeCentres at hc
    by_cases hG : o.ground.getD (w t).Ground = true
    · rw [if_pos hG] at hc
      rcases List.mem_cons.1 hc with h | h
      · exact Or.inl h
      · exact Or.inr ⟨List.mem_singleton.1 h, hG⟩
    · rw [if_neg hG] at hc
      exact Or.inl (List.mem_singleton.1 hc)
  have hout : ∀ x y : ℝ, (1 + 1e-8) * y ≤ x → 1e-8 * y ≤ |x - y| := fun x y h => le_trans (by linarith) (le_abs_self _)
  obtain ⟨v, v1, v2⟩ := hfar i p hpi hz (by
    intro t ht c hc y hy
    rcases hcc t ht c hc with rfl | ⟨rfl, hG⟩
    · by_cases h : t = t0
      · subst h; exact h0 y hy
      · exact hout _ _ (hn t ht h y hy)
    · exact hout _ _ (hg t ht hG y hy))
  have hcl : ∀ c ∈ (if alone.ground.getD (w t0).Ground then [(w t0).r_hub, groundImage (args t0).vert (w t0).r_hub] else [(w t0).r_hub]), c = (w t0).r_hub := by
    intro c hc
    exact List.mem_singleton.1 hc
  obtain ⟨v0, x1, x2⟩ := hal i p hpi (by rw [hs t0 ht0]; exact hz t0 ht0) (by
    intro c hc y hy
    rw [hcl c hc]; exact h0 y hy)
  refine ⟨v, v0, v1, x1, ?_⟩
  have hv0 : v0 - (if alone.only_ind then 0 else (w t0).U0_g) = v0 := by
    have : alone.only_ind = true := rfl
    rw [if_pos this]; ext <;> simp
  rw [hv0, hs t0 ht0] at x2
  have x3 : V3.dot v0 s = ((st t0).map fun y => if V3.norm (p - (w t0).r_hub) < y.2 then y.1/2 else 0).sum := by
    rw [x2]
    change ([(w t0).r_hub].map _).sum = _
    rw [List.map_singleton, List.sum_singleton]
  rw [v2, x3]
  congr 1
  have hzero : ∀ (l : List (ℝ × ℝ)) (x : ℝ), (∀ y ∈ l, 0 < y.2) → (∀ y ∈ l, (1 + 1e-8) * y.2 ≤ x) → (l.map fun y => if x < y.2 then y.1/2 else 0).sum = 0 := by
    intro l x hl h
    have : (l.map fun y => if x < y.2 then y.1/2 else 0) = l.map fun _ => (0:ℝ) := by
      apply List.map_congr_left
      intro y hy
      rw [if_neg (by have := h y hy; have := hl y hy; linarith)]
    rw [this]; simp
  have hterm : ∀ t ∈ ts, ((wakeCentres (o.ground.getD (w t).Ground) (args t).vert (w t).r_hub).map fun c => ((st t).map fun y => if V3.norm (p - c) < y.2 then y.1/2 else 0).sum).sum =
      if t = t0 then ((st t0).map fun y => if V3.norm (p - (w t0).r_hub) < y.2 then y.1/2 else 0).sum else 0 := by
    intro t ht
    have e1 : ((st t).map fun y => if V3.norm (p - (w t).r_hub) < y.2 then y.1/2 else 0).sum =
        if t = t0 then ((st t0).map fun y => if V3.norm (p - (w t0).r_hub) < y.2 then y.1/2 else 0).sum else 0 := by
      by_cases h : t = t0
      · rw [if_pos h, h]
      · rw [if_neg h, hzero _ _ (hpos t ht) (hn t ht h)]
    unfold wakeCentres
    by_cases hG : o.ground.getD (w t).Ground = true
    · rw [if_pos hG, List.map_cons, List.map_singleton, List.sum_cons, List.sum_singleton, e1, hzero _ _ (hpos t ht) (hg t ht hG), add_zero]
    · rw [if_neg hG, List.map_singleton, List.sum_singleton, e1]
  rw [List.map_congr_left hterm, List.sum_map_ite_eq, List.count_eq_one_of_mem hnd ht0]
  simp


theorem axisDist_plane (s c p : V3 ℝ) (hs : V3.dot s s = 1) (h : V3.dot (p - c) s = 0) : axisDist s c p = V3.norm (p - c) := by
  unfold axisDist V3.norm
  congr 1
  generalize p - c = d at *
  simp only [V3.cross, V3.dot] at *
  have e : d.x^2 + d.y^2 + d.z^2 = (d.x^2 + d.y^2 + d.z^2) * (s.x*s.x + s.y*s.y + s.z*s.z) - (d.x*s.x + d.y*s.y + d.z*s.z)^2 := by rw [hs, h]; ring
  rw [e]; ring

/-- from the stations of `t0`, spread by `update_loading`, to the farm -/
theorem row_spread (mini : (ℝ → Num) → ℝ) (args : ℕ → TurbineArgs) (hist : ℕ → List Op) (ts : List ℕ) (hnd : ts.Nodup) (t0 : ℕ) (ht0 : t0 ∈ ts) (st : ℕ → List (ℝ × ℝ))
    (pts : List (V3 ℝ)) (hp : pts ≠ []) (o : Opts) (hnw : o.no_wake = false) (hta : o.tang = true) (hlo : o.longi = false) (hro : o.root = false)
    (U0 : Option (V3 ℝ)) (w : ℕ → WT) (hw : ∀ t, w t = ((args t).build).run mini (hist t))
    (ho : ∀ t ∈ ts, Orthonormal (args t).shaft (args t).vert) (hst : ∀ t ∈ ts, t ≠ t0 → HasStations (w t) (st t) ∧ ∀ y ∈ st t, 0 < y.2)
    (hM : ∀ t ∈ ts, o.Model.getD (w t).Model = "VC")
    (hchi : ∀ t ∈ ts, ∃ chi, ((w t).computeU pts o).2.chi = some chi ∧ ¬ (Num.fin 1e-7 < Num.abs chi)) (s : V3 ℝ) (hs : ∀ t ∈ ts, (w t).e_shaft_g = s)
    (R : ℝ) (hR : 0 < R) (n : ℕ) (hn : 2 ≤ n) (x : ℕ → ℝ) (hx : ∀ i, x i = (0.005 + i * (0.99 / ((n:ℝ) - 1))) * R)
    (gt : List ℝ) (g1 : (w t0).gamma_t = some (gt.map .fin)) (gl : gt.length = n) (g2 : (w t0).gamma_l = none ∨ ∃ gl, (w t0).gamma_l = some gl ∧ gl.length = n)
    (g3 : (w t0).r = some ((List.range n).map x)) :
    let q := frun mini (ts.map .turbine) w []
    ∃ u u0, (farmVelocity q.1 q.2 pts o U0).1 = .ok u ∧ ((w t0).computeU pts { o with ground := some false, only_ind := true }).1 = .ok u0 ∧ ∀ (i : ℕ) (p : V3 ℝ), pts[i]? = some p →
      (∀ t ∈ ts, V3.dot (p - (w t).r_hub) s = 0) →
      (∀ j < n, 1e-8 * R ≤ |V3.norm (p - (w t0).r_hub) - x j|) →
      (∀ t ∈ ts, t ≠ t0 → ∀ y ∈ st t, (1 + 1e-8) * y.2 ≤ V3.norm (p - (w t).r_hub)) →
      (∀ t ∈ ts, t ≠ t0 → o.ground.getD (w t).Ground = true → ∀ y ∈ st t, (1 + 1e-8) * y.2 ≤ V3.norm (p - groundImage (args t).vert (w t).r_hub)) →
      (o.ground.getD (w t0).Ground = true → R ≤ V3.norm (p - groundImage (args t0).vert (w t0).r_hub)) →
      ∃ v v0, u[i]? = some (V3.fin v) ∧ u0[i]? = some (V3.fin v0) ∧ V3.dot v s = V3.dot (U0.getD 0) s + V3.dot v0 s := by
  intro q
  obtain ⟨hx0, hinc, hxe, hxl, hxm, hxs⟩ := spread_stations n hn R hR x hx
  obtain ⟨st', hst'⟩ : ∃ st' : ℕ → List (ℝ × ℝ), ∀ t, st' t = if t = t0 then gt.zip ((List.range n).map x) else st t := ⟨_, fun _ => rfl⟩
  have e0 : st' t0 = gt.zip ((List.range n).map x) := by rw [hst', if_pos rfl]
  have e1 : ∀ t, t ≠ t0 → st' t = st t := fun t h => by rw [hst', if_neg h]
  have hrad : ∀ y ∈ st' t0, ∃ j < n, y.2 = x j := by
    intro y hy
    rw [e0] at hy
    obtain ⟨j, hj, e⟩ := List.mem_map.1 (List.of_mem_zip hy).2
    exact ⟨j, List.mem_range.1 hj, e.symm⟩
  obtain ⟨u, u0, h1, h2, h3⟩ := C157_alone mini args hist ts hnd t0 ht0 st' pts hp o hnw hta hlo hro U0 w hw ho (by
    intro t ht
    by_cases h : t = t0
    · subst h
      rw [e0]
      exact Or.inr ⟨gt, _, g1, g3, by simpa using gl, by omega, by simpa using g2, rfl⟩
    · rw [e1 t h]; exact (hst t ht h).1) (by
    intro t ht y hy
    by_cases h : t = t0
    · subst h
      obtain ⟨j, hj, e⟩ := hrad y hy
      rw [e]
      exact lt_of_lt_of_le (by positivity) (hxm j hj).1
    · rw [e1 t h] at hy; exact (hst t ht h).2 y hy) hM hchi s hs
  refine ⟨u, u0, h1, h2, fun i p hpi hz hoff hn' hg hg0 => h3 i p hpi hz ?_ ?_ ?_⟩
  · intro y hy
    obtain ⟨j, hj, e⟩ := hrad y hy
    rw [e]
    refine le_trans ?_ (hoff j hj)
    have := (hxm j hj).2
    have : x j ≤ R := by linarith
    gcongr
  · intro t ht h y hy
    rw [e1 t h] at hy
    exact hn' t ht h y hy
  · intro t ht hG y hy
    by_cases h : t = t0
    · subst h
      obtain ⟨j, hj, e⟩ := hrad y hy
      rw [e]
      have := (hxm j hj).2
      refine le_trans ?_ (hg0 hG)
      linarith
    · rw [e1 t h] at hy
      exact hg t ht h hG y hy

/-- C157, tip-speed ratio below 20: in such a row of turbines (any others, over the ground or not) the turbine `t0`, loaded last with `update_loading(r,Ct,Lambda,nCyl=n)`, takes from the air in its
disk the prescribed thrust within the spacing of its stations and the loss to the swirl: the bound of C145, unchanged by the neighbours and the ground. -/
theorem C157_swirl (mini : (ℝ → Num) → ℝ) (args : ℕ → TurbineArgs) (hist : ℕ → List Op) (ts : List ℕ) (hnd : ts.Nodup) (t0 : ℕ) (ht0 : t0 ∈ ts) (st : ℕ → List (ℝ × ℝ))
    (pts : List (V3 ℝ)) (hp : pts ≠ []) (o : Opts) (hnw : o.no_wake = false) (hta : o.tang = true) (hlo : o.longi = false) (hro : o.root = false)
    (U0 : Option (V3 ℝ)) (w : ℕ → WT) (hw : ∀ t, w t = ((args t).build).run mini (hist t))
    (ho : ∀ t ∈ ts, Orthonormal (args t).shaft (args t).vert) (hst : ∀ t ∈ ts, t ≠ t0 → HasStations (w t) (st t) ∧ ∀ y ∈ st t, 0 < y.2)
    (hM : ∀ t ∈ ts, o.Model.getD (w t).Model = "VC")
    (hchi : ∀ t ∈ ts, ∃ chi, ((w t).computeU pts o).2.chi = some chi ∧ ¬ (Num.fin 1e-7 < Num.abs chi)) (s : V3 ℝ) (hs : ∀ t ∈ ts, (w t).e_shaft_g = s)
    (R : ℝ) (hRt : (args t0).R = R) (hR : 0 < R) (h : List Op)
    (n : ℕ) (hn : 2 ≤ n) (r Ct : List ℝ) (hr : r ≠ []) (hincr : r.Pairwise (· < ·)) (hlen : Ct.length = r.length) (T : ℝ → ℝ) (hT : Interpolates r Ct T)
    (C S : ℝ) (hC : C ≤ Ctc) (hTC : ∀ y, 0.005 * R ≤ y → y ≤ 0.995 * R → 0 < T y ∧ T y ≤ C)
    (hS : ∀ y z, 0.005 * R ≤ y → y ≤ z → z ≤ 0.995 * R → |T z - T y| ≤ S * (z - y)) (lam : ℝ) (hl : 0 < lam) (hl20 : lam < 20)
    (hmin : ∀ y, 0.005 * R ≤ y → y ≤ 0.995 * R → ∃ K, mini (fun k => .fin |k * (1 + k / (4 * (lam * y / R)^2)) - T y|) = K ∧ 0 ≤ K ∧ K * (1 + K / (4 * (lam * y / R)^2)) = T y)
    (hload : hist t0 = h ++ [.loading { r := some r, Ct := some (Ct.map .fin), Lambda := some (.fin lam), nCyl := some n }])
    (V : ℝ) (hV : V = V3.norm (w t0).U0_g) (hV0 : 0 < V) :
    let q := frun mini (ts.map .turbine) w []
    ∃ u, (farmVelocity q.1 q.2 pts o U0).1 = .ok u ∧ ∀ (i : ℕ) (p : V3 ℝ) (ρ : ℝ), pts[i]? = some p → ρ = V3.norm (p - (w t0).r_hub) →
      (∀ t ∈ ts, V3.dot (p - (w t).r_hub) s = 0) → 0.005 * R < ρ → ρ < 0.995 * R →
      (∀ j < n, 1e-8 * R ≤ |ρ - (0.005 + j * (0.99 / ((n:ℝ) - 1))) * R|) →
      (∀ t ∈ ts, t ≠ t0 → ∀ y ∈ st t, (1 + 1e-8) * y.2 ≤ V3.norm (p - (w t).r_hub)) →
      (∀ t ∈ ts, t ≠ t0 → o.ground.getD (w t).Ground = true → ∀ y ∈ st t, (1 + 1e-8) * y.2 ≤ V3.norm (p - groundImage (args t).vert (w t).r_hub)) →
      (o.ground.getD (w t0).Ground = true → R ≤ V3.norm (p - groundImage (args t0).vert (w t0).r_hub)) →
      ∃ v A, u[i]? = some (V3.fin v) ∧ A ≤ 1/2 ∧ V3.dot v s = V3.dot (U0.getD 0) s - V * A ∧
        T ρ - S * (0.99 * R / ((n:ℝ) - 1)) - C^2 * R^2/(4 * lam^2 * ρ^2) ≤ 4 * A * (1 - A) ∧ 4 * A * (1 - A) ≤ T ρ + S * (0.99 * R / ((n:ℝ) - 1)) := by
  intro q
  obtain ⟨x, hx⟩ : ∃ x : ℕ → ℝ, ∀ i, x i = (0.005 + i * (0.99 / ((n:ℝ) - 1))) * R := ⟨_, fun _ => rfl⟩
  obtain ⟨hx0, hinc, hxe, hxl, hxm, hxs⟩ := spread_stations n hn R hR x hx
  obtain ⟨K, hK⟩ : ∃ K : ℕ → ℝ, ∀ i, K i = mini (fun k => .fin |k * (1 + k / (4 * (lam * x i / R)^2)) - T (x i)|) := ⟨_, fun _ => rfl⟩
  have hKm : ∀ i < n, 0 ≤ K i ∧ K i * (1 + K i / (4 * (lam * x i / R)^2)) = T (x i) := by
    intro i hi
    obtain ⟨k, e, k0, k1⟩ := hmin (x i) (hxm i hi).1 (hxm i hi).2
    rw [hK, e]; exact ⟨k0, k1⟩
  have ew : w t0 = (WT.new R (args t0).hub (args t0).shaft (args t0).vert (args t0).U0 (args t0).Lambda (args t0).Ground (args t0).Model).run mini
      (h ++ [.loading { r := some r, Ct := some (Ct.map .fin), Lambda := some (.fin lam), nCyl := some n }]) := by
    rw [hw t0, hload, ← hRt]; rfl
  obtain ⟨k1, k2, k3, -⟩ := thrust_rings mini R (args t0).hub (args t0).shaft (args t0).vert (args t0).U0 (args t0).Lambda (args t0).Ground (args t0).Model hR h n x (fun i => T (x i)) K _
    lam hl hl20 hn hx0 hinc (fun i hi => (hTC _ (hxm i hi).1 (hxm i hi).2).1) hK hKm (fun _ _ => rfl) _ _
    (spread_reinterp R hR n hn r Ct hr hincr hlen T hT _ x hx) rfl rfl rfl (w t0) ew V hV hV0
  obtain ⟨u, u0, h1, h2, h3⟩ := row_spread mini args hist ts hnd t0 ht0 st pts hp o hnw hta hlo hro U0 w hw ho hst hM hchi s hs R hR n hn x hx _ k1 (by simp) (Or.inr k2) k3
  obtain ⟨chi, c1, c2⟩ := hchi t0 ht0
  have key := C145_swirl mini R (args t0).hub (args t0).shaft (args t0).vert (args t0).U0 (args t0).Lambda (args t0).Ground (args t0).Model (ho t0 ht0) hR h pts hp
    { o with ground := some false, only_ind := true } hnw hlo hro hta n hn r Ct hr hincr hlen T hT C S hC hTC hS lam hl hl20 hmin
  dsimp only at key
  rw [← ew] at key
  obtain ⟨u0', y1, y2⟩ := key V hV hV0 rfl (hM t0 ht0) chi (by rw [computeU_state] at c1 ⊢; exact c1) c2
  rw [h2] at y1
  obtain rfl : u0 = u0' := by simpa using y1
  have hss : V3.dot s s = 1 := by
    obtain ⟨-, -, -, -, -, a6⟩ := rotorAxes_run mini R (args t0).hub (args t0).shaft (args t0).vert (args t0).U0 (args t0).Lambda (args t0).Ground (args t0).Model (ho t0 ht0)
      (h ++ [.loading { r := some r, Ct := some (Ct.map .fin), Lambda := some (.fin lam), nCyl := some n }])
    rw [← ew, hs t0 ht0] at a6
    exact a6
  refine ⟨u, h1, fun i p ρ hpi hρ hz hρ0 hρ1 hoff hn' hg hg0 => ?_⟩
  obtain ⟨v, v0, v1, v2, v3⟩ := h3 i p hpi hz (fun j hj => by rw [← hρ, hx]; exact hoff j hj) hn' hg hg0
  obtain ⟨v', z1, z2⟩ := y2 i p hpi
  rw [v2] at z1
  obtain rfl : v0 = v' := by
    have := Option.some.inj z1
    simp only [V3.fin, V3.mk.injEq, Num.fin_inj] at this
    ext
    · exact this.1
    · exact this.2.1
    · exact this.2.2
  rw [hs t0 ht0] at z2
  obtain ⟨A, A1, A2, A3⟩ := z2 ρ (hz t0 ht0) (by rw [hρ, axisDist_plane s _ p hss (hz t0 ht0)]) hρ0 hρ1 hoff
  refine ⟨v, A, v1, A1, ?_, A3⟩
  have e : v0 - (if ({ o with ground := some false, only_ind := true } : Opts).only_ind then 0 else (w t0).U0_g) = v0 := by ext <;> simp
  rw [e] at A2
  rw [v3, A2]; ring

/-- the rings that `update_loading` stores for the thrust coefficients `c` of several stations when the rotation of the wake is not modelled -/
theorem noswirl_rings (mini : (ℝ → Num) → ℝ) (R : ℝ) (hub shaft vert U0 : V3 ℝ) (L : Option Num) (gr : Bool)
    (M : String) (hR : 0 < R) (h : List Op) (n : ℕ) (r c : ℕ → ℝ) (Λ : Num) (Ω V : ℝ) (hn : 2 ≤ n) (h0 : 0 < r 0) (hinc : ∀ i j, i < j → j < n → r i < r j)
    (hist : List Op) (a : LoadArgs) (hre : reinterp R a = .ok (some ((List.range n).map r), some (farr n c), none)) (hla : a.Lambda = some Λ) (hf : a.gamma_t_Ct = none)
    (hh : hist = h ++ [.loading a]) (w : WT) (hw : w = (WT.new R hub shaft vert U0 L gr M).run mini hist) (hV : V = V3.norm w.U0_g) (hV0 : 0 < V)
    (hΛ : (∃ lam, Λ = .fin lam ∧ Ω = lam * V / R) ∨ Λ = .pinf ∧ Ω = 800) (hL : 20 ≤ Ω * R / V) (hlow : ∀ i < n, c i ≤ Ctc) (hrad : ∀ i < n, ctNoSwirl n r c R V Ω i ≤ 1) :
    ∃ gt : List ℝ, gt.length = n ∧ w.gamma_t = some (gt.map .fin) ∧ w.gamma_l = none ∧ w.r = some ((List.range n).map r) := by
  obtain ⟨w0, hw0⟩ : ∃ w0, w0 = (WT.new R hub shaft vert U0 L gr M).run mini h := ⟨_, rfl⟩
  have hw : w = (w0.updateLoading mini a).2 := by
    rw [hw, hh, run_append, ← hw0]; rfl
  have hfr := frame_run mini shaft vert R h _ (frame_new R hub shaft vert U0 L gr M)
  rw [← hw0] at hfr
  have hU0 : w.U0_g = w0.U0_g := by
    rw [hw]
    unfold WT.updateLoading
    simp only
    repeat' split
    all_goals rfl
  have hRw : w0.R = R := hfr.R
  have hVw : V3.norm w0.U0_g = V := by rw [← hU0, ← hV]
  have hΩ : 0 < Ω := by
    by_contra hneg
    have : Ω * R / V ≤ 0 := div_nonpos_of_nonpos_of_nonneg (mul_nonpos_of_nonpos_of_nonneg (not_lt.mp hneg) hR.le) hV0.le
    linarith
  obtain ⟨X, hX, hXΩ⟩ : ∃ X, Λ * .fin V / .fin R = X ∧ (X = .fin Ω ∨ X = .pinf ∧ Ω = 800) := by
    rcases hΛ with ⟨lam, rfl, rfl⟩ | ⟨rfl, rfl⟩
    · exact ⟨_, rfl, Or.inl (by rw [Num.fin_mul, Num.fin_div hR.ne'])⟩
    · exact ⟨_, rfl, Or.inr ⟨pinf_scale V R hV0 hR, rfl⟩⟩
  obtain ⟨v, v1, v2, v3⟩ := fromGamma_noswirl n r c R V Ω X hXΩ (by omega) h0 hinc (by omega) hV0 hΩ hL hlow hrad
  obtain ⟨g1, g2, g3⟩ := loading_vort mini w0 n r Λ X a _ none v (by rw [hRw]; exact hre) hla hf (by rw [hVw, hRw]; exact hX) (by
    rw [hRw, hVw]
    exact Or.inr ⟨_, rfl, (fromCt_noswirl mini n r c R V Ω X hXΩ hV0 hΩ hL).trans v1⟩)
  rw [← hw] at g1 g2 g3
  rw [v2, ← farr_map] at g1
  exact ⟨_, by simp, g1, g2.trans v3, g3⟩

theorem spread_radicand (n : ℕ) (hn : 2 ≤ n) (R : ℝ) (hR : 0 < R) (x : ℕ → ℝ) (hx : ∀ i, x i = (0.005 + i * (0.99 / ((n:ℝ) - 1))) * R) (T : ℝ → ℝ) (C V Ω : ℝ) (hΩ : 0 < Ω)
    (hTC : ∀ y, 0.005 * R ≤ y → y ≤ 0.995 * R → 0 ≤ T y ∧ T y ≤ C) (hrad : C + V^2 * C^2/(16*π*Ω^3*(0.005*R + 0.495*R/((n:ℝ)-1))^2) ≤ 1) :
    ∀ k < n, ctNoSwirl n x (fun i => T (x i)) R V Ω k ≤ 1 := by
  have hn1 : (0:ℝ) < (n:ℝ) - 1 := by
    have : (2:ℝ) ≤ n := by exact_mod_cast hn
    linarith
  obtain ⟨hx0, hinc, hxe, hxl, hxm, hxs⟩ := spread_stations n hn R hR x hx
  obtain ⟨o1, o2⟩ := rcyl_outside n x R hn hinc
  have hpi := pi_pos
  have hb := ctNoSwirl_bounds n x (fun i => T (x i)) R V Ω C hΩ hn hx0 hinc (fun i hi => hTC _ (hxm i hi).1 (hxm i hi).2)
  have hrc0 : ∀ k < n, 0.005*R + 0.495*R/((n:ℝ)-1) ≤ rcyl n x R k := by
    have e0 : rcyl n x R 0 = 0.005*R + 0.495*R/((n:ℝ)-1) := by
      have := hxs 1 one_pos
      simp only [Nat.sub_self] at this
      unfold rcyl
      rw [if_neg (by omega), if_neg (by omega), zero_add]
      have h2 : 0.495*R/((n:ℝ)-1) = (0.99 * R / ((n:ℝ) - 1))/2 := by ring
      rw [h2]
      linarith
    intro k
    induction k with
    | zero => intro _; rw [e0]
    | succ k ih => intro hk; exact (ih (by omega)).trans (o2 k hk).le
  intro k hk
  have h1 := (hb k hk).2
  obtain ⟨t0, t1⟩ := hTC _ (hxm k hk).1 (hxm k hk).2
  have h2 : V^2 * (T (x k))^2/(16*π*Ω^3*(rcyl n x R k)^2) ≤ V^2 * C^2/(16*π*Ω^3*(0.005*R + 0.495*R/((n:ℝ)-1))^2) := by
    have := hrc0 k hk
    gcongr
  linarith

/-- C157, tip-speed ratio of 20 or more, or infinite: the same, within the spacing of the stations and the convection term -/
theorem C157_noswirl (mini : (ℝ → Num) → ℝ) (args : ℕ → TurbineArgs) (hist : ℕ → List Op) (ts : List ℕ) (hnd : ts.Nodup) (t0 : ℕ) (ht0 : t0 ∈ ts) (st : ℕ → List (ℝ × ℝ))
    (pts : List (V3 ℝ)) (hp : pts ≠ []) (o : Opts) (hnw : o.no_wake = false) (hta : o.tang = true) (hlo : o.longi = false) (hro : o.root = false)
    (U0 : Option (V3 ℝ)) (w : ℕ → WT) (hw : ∀ t, w t = ((args t).build).run mini (hist t))
    (ho : ∀ t ∈ ts, Orthonormal (args t).shaft (args t).vert) (hst : ∀ t ∈ ts, t ≠ t0 → HasStations (w t) (st t) ∧ ∀ y ∈ st t, 0 < y.2)
    (hM : ∀ t ∈ ts, o.Model.getD (w t).Model = "VC")
    (hchi : ∀ t ∈ ts, ∃ chi, ((w t).computeU pts o).2.chi = some chi ∧ ¬ (Num.fin 1e-7 < Num.abs chi)) (s : V3 ℝ) (hs : ∀ t ∈ ts, (w t).e_shaft_g = s)
    (R : ℝ) (hRt : (args t0).R = R) (hR : 0 < R) (h : List Op)
    (n : ℕ) (hn : 2 ≤ n) (r Ct : List ℝ) (hr : r ≠ []) (hincr : r.Pairwise (· < ·)) (hlen : Ct.length = r.length) (T : ℝ → ℝ) (hT : Interpolates r Ct T)
    (C S : ℝ) (hC : C ≤ Ctc) (hTC : ∀ y, 0.005 * R ≤ y → y ≤ 0.995 * R → 0 ≤ T y ∧ T y ≤ C)
    (hS : ∀ y z, 0.005 * R ≤ y → y ≤ z → z ≤ 0.995 * R → |T z - T y| ≤ S * (z - y)) (Λ : Num) (Ω : ℝ)
    (hload : hist t0 = h ++ [.loading { r := some r, Ct := some (Ct.map .fin), Lambda := some Λ, nCyl := some n }])
    (V : ℝ) (hV : V = V3.norm (w t0).U0_g) (hV0 : 0 < V)
    (hΛ : (∃ lam, Λ = .fin lam ∧ Ω = lam * V / R) ∨ Λ = .pinf ∧ Ω = 800) (hL : 20 ≤ Ω * R / V)
    (hrad : C + V^2 * C^2/(16*π*Ω^3*(0.005*R + 0.495*R/((n:ℝ)-1))^2) ≤ 1) :
    let q := frun mini (ts.map .turbine) w []
    ∃ u, (farmVelocity q.1 q.2 pts o U0).1 = .ok u ∧ ∀ (i : ℕ) (p : V3 ℝ) (ρ : ℝ), pts[i]? = some p → ρ = V3.norm (p - (w t0).r_hub) →
      (∀ t ∈ ts, V3.dot (p - (w t).r_hub) s = 0) → 0.005 * R < ρ → ρ < 0.995 * R →
      (∀ j < n, 1e-8 * R ≤ |ρ - (0.005 + j * (0.99 / ((n:ℝ) - 1))) * R|) →
      (∀ t ∈ ts, t ≠ t0 → ∀ y ∈ st t, (1 + 1e-8) * y.2 ≤ V3.norm (p - (w t).r_hub)) →
      (∀ t ∈ ts, t ≠ t0 → o.ground.getD (w t).Ground = true → ∀ y ∈ st t, (1 + 1e-8) * y.2 ≤ V3.norm (p - groundImage (args t).vert (w t).r_hub)) →
      (o.ground.getD (w t0).Ground = true → R ≤ V3.norm (p - groundImage (args t0).vert (w t0).r_hub)) →
      ∃ v A, u[i]? = some (V3.fin v) ∧ A ≤ 1/2 ∧ V3.dot v s = V3.dot (U0.getD 0) s - V * A ∧
        |4 * A * (1 - A) - T ρ| ≤ S * (0.99 * R / ((n:ℝ) - 1)) + V^2 * C^2/(16*π*Ω^3*ρ^2) := by
  intro q
  obtain ⟨x, hx⟩ : ∃ x : ℕ → ℝ, ∀ i, x i = (0.005 + i * (0.99 / ((n:ℝ) - 1))) * R := ⟨_, fun _ => rfl⟩
  obtain ⟨hx0, hinc, hxe, hxl, hxm, hxs⟩ := spread_stations n hn R hR x hx
  have hΩ : 0 < Ω := by
    by_contra hneg
    have : Ω * R / V ≤ 0 := div_nonpos_of_nonpos_of_nonneg (mul_nonpos_of_nonpos_of_nonneg (not_lt.mp hneg) hR.le) hV0.le
    linarith
  have ew : w t0 = (WT.new R (args t0).hub (args t0).shaft (args t0).vert (args t0).U0 (args t0).Lambda (args t0).Ground (args t0).Model).run mini
      (h ++ [.loading { r := some r, Ct := some (Ct.map .fin), Lambda := some Λ, nCyl := some n }]) := by
    rw [hw t0, hload, ← hRt]; rfl
  obtain ⟨gt, gl, k1, k2, k3⟩ := noswirl_rings mini R (args t0).hub (args t0).shaft (args t0).vert (args t0).U0 (args t0).Lambda (args t0).Ground (args t0).Model hR h n x (fun i => T (x i))
    Λ Ω V hn hx0 hinc _ _ (spread_reinterp R hR n hn r Ct hr hincr hlen T hT _ x hx) rfl rfl rfl (w t0) ew hV hV0 hΛ hL (fun i hi => (hTC _ (hxm i hi).1 (hxm i hi).2).2.trans hC)
    (spread_radicand n hn R hR x hx T C V Ω hΩ hTC hrad)
  obtain ⟨u, u0, h1, h2, h3⟩ := row_spread mini args hist ts hnd t0 ht0 st pts hp o hnw hta hlo hro U0 w hw ho hst hM hchi s hs R hR n hn x hx gt k1 gl (Or.inl k2) k3
  obtain ⟨chi, c1, c2⟩ := hchi t0 ht0
  have key := C145_noswirl mini R (args t0).hub (args t0).shaft (args t0).vert (args t0).U0 (args t0).Lambda (args t0).Ground (args t0).Model (ho t0 ht0) hR h pts hp
    { o with ground := some false, only_ind := true } hnw hlo hro hta n hn r Ct hr hincr hlen T hT C S hC hTC hS Λ Ω V
  dsimp only at key
  rw [← ew] at key
  obtain ⟨u0', y1, y2⟩ := key hV hV0 hΛ hL hrad rfl (hM t0 ht0) chi (by rw [computeU_state] at c1 ⊢; exact c1) c2
  rw [h2] at y1
  obtain rfl : u0 = u0' := by simpa using y1
  have hss : V3.dot s s = 1 := by
    obtain ⟨-, -, -, -, -, a6⟩ := rotorAxes_run mini R (args t0).hub (args t0).shaft (args t0).vert (args t0).U0 (args t0).Lambda (args t0).Ground (args t0).Model (ho t0 ht0)
      (h ++ [.loading { r := some r, Ct := some (Ct.map .fin), Lambda := some Λ, nCyl := some n }])
    rw [← ew, hs t0 ht0] at a6
    exact a6
  refine ⟨u, h1, fun i p ρ hpi hρ hz hρ0 hρ1 hoff hn' hg hg0 => ?_⟩
  obtain ⟨v, v0, v1, v2, v3⟩ := h3 i p hpi hz (fun j hj => by rw [← hρ, hx]; exact hoff j hj) hn' hg hg0
  obtain ⟨v', z1, z2⟩ := y2 i p hpi
  rw [v2] at z1
  obtain rfl : v0 = v' := by
    have := Option.some.inj z1
    simp only [V3.fin, V3.mk.injEq, Num.fin_inj] at this
    ext
    · exact this.1
    · exact this.2.1
    · exact this.2.2
  rw [hs t0 ht0] at z2
  obtain ⟨A, A1, A2, A3⟩ := z2 ρ (hz t0 ht0) (by rw [hρ, axisDist_plane s _ p hss (hz t0 ht0)]) hρ0 hρ1 hoff
  refine ⟨v, A, v1, A1, ?_, A3⟩
  have e : v0 - (if ({ o with ground := some false, only_ind := true } : Opts).only_ind then 0 else (w t0).U0_g) = v0 := by ext <;> simp
  rw [e] at A2
  rw [v3, A2]; ring

/-- a concrete row: three rotors of 50 m, 200 m apart, 80 m above the ground; the middle one loaded with a thrust coefficient of 1/2 spread over 11 stations (infinite tip-speed ratio), the others with a
cylinder each of any intensity.  30 m from the axis of the middle one the thrust coefficient of the slow-down is 1/2 within 1e-11. -/
example (mini : (ℝ → Num) → ℝ) (γ : ℝ) :
    let args : ℕ → TurbineArgs := fun t => ⟨50, ⟨200*t, 80, 0⟩, ⟨0, 0, 1⟩, ⟨0, 1, 0⟩, ⟨0, 0, 10⟩, none, true, "VC"⟩
    let a1 : LoadArgs := { r := some [0, 50], Ct := some ([1/2, 1/2].map Num.fin), Lambda := some .pinf, nCyl := some 11 }
    let a2 : LoadArgs := { Ct := some [.fin 1], Lambda := some .pinf, gamma_t_Ct := some fun _ => [.fin γ] }
    let w := fun t => ((args t).build).run mini ([.chi (some 0)] ++ [.loading (if t = 1 then a1 else a2)])
    let q := frun mini (([0, 1, 2] : List ℕ).map .turbine) w []
    ∃ u, (farmVelocity q.1 q.2 [⟨230, 80, 0⟩] {} (some ⟨0, 0, 10⟩)).1 = .ok u ∧ ∃ v A, u[0]? = some (V3.fin v) ∧ A ≤ 1/2 ∧
      V3.dot v ⟨0, 0, 1⟩ = 10 * (1 - A) ∧ |4 * A * (1 - A) - 1/2| ≤ 1e-11 := by
  intro args a1 a2 w q
  obtain ⟨ld, hld⟩ : ∃ ld : ℕ → LoadArgs, ∀ t, ld t = if t = 1 then a1 else a2 := ⟨_, fun _ => rfl⟩
  have hw : ∀ t, w t = ((args t).build).run mini ([.chi (some 0)] ++ [.loading (ld t)]) := by intro t; rw [hld]
  have hn : V3.norm (⟨0,0,10⟩ : V3 ℝ) = 10 := by unfold V3.norm; simp
  have hfr : ∀ t, (w t).r_hub = ⟨200*t, 80, 0⟩ ∧ (w t).e_shaft_g = ⟨0,0,1⟩ ∧ (w t).U0_g = ⟨0,0,10⟩ ∧ (w t).Ground = true ∧ (w t).chi = some 0 ∧ (w t).Model = "VC" ∧ (w t).R = 50 := by
    intro t
    obtain ⟨e1, e2, -, -, e5, -, -, -, -, -, e11, e12, e13, e14⟩ := loading_frame mini (((args t).build).run mini [.chi (some 0)]) (ld t)
    have hwt := hw t
    rw [run_append] at hwt
    refine ⟨by rw [hwt]; exact e2, ?_, by rw [hwt]; exact e11, by rw [hwt]; exact e12, by rw [hwt]; exact e13, by rw [hwt]; exact e14, by rw [hwt]; exact e1⟩
    rw [hwt]
    refine e5.trans ?_
    have := (frame_run mini ⟨0,0,1⟩ ⟨0,1,0⟩ 50 [.chi (some 0)] _ (frame_new 50 ⟨200*t, 80, 0⟩ ⟨0,0,1⟩ ⟨0,1,0⟩ ⟨0,0,10⟩ none true "VC")).e_shaft_g
    rw [turn_eq] at this
    refine this.trans ?_
    change turn _ 0 _ = _
    unfold turn
    ext <;> simp
  have hg : ∀ t, t ≠ 1 → (w t).gamma_t = some [.fin γ] := by
    intro t ht
    rw [hw t, run_append, hld, if_neg ht]
    rfl
  have hw1 : ([.chi (some 0)] ++ [.loading (ld 1)] : List Op) = [.chi (some 0)] ++ [.loading a1] := by rw [hld, if_pos rfl]
  clear_value w
  have hpi3 := pi_gt_three
  obtain ⟨u, hu, H⟩ := C157_noswirl mini args (fun t => [.chi (some 0)] ++ [.loading (ld t)]) [0, 1, 2] (by decide) 1 (by simp) (fun _ => [(γ, 50)])
    [⟨230, 80, 0⟩] (by simp) {} rfl rfl rfl rfl (some ⟨0,0,10⟩) w hw (fun t _ => ⟨by simp [V3.dot, args], by simp [V3.dot, args], by simp [V3.dot, args]⟩)
    (fun t _ ht => ⟨Or.inl ⟨γ, hg t ht, by rw [(hfr t).2.2.2.2.2.2]⟩, by simp⟩) (fun t _ => by rw [(hfr t).2.2.2.2.2.1]; rfl)
    (fun t _ => ⟨0, by rw [computeU_state]; change some (match (w t).chi with | some c => c | none => (w t).chiAuto) = _; rw [(hfr t).2.2.2.2.1],
      by simp [Num.abs_fin, Num.zero_def, Num.lt_fin]; norm_num⟩) ⟨0,0,1⟩ (fun t _ => (hfr t).2.1) 50 rfl (by norm_num) [.chi (some 0)] 11 (by norm_num)
    [0, 50] [1/2, 1/2] (by simp) (by simp) rfl _ (interpolates_const 0 50 (1/2))
    (1/2) 0 (by norm_num [Ctc, ac]) (fun y _ _ => by norm_num) (fun y z _ _ _ => by simp) .pinf 800 hw1 10 (by rw [(hfr 1).2.2.1, hn]) (by norm_num) (Or.inr (by simp)) (by norm_num) (by
      have : 10^2 * (1/2:ℝ)^2/(16*π*800^3*(0.005*50 + 0.495*50/((11:ℕ)-1))^2) ≤ 10^2 * (1/2:ℝ)^2/(16*3*800^3*(0.005*50 + 0.495*50/((11:ℕ)-1))^2) := by
        have h1 : (0:ℝ) < (0.005*50 + 0.495*50/((11:ℕ)-1))^2 := by norm_num
        generalize ((0.005*50 + 0.495*50/((11:ℕ)-1))^2 : ℝ) = q at *
        gcongr
      refine (add_le_add_right this _).trans ?_
      norm_num)
  have h3 : ∀ t ∈ ([0, 1, 2] : List ℕ), t = 0 ∨ t = 1 ∨ t = 2 := by intro t ht; simpa using ht
  obtain ⟨v, A, v1, A1, A2, A3⟩ := H 0 ⟨230, 80, 0⟩ 30 rfl (by
      rw [(hfr 1).1]
      unfold V3.norm
      norm_num [show √(900:ℝ) = 30 by rw [show (900:ℝ) = 30^2 by norm_num]; exact sqrt_sq (by norm_num)])
    (fun t _ => by rw [(hfr t).1]; simp [V3.dot]) (by norm_num) (by norm_num) (by
    intro j hj
    have : (j:ℝ) ≤ 6 ∨ (7:ℝ) ≤ j := by
      rcases Nat.lt_or_ge j 7 with h | h
      · left; exact_mod_cast Nat.lt_succ_iff.mp h
      · right; exact_mod_cast h
    rw [le_abs]
    rcases this with h | h
    · left; norm_num; linarith
    · right; norm_num; linarith) (by
    intro t ht h y hy
    rw [List.mem_singleton.1 hy, (hfr t).1]
    refine Real.le_sqrt_of_sq_le ?_
    simp only [V3.sub_x, V3.sub_y, V3.sub_z]
    rcases h3 t ht with rfl | rfl | rfl
    · norm_num
    · exact absurd rfl h
    · norm_num) (by
    intro t ht h _ y hy
    rw [List.mem_singleton.1 hy, (hfr t).1]
    refine Real.le_sqrt_of_sq_le ?_
    simp only [groundImage, V3.dot, V3.smul, V3.sub_x, V3.sub_y, V3.sub_z, args]
    norm_num
    nlinarith [sq_nonneg (230 - 200 * (t:ℝ))]) (by
    intro _
    rw [(hfr 1).1]
    refine Real.le_sqrt_of_sq_le ?_
    simp only [groundImage, V3.dot, V3.smul, V3.sub_x, V3.sub_y, V3.sub_z, args]
    norm_num)
  refine ⟨u, hu, v, A, v1, A1, ?_, A3.trans ?_⟩
  · rw [A2]; simp [V3.dot]; ring
  have : 10^2 * (1/2:ℝ)^2/(16*π*800^3*30^2) ≤ 10^2 * (1/2:ℝ)^2/(16*3*800^3*30^2) := by gcongr
  rw [zero_mul, zero_add]
  refine this.trans ?_
  norm_num

end
end Wiz
