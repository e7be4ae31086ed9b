import Verif.Props.FarmAxes
import Verif.Props.WindFarmGrid
import Verif.Props.FarmBlockage

/-! # C131: symmetric farms have symmetric flows -/
set_option autoImplicit false

namespace Wiz
open Classical

/-- C131: a farm that is its own mirror image has a mirror symmetric flow.  `S` is a reflection; the turbines `ts` are built from `args` and
called with the histories `hist`; `σ` maps each turbine to its mirror image (the turbine itself if it stands in the plane of symmetry) and
permutes the farm.  Then `velocity_field` succeeds at the points exactly when it does at the reflected points, and the velocities there are
the reflected ones. -/
theorem C131_symmetric (mini : (ℝ → Num) → ℝ) (S : M3 ℝ) (hS : Reflection S) (args : ℕ → TurbineArgs) (hist : ℕ → List Op)
    (ho : ∀ t, Orthonormal (args t).shaft (args t).vert) (h0 : ∀ t, ¬ Opposed (args t).shaft (args t).vert (args t).U0)
    (hw : ∀ t U, Op.wind U ∈ hist t → ¬ Opposed (args t).shaft (args t).vert U)
    (ts : List ℕ) (σ : ℕ → ℕ) (hσ : (ts.map σ).Perm ts)
    (himg : ∀ t ∈ ts, args (σ t) = (args t).moved S ∧ hist (σ t) = (hist t).map (Op.mirrored S))
    (pts : List (V3 ℝ)) (o : Opts) (hl : o.longi = false) (hr : o.root = false) (U0 : Option (V3 ℝ)) (hU : ∀ U, U0 = some U → M3.mulVec S U = U) :
    let q := frun mini (ts.map .turbine) (fun t => ((args t).build).run mini (hist t)) []
    let x := fun pts => (farmVelocity q.1 q.2 pts o U0).1
    ((∃ u, x pts = .ok u) ↔ ∃ u', x (pts.map (M3.mulVec S)) = .ok u') ∧
    ∀ u u', x pts = .ok u → x (pts.map (M3.mulVec S)) = .ok u' → ∀ (i : ℕ) (v : V3 ℝ), u[i]? = some (V3.fin v) ↔ u'[i]? = some (V3.fin (M3.mulVec S v)) := by
  intro q x
  obtain ⟨s, hs⟩ : ∃ s : World, s = ⟨fun t => ((args t).build).run mini (hist t), fun _ => none, fun _ => [], 0⟩ := ⟨_, rfl⟩
  have hx : ∀ p, x p = (farmVelocity (ts.map .turbine) s p o U0).1 := fun p => by rw [hs]; rfl
  obtain ⟨s', hs'⟩ : ∃ s' : World, s' = ⟨fun t => if t ∈ ts then s.wt (σ t) else (((args t).moved S).build).run mini ((hist t).map (Op.mirrored S)),
    fun _ => none, fun _ => [], 0⟩ := ⟨_, rfl⟩
  have hwt : ∀ t, MirRel S (args t).shaft (args t).vert (args t).R (s.wt t) (s'.wt t) := by
    intro t
    have base := mir_run mini S hS (args t).shaft (args t).vert (args t).R (ho t) (hist t) _ _ (hw t)
      (mir_new S (args t).shaft (args t).vert (args t).R ((args t).build) (h0 t) (args t).hub (args t).U0 (args t).Lambda (args t).Ground (args t).Model rfl)
    have e : s'.wt t = (((args t).moved S).build).run mini ((hist t).map (Op.mirrored S)) := by
      rw [hs']
      by_cases ht : t ∈ ts
      · simp only [if_pos ht]
        rw [hs]
        simp only [(himg t ht).1, (himg t ht).2]
      · simp only [if_neg ht]
    rw [e, hs]
    exact base
  have rel : HRel (M3.mulVec S) (fun t => MirRel S (args t).shaft (args t).vert (args t).R) s s' :=
    ⟨hwt, by rw [hs, hs'], fun a => by rw [hs, hs']; rfl, by rw [hs, hs']⟩
  obtain ⟨-, k2, k3⟩ := velocity_rel (mirrored_axes mini S hS args ho) pts o ⟨hl, hr⟩ U0 (ts.map .turbine) s s' rel
  have hU' : U0.map (M3.mulVec S) = U0 := by
    cases U0 with
    | none => rfl
    | some U => rw [Option.map_some, hU U rfl]
  rw [hU'] at k2 k3
  -- the reflected heap is the same farm in another order
  have get' : ∀ t ∈ ts, s'.get t = s.get (σ t) := by
    intro t ht
    have e1 : s'.wt t = s.wt (σ t) := by rw [hs']; simp only [if_pos ht]
    have e2 : s'.hub t = s.hub (σ t) := by
      unfold World.hub
      have a : s'.view t = none := by rw [hs']
      have b : s.view (σ t) = none := by rw [hs]
      rw [a, b]; exact congrArg WT.r_hub e1
    unfold World.get
    rw [e1, e2]
  have ind : ∀ p t, t ∈ ts → inducedBy s' p o t = inducedBy s p o (σ t) := by
    intro p t ht; unfold inducedBy; rw [get' t ht]
  have succ : ∀ p, (∃ u, (farmVelocity (ts.map .turbine) s' p o U0).1 = .ok u) ↔ ∃ u, (farmVelocity (ts.map .turbine) s p o U0).1 = .ok u := by
    intro p
    rw [C18_succeeds_iff, C18_succeeds_iff]
    constructor
    · intro h y hy
      obtain ⟨t, ht, rfl⟩ := List.mem_map.1 hy
      obtain ⟨t', ht', rfl⟩ := List.mem_map.1 (hσ.mem_iff.2 ht)
      obtain ⟨t2, v, e, hv⟩ := h (.turbine t') (List.mem_map.2 ⟨t', ht', rfl⟩)
      cases e
      exact ⟨σ t', v, rfl, by rw [← ind p t' ht']; exact hv⟩
    · intro h y hy
      obtain ⟨t, ht, rfl⟩ := List.mem_map.1 hy
      obtain ⟨t2, v, e, hv⟩ := h (.turbine (σ t)) (List.mem_map.2 ⟨σ t, hσ.mem_iff.1 (List.mem_map.2 ⟨t, ht, rfl⟩), rfl⟩)
      cases e
      exact ⟨t, v, rfl, by rw [ind p t ht]; exact hv⟩
  have same : ∀ p u u', (farmVelocity (ts.map .turbine) s' p o U0).1 = .ok u → (farmVelocity (ts.map .turbine) s p o U0).1 = .ok u' → u = u' := by
    intro p u u' h1 h2
    obtain ⟨l1, g1⟩ := C18_sum _ _ _ _ _ _ h1
    obtain ⟨l2, g2⟩ := C18_sum _ _ _ _ _ _ h2
    apply List.ext_getElem (l1.trans l2.symm)
    intro i hi hi'
    have a := g1 i (l1 ▸ hi)
    have b := g2 i (l1 ▸ hi)
    rw [List.getD_eq_getElem?_getD, List.getElem?_eq_getElem hi, Option.getD_some] at a
    rw [List.getD_eq_getElem?_getD, List.getElem?_eq_getElem hi', Option.getD_some] at b
    rw [a, b]
    congr 1
    rw [List.map_map, List.map_map]
    have e : ts.map (inducedAt s' p o i ∘ PyObj.turbine) = (ts.map σ).map (inducedAt s p o i ∘ PyObj.turbine) := by
      rw [List.map_map]
      apply List.map_congr_left
      intro t ht
      simp only [Function.comp, inducedAt, ind p t ht]
    rw [e]
    exact (hσ.map _).sum_eq
  have okiff : ∀ (a b : Except String (List (V3 Num))), (∀ e, a = .error e ↔ b = .error e) → ((∃ u, a = .ok u) ↔ ∃ u, b = .ok u) := by
    intro a b h
    cases a with
    | error e =>
      rw [(h e).1 rfl]
    | ok u =>
      cases b with
      | error e => exact absurd ((h e).2 rfl) (by simp)
      | ok u' => exact ⟨fun _ => ⟨_, rfl⟩, fun _ => ⟨_, rfl⟩⟩
  refine ⟨?_, ?_⟩
  · rw [hx, hx, ← succ (pts.map (M3.mulVec S))]
    exact okiff _ _ k2
  · intro u u' h1 h2 i v
    rw [hx] at h1 h2
    obtain ⟨u2, hu2⟩ := (succ _).2 ⟨u', h2⟩
    have := same _ _ _ hu2 h2
    subst this
    exact (k3 u u2 h1 hu2).get (refl_inj S hS) i v

/-- C131: nothing flows through the plane of symmetry of a farm: at points of the plane a finite velocity lies in the plane. -/
theorem C131_plane (mini : (ℝ → Num) → ℝ) (S : M3 ℝ) (hS : Reflection S) (args : ℕ → TurbineArgs) (hist : ℕ → List Op)
    (ho : ∀ t, Orthonormal (args t).shaft (args t).vert) (h0 : ∀ t, ¬ Opposed (args t).shaft (args t).vert (args t).U0)
    (hw : ∀ t U, Op.wind U ∈ hist t → ¬ Opposed (args t).shaft (args t).vert U)
    (ts : List ℕ) (σ : ℕ → ℕ) (hσ : (ts.map σ).Perm ts)
    (himg : ∀ t ∈ ts, args (σ t) = (args t).moved S ∧ hist (σ t) = (hist t).map (Op.mirrored S))
    (pts : List (V3 ℝ)) (hp : ∀ p ∈ pts, M3.mulVec S p = p)
    (o : Opts) (hl : o.longi = false) (hr : o.root = false) (U0 : Option (V3 ℝ)) (hU : ∀ U, U0 = some U → M3.mulVec S U = U)
    (u : List (V3 Num))
    (hu : (let q := frun mini (ts.map .turbine) (fun t => ((args t).build).run mini (hist t)) []; (farmVelocity q.1 q.2 pts o U0).1) = .ok u)
    (i : ℕ) (v : V3 ℝ) (hv : u[i]? = some (V3.fin v)) : M3.mulVec S v = v := by
  obtain ⟨-, k⟩ := C131_symmetric mini S hS args hist ho h0 hw ts σ hσ himg pts o hl hr U0 hU
  have e : pts.map (M3.mulVec S) = pts := by
    conv_rhs => rw [← List.map_id pts]
    exact List.map_congr_left hp
  rw [e] at k
  have := (k u u hu hu i v).1 hv
  rw [hv] at this
  exact (fin_inj3 _ _ (Option.some.inj this)).symm

/-- two turbines at `x = ∓5` yawed in opposite directions and a third one between them, in the plane of symmetry `x = 0`, downstream -/
example : let S := mirrorIn ⟨1, 0, 0⟩
    let args : ℕ → TurbineArgs := fun t => ⟨1, if t = 0 then ⟨-5, 0, 0⟩ else if t = 1 then ⟨5, 0, 0⟩ else ⟨0, 0, 7⟩, ⟨0, 0, 1⟩, ⟨0, 1, 0⟩, ⟨0, 0, 10⟩, some .pinf, false, "VC"⟩
    let hist : ℕ → List Op := fun t => if t = 0 then [.yaw 0.3] else if t = 1 then [.yaw (-0.3)] else []
    let σ : ℕ → ℕ := fun t => if t = 0 then 1 else if t = 1 then 0 else t
    Reflection S ∧ (∀ t, Orthonormal (args t).shaft (args t).vert) ∧ (∀ t, ¬ Opposed (args t).shaft (args t).vert (args t).U0) ∧
    (∀ t U, Op.wind U ∈ hist t → ¬ Opposed (args t).shaft (args t).vert U) ∧ ([0, 1, 2].map σ).Perm [0, 1, 2] ∧
    (∀ t ∈ [0, 1, 2], args (σ t) = (args t).moved S ∧ hist (σ t) = (hist t).map (Op.mirrored S)) ∧
    M3.mulVec S ⟨0, 0, 10⟩ = ⟨0, 0, 10⟩ := by
  have img : ∀ a b c : ℝ, M3.mulVec (mirrorIn ⟨1, 0, 0⟩) ⟨a, b, c⟩ = ⟨-a, b, c⟩ := by
    intro a b c
    ext <;> simp [M3.mulVec, mirrorIn]; ring
  intro S args hist σ
  refine ⟨mirrorIn_refl _ (by simp [V3.dot]), fun t => ⟨by simp [V3.dot, args], by simp [V3.dot, args], by simp [V3.dot, args]⟩, ?_, ?_, ?_, ?_, ?_⟩
  · rintro t ⟨k, hk, e⟩
    have := congrArg V3.z e
    simp [horizontal, V3.dot, args] at this
    linarith
  · intro t U hU
    simp only [hist] at hU
    split_ifs at hU <;> simp at hU
  · simp only [σ]
    exact List.Perm.swap 0 1 [2]
  · intro t ht
    have : t = 0 ∨ t = 1 ∨ t = 2 := by simpa using ht
    rcases this with rfl | rfl | rfl <;> simp [σ, args, hist, TurbineArgs.moved, Op.mirrored, S, img]
  · simp only [S, img, neg_zero]

theorem reflN_sum {ι : Type} (l : List ι) (f : ι → V3 Num) : (l.map fun c => reflN (f c)).sum = reflN ((l.map f).sum) := by
  induction l with
  | nil => exact reflN_zero.symm
  | cons a l ih => rw [List.map_cons, List.map_cons, List.sum_cons, List.sum_cons, ih, reflN_add]

theorem cells_flip (nx nz : ℕ) : ((cells nx nz).map fun q => (q.1, nx - 1 - q.2)).Perm (cells nx nz) := by
  unfold cells
  rw [List.map_flatMap]
  apply List.Perm.flatMap_left
  intro i _
  rw [List.map_map]
  have e : (List.range nx).map ((fun q : ℕ × ℕ => (q.1, nx - 1 - q.2)) ∘ fun j => (i, j)) = ((List.range nx).reverse).map fun j => (i, j) := by
    have : (List.range nx).reverse = (List.range nx).map fun j => nx - 1 - j := by
      apply List.ext_getElem
      · simp
      · intro k h1 h2
        simp
    rw [this, List.map_map]; rfl
  rw [e]
  exact (List.reverse_perm _).map _

/-- C131 for `windfarm_gridlayout_CTconst`: the flow of a grid farm, with or without mirrored turbines, is symmetric about the plane
through the middle of its columns, `x = ((nx-1)/2 - ⌊nx/2⌋) xSpacing` — which is `x = 0` for an odd number of columns, and half a spacing to
the left of it for an even number. -/
theorem C131_grid (pts : List (V3 ℝ)) (R : ℝ) (CT U0 : Num) (nx nz : ℕ) (xS zS h : ℝ) (mirror : Bool) (c : ℝ)
    (hc : c = if nx % 2 = 1 then 0 else -(xS/2)) :
    ∃ u, gridlayoutCTconst pts R CT U0 nx xS nz (some zS) h mirror = .ok u ∧
      gridlayoutCTconst (pts.map fun p => ⟨2*c - p.x, p.y, p.z⟩) R CT U0 nx xS nz (some zS) h mirror = .ok (u.map fun v => ⟨-v.x, v.y, v.z⟩) := by
  refine ⟨_, gridCT_eq pts R CT U0 nx nz xS zS h mirror, ?_⟩
  rw [gridCT_eq]
  congr 1
  generalize (-2 * U0 * (.fin 0.5 * (1 - Num.sqrt (1 - CT))) : Num) = g
  obtain ⟨l1, s1⟩ := C50_tang_sum pts ((cells nx nz).map (cellGroup nx xS zS h g R) ++ (if mirror then (cells nx nz).map (cellGroup nx xS zS (-h) g R) else [])) 0 false
  obtain ⟨l2, s2⟩ := C50_tang_sum (pts.map fun p => ⟨2*c - p.x, p.y, p.z⟩) ((cells nx nz).map (cellGroup nx xS zS h g R) ++ (if mirror then (cells nx nz).map (cellGroup nx xS zS (-h) g R) else [])) 0 false
  -- one row of turbines
  have one : ∀ (h : ℝ) (i : ℕ), ((cells nx nz).map fun q => (([(g, R)].filter fun c => 0 < Num.abs c.1).map fun b =>
        (vcTang ((pts.map fun p => (⟨2*c - p.x, p.y, p.z⟩ : V3 ℝ)).map fun p => p - (cellGroup nx xS zS h g R q).pos) b.1 b.2 0).getD i 0).sum).sum =
      reflN (((cells nx nz).map fun q => (([(g, R)].filter fun c => 0 < Num.abs c.1).map fun b =>
        (vcTang (pts.map fun p => p - (cellGroup nx xS zS h g R q).pos) b.1 b.2 0).getD i 0).sum).sum) := by
    intro h i
    rw [← reflN_sum]
    have e : ∀ q ∈ cells nx nz, (([(g, R)].filter fun c => 0 < Num.abs c.1).map fun b =>
        (vcTang ((pts.map fun p => (⟨2*c - p.x, p.y, p.z⟩ : V3 ℝ)).map fun p => p - (cellGroup nx xS zS h g R q).pos) b.1 b.2 0).getD i 0).sum =
        (fun q => reflN ((([(g, R)].filter fun c => 0 < Num.abs c.1).map fun b =>
          (vcTang (pts.map fun p => p - (cellGroup nx xS zS h g R q).pos) b.1 b.2 0).getD i 0).sum)) (q.1, nx - 1 - q.2) := by
      intro q hq
      have hj : q.2 < nx := by
        simp [cells] at hq
        obtain ⟨a, -, b, hb, rfl⟩ := hq
        exact hb
      simp only
      rw [← reflN_sum]
      congr 1
      apply List.map_congr_left
      intro b _
      have ep : ((pts.map fun p => (⟨2*c - p.x, p.y, p.z⟩ : V3 ℝ)).map fun p => p - (cellGroup nx xS zS h g R q).pos) =
          (pts.map fun p => p - (cellGroup nx xS zS h g R (q.1, nx - 1 - q.2)).pos).map reflP := by
        rw [List.map_map, List.map_map]
        apply List.map_congr_left
        intro p _
        have hsub : ((nx - 1 - q.2 : ℕ) : ℝ) = nx - 1 - q.2 := by
          rw [Nat.cast_sub (by omega), Nat.cast_sub (by omega)]; norm_num
        have hpar : 2*c = ((nx:ℝ) - 1 - 2*((nx/2 : ℕ) : ℝ))*xS := by
          rw [hc]
          split_ifs with hn
          · have : nx = 2*(nx/2) + 1 := by omega
            have : (nx:ℝ) = 2*((nx/2 : ℕ):ℝ) + 1 := by exact_mod_cast this
            rw [this]
            ring_nf
          · have : nx = 2*(nx/2) := by omega
            have : (nx:ℝ) = 2*((nx/2 : ℕ):ℝ) := by exact_mod_cast this
            linear_combination (-xS) * this
        apply V3.ext
        · obtain ⟨q1, q2⟩ := q
          simp only [Function.comp, V3.sub_x, reflP, cellGroup, cellX_eq]
          simp only at hsub
          rw [hsub]
          linear_combination hpar
        · rfl
        · rfl
      rw [ep, vcTang_refl]
      rw [List.getD_eq_getElem?_getD, List.getD_eq_getElem?_getD, List.getElem?_map]
      cases (vcTang (pts.map fun p => p - (cellGroup nx xS zS h g R (q.1, nx - 1 - q.2)).pos) b.1 b.2 0)[i]? with
      | none => exact reflN_zero.symm
      | some v => rfl
    rw [List.map_congr_left e]
    have := ((cells_flip nx nz).map (fun q => reflN ((([(g, R)].filter fun c => 0 < Num.abs c.1).map fun b =>
          (vcTang (pts.map fun p => p - (cellGroup nx xS zS h g R q).pos) b.1 b.2 0).getD i 0).sum))).sum_eq
    rw [List.map_map] at this
    exact this
  apply List.ext_getElem
  · rw [List.length_map, l1, l2, List.length_map]
  · intro i h1 h2
    have a := s2 i
    have b := s1 i
    rw [List.getD_eq_getElem?_getD, List.getElem?_eq_getElem h1, Option.getD_some] at a
    rw [List.length_map] at h2
    rw [List.getD_eq_getElem?_getD, List.getElem?_eq_getElem h2, Option.getD_some] at b
    rw [List.getElem_map, a, b]
    clear a b
    simp only [Bool.false_eq_true, if_false, add_zero, List.map_append, List.sum_append]
    change _ = reflN _
    rw [reflN_add]
    congr 1
    · rw [List.map_map, List.map_map]
      exact one h i
    · cases mirror with
      | false => exact reflN_zero.symm
      | true =>
        simp only [if_true]
        rw [List.map_map, List.map_map]
        exact one (-h) i

end Wiz
