import Verif.Props.TurbineState
import Verif.Spec.History
import Verif.Props.Momentum

/-! # C124: what a turbine remembers -/
namespace Wiz
open Spec Real Classical

theorem memory_const {α : Type} (f : WT → α) (mini : (ℝ → Num) → ℝ) (hf : ∀ w op, f (w.step mini op) = f w) (h : List Op) :
    ∀ w : WT, f (w.run mini h) = f w := by
  induction h with
  | nil => intro w; rfl
  | cons o h ih => intro w; exact (ih _).trans (hf w o)

theorem memory_TF (mini : (ℝ → Num) → ℝ) (h : List Op) (w : WT) :
    ((w.run mini h).T_F2g, (w.run mini h).Ground, (w.run mini h).Model) = (w.T_F2g, w.Ground, w.Model) := by
  refine memory_const (fun w => (w.T_F2g, w.Ground, w.Model)) mini ?_ h w
  intro w op
  cases op with
  | loading a =>
    have := loading_frame mini w a
    obtain ⟨-, -, -, -, -, -, a1, -, -, -, -, a2, -, a3⟩ := this
    simp only [WT.step, a1, a2, a3]
  | eval pts o => simp only [WT.step]; rw [computeU_state]
  | _ => rfl

theorem memory_hub (mini : (ℝ → Num) → ℝ) (h : List Op) : ∀ w : WT, (w.run mini h).r_hub = lastHub w.r_hub h := by
  induction h with
  | nil => intro w; rfl
  | cons o h ih =>
    intro w
    refine (ih _).trans ?_
    unfold lastHub
    rw [List.foldl_cons]
    congr 1
    cases o with
    | loading a => exact (loading_frame mini w a).2.1
    | eval pts o => simp only [WT.step]; rw [computeU_state]
    | _ => rfl

theorem memory_wind (mini : (ℝ → Num) → ℝ) (h : List Op) : ∀ w : WT, (w.run mini h).U0_g = lastWind w.U0_g h := by
  induction h with
  | nil => intro w; rfl
  | cons o h ih =>
    intro w
    refine (ih _).trans ?_
    unfold lastWind
    rw [List.foldl_cons]
    congr 1
    cases o with
    | loading a => exact (loading_frame mini w a).2.2.2.2.2.2.2.2.2.2.1
    | eval pts o => simp only [WT.step]; rw [computeU_state]
    | _ => rfl

/-- what a loading stores -/
def WT.loads (w : WT) : Option (List ℝ) × Option (List Num) × Option (List Num) × Option Num × Option Num × Option (List Num) :=
  (w.r, w.gamma_t, w.gamma_l, w.Gamma_r, w.Lambda, w.Ct)

theorem loads_err (mini : (ℝ → Num) → ℝ) (w : WT) (a : LoadArgs) (e : String) (h : (w.updateLoading mini a).1 = .error e) :
    (w.updateLoading mini a).2 = w := by
  unfold WT.updateLoading at h ⊢
  simp only at h ⊢
  split
  · rfl
  · rename_i hr
    rw [hr] at h
    simp only at h
    split
    · rfl
    · rename_i hl
      rw [hl] at h
      simp only at h
      split
      · rfl
      · rename_i hs
        rw [hs] at h
        exact nomatch h

theorem loads_ok (mini : (ℝ → Num) → ℝ) (v v' : WT) (a : LoadArgs) (hR : v.R = v'.R) (hU : v.U0_g = v'.U0_g)
    (h : (v.updateLoading mini a).1 = .ok ()) : ∃ Λ, a.Lambda.or v.Lambda = some Λ ∧
    (v'.updateLoading mini { a with Lambda := some Λ }).1 = .ok () ∧
    (v'.updateLoading mini { a with Lambda := some Λ }).2.loads = (v.updateLoading mini a).2.loads ∧ (v.updateLoading mini a).2.gamma_t ≠ none ∧
    (v.updateLoading mini a).2.Lambda = some Λ := by
  obtain ⟨R, rh, e0, ev, es, eh, TF, Tc, Tw, yp, U0, wr, gt, gl, Gr, La, Ct, Gd, chi, Mo⟩ := v
  obtain ⟨R', rh', e0', ev', es', eh', TF', Tc', Tw', yp', U0', wr', gt', gl', Gr', La', Ct', Gd', chi', Mo'⟩ := v'
  obtain ⟨ar, aC, aG, aL, an, af⟩ := a
  change R = R' at hR
  change U0 = U0' at hU
  subst hR hU
  have hre : ∀ Λ, reinterp R ⟨ar, aC, aG, some Λ, an, af⟩ = reinterp R ⟨ar, aC, aG, aL, an, af⟩ := fun Λ => rfl
  unfold WT.updateLoading at h ⊢
  simp only [hre] at h ⊢
  cases hr : reinterp R ⟨ar, aC, aG, aL, an, af⟩ with
  | error e => rw [hr] at h; exact nomatch h
  | ok q =>
    obtain ⟨r, c, G⟩ := q
    rw [hr] at h
    simp only at h ⊢
    cases aL with
    | some l =>
      refine ⟨l, rfl, ?_⟩
      simp only at h ⊢
      cases hs : loadingSolve mini R (Num.fin (V3.norm U0)) (l * Num.fin (V3.norm U0) / Num.fin R) r c G af with
      | error e => rw [hs] at h; exact nomatch h
      | ok q => exact ⟨rfl, rfl, by simp, rfl⟩
    | none =>
      cases La with
      | none => exact nomatch h
      | some l =>
        refine ⟨l, rfl, ?_⟩
        simp only at h ⊢
        cases hs : loadingSolve mini R (Num.fin (V3.norm U0)) (l * Num.fin (V3.norm U0) / Num.fin R) r c G af with
        | error e => rw [hs] at h; exact nomatch h
        | ok q => exact ⟨rfl, rfl, by simp, rfl⟩

/-- a turbine is determined by its orientation, settings and loads -/
theorem memory_ext (shaft vert : V3 ℝ) (R : ℝ) (w w' : WT) (h : FrameInv shaft vert R w) (h' : FrameInv shaft vert R w')
    (e1 : (w.T_F2g, w.Ground, w.Model) = (w'.T_F2g, w'.Ground, w'.Model)) (e2 : w.r_hub = w'.r_hub) (e3 : w.U0_g = w'.U0_g)
    (e4 : w.yaw_pos = w'.yaw_pos) (e5 : w.chi = w'.chi) (e6 : w.loads = w'.loads) : w = w' := by
  obtain ⟨R1, rh, e0, ev, es, eh, TF, Tc, Tw, yp, U0, r, gt, gl, Gr, La, Ct, Gd, chi, Mo⟩ := w
  obtain ⟨R1', rh', e0', ev', es', eh', TF', Tc', Tw', yp', U0', r', gt', gl', Gr', La', Ct', Gd', chi', Mo'⟩ := w'
  obtain ⟨a1, a2, a3, a4, a5, a6, a7⟩ := h
  obtain ⟨b1, b2, b3, b4, b5, b6, b7⟩ := h'
  simp only [WT.loads, Prod.mk.injEq] at *
  obtain ⟨c1, c2, c3⟩ := e1
  obtain ⟨d1, d2, d3, d4, d5, d6⟩ := e6
  subst c1 c2 c3 d1 d2 d3 d4 d5 d6 e2 e3 e4 e5
  rw [a1, a2, a3, a4, a5, a6, a7, b1, b2, b3, b4, b5, b6, b7]

theorem loads_step (mini : (ℝ → Num) → ℝ) (w : WT) (o : Op) (ho : ∀ a, o = .loading a → (w.updateLoading mini a).1 ≠ .ok ()) :
    (w.step mini o).loads = w.loads := by
  cases o with
  | loading a =>
    cases hr : (w.updateLoading mini a).1 with
    | ok u => exact absurd hr (ho a rfl)
    | error e => simp only [WT.step]; rw [loads_err mini w a e hr]
  | eval pts o => simp only [WT.step]; rw [computeU_state]; rfl
  | _ => rfl

theorem memory_run_snoc (mini : (ℝ → Num) → ℝ) (w : WT) (h : List Op) (o : Op) : w.run mini (h ++ [o]) = (w.run mini h).step mini o := by
  unfold WT.run; rw [List.foldl_append]; rfl

theorem memory_loads (mini : (ℝ → Num) → ℝ) (t0 : WT) (h : List Op) :
    ((∀ k1 b k2, h = k1 ++ Op.loading b :: k2 → ((t0.run mini k1).updateLoading mini b).1 ≠ .ok ()) ∧ (t0.run mini h).loads = t0.loads) ∨
    (∃ h1 a h2 Λ, h = h1 ++ Op.loading a :: h2 ∧ ((t0.run mini h1).updateLoading mini a).1 = .ok () ∧
      (∀ k1 b k2, h = k1 ++ Op.loading b :: k2 → h1.length < k1.length → ((t0.run mini k1).updateLoading mini b).1 ≠ .ok ()) ∧
      a.Lambda.or (t0.run mini h1).Lambda = some Λ ∧
      (t0.run mini h).loads = ((t0.updateWind (lastWind t0.U0_g h1)).updateLoading mini { a with Lambda := some Λ }).2.loads) := by
  induction h using List.reverseRecOn with
  | nil => left; exact ⟨fun k1 b k2 e => by simp at e, rfl⟩
  | append_singleton h o ih =>
    by_cases ho : ∀ a, o = .loading a → ((t0.run mini h).updateLoading mini a).1 ≠ .ok ()
    · have hl := loads_step mini (t0.run mini h) o ho
      rw [← memory_run_snoc] at hl
      have hsplit : ∀ k1 b k2, h ++ [o] = k1 ++ Op.loading b :: k2 → (∃ k, h = k1 ++ Op.loading b :: k) ∨ (k1 = h ∧ o = .loading b) := by
        intro k1 b k2 e
        rcases List.eq_nil_or_concat k2 with rfl | ⟨k, x, rfl⟩
        · right
          have := List.append_inj' e rfl
          exact ⟨this.1.symm, by simpa using this.2⟩
        · left
          refine ⟨k, ?_⟩
          have e' : h ++ [o] = (k1 ++ Op.loading b :: k) ++ [x] := by rw [e]; simp
          exact (List.append_inj' e' rfl).1
      rcases ih with ⟨i1, i2⟩ | ⟨h1, a, h2, Λ, j1, j2, j3, j4, j5⟩
      · left
        refine ⟨?_, hl.trans i2⟩
        intro k1 b k2 e
        rcases hsplit k1 b k2 e with ⟨k, hk⟩ | ⟨rfl, rfl⟩
        · exact i1 k1 b k hk
        · exact ho b rfl
      · right
        refine ⟨h1, a, h2 ++ [o], Λ, by rw [j1]; simp, j2, ?_, j4, hl.trans j5⟩
        intro k1 b k2 e hlt
        rcases hsplit k1 b k2 e with ⟨k, hk⟩ | ⟨rfl, rfl⟩
        · exact j3 k1 b k hk hlt
        · exact ho b rfl
    · push Not at ho
      obtain ⟨a, rfl, hok⟩ := ho
      right
      obtain ⟨Λ, q1, q2, q3, -, -⟩ := loads_ok mini (t0.run mini h) (t0.updateWind (lastWind t0.U0_g h)) a
        (memory_const WT.R mini (fun w op => by
          cases op with
          | loading a => exact (loading_frame mini w a).1
          | eval pts o => simp only [WT.step]; rw [computeU_state]
          | _ => rfl) h t0) (memory_wind mini h t0) hok
      refine ⟨h, a, [], Λ, rfl, hok, ?_, q1, ?_⟩
      · intro k1 b k2 e hlt
        have := congrArg List.length e
        simp at this
        omega
      · rw [memory_run_snoc]
        exact q3.symm

/-- C124 (normal form): whatever was done to a new turbine, only the last position, wind and yaw, the last *successful* loading and the
last skew angle matter.  If no loading succeeded, the object equals a new one on which just the last position, wind and yaw and the skew
angle were set.  If `a` was the last loading that succeeded, the object equals a new one on which the wind in force at that loading was
set, the same loading was made (with the tip-speed ratio in force at the time), and then the last position, wind, yaw and skew angle. -/
theorem C124_normal_form (mini : (ℝ → Num) → ℝ) (R : ℝ) (hub shaft vert U0 : V3 ℝ) (L : Option Num) (G : Bool) (M : String) (h : List Op) :
    let t0 := WT.new R hub shaft vert U0 L G M
    let w := t0.run mini h
    ((∀ h1 a h2, h = h1 ++ Op.loading a :: h2 → ((t0.run mini h1).updateLoading mini a).1 ≠ .ok ()) ∧
      w = t0.run mini [.position (lastHub hub h), .wind (lastWind U0 h), .yaw (lastYaw h), .chi w.chi]) ∨
    (∃ h1 a h2 Λ, h = h1 ++ Op.loading a :: h2 ∧ ((t0.run mini h1).updateLoading mini a).1 = .ok () ∧
      (∀ k1 b k2, h = k1 ++ Op.loading b :: k2 → h1.length < k1.length → ((t0.run mini k1).updateLoading mini b).1 ≠ .ok ()) ∧
      a.Lambda.or (t0.run mini h1).Lambda = some Λ ∧
      w = t0.run mini [.wind (lastWind U0 h1), .loading { a with Lambda := some Λ },
        .position (lastHub hub h), .wind (lastWind U0 h), .yaw (lastYaw h), .chi w.chi]) := by
  intro t0 w
  have hf0 : FrameInv shaft vert R t0 := frame_new R hub shaft vert U0 L G M
  have hf := frame_run mini shaft vert R h t0 hf0
  have ext : ∀ k : List Op, lastHub hub k = lastHub hub h → lastWind U0 k = lastWind U0 h → lastYaw k = lastYaw h →
      (t0.run mini k).chi = w.chi → (t0.run mini k).loads = w.loads → w = t0.run mini k := by
    intro k a1 a2 a3 a4 a5
    refine memory_ext shaft vert R _ _ hf (frame_run mini shaft vert R k t0 hf0) ?_ ?_ ?_ ?_ a4.symm a5.symm
    · rw [memory_TF, memory_TF]
    · rw [memory_hub, memory_hub]; exact a1.symm
    · rw [memory_wind, memory_wind]; exact a2.symm
    · rw [yaw_run_new mini h t0 rfl, yaw_run_new mini k t0 rfl]; exact a3.symm
  rcases memory_loads mini t0 h with ⟨i1, i2⟩ | ⟨h1, a, h2, Λ, j1, j2, j3, j4, j5⟩
  · exact Or.inl ⟨i1, ext _ rfl rfl rfl rfl i2.symm⟩
  · exact Or.inr ⟨h1, a, h2, Λ, j1, j2, j3, j4, ext _ rfl rfl rfl rfl j5.symm⟩

/-- C124 (order of the calls): calls of different kinds that set the yaw, the position, the wind, the loading or the skew angle can be
exchanged, on any turbine, except setting the wind and loading. -/
theorem C124_commute (mini : (ℝ → Num) → ℝ) (w : WT) (y : ℝ) (p u : V3 ℝ) (a : LoadArgs) (c : Option Num) :
    (∀ o1 ∈ [Op.yaw y, .position p, .wind u, .chi c], ∀ o2 ∈ [Op.yaw y, .position p, .wind u, .chi c],
      w.run mini [o1, o2] = w.run mini [o2, o1]) ∧
    (∀ o ∈ [Op.yaw y, .position p, .chi c], w.run mini [o, .loading a] = w.run mini [.loading a, o]) := by
  constructor
  · intro o1 h1 o2 h2
    simp only [List.mem_cons, List.mem_nil_iff, or_false] at h1 h2
    rcases h1 with rfl | rfl | rfl | rfl <;> rcases h2 with rfl | rfl | rfl | rfl <;> rfl
  · intro o ho
    simp only [List.mem_cons, List.mem_nil_iff, or_false] at ho
    have key : ∀ f : WT → WT, (∀ w, (f w).R = w.R ∧ (f w).U0_g = w.U0_g ∧ (f w).Lambda = w.Lambda) →
        (∀ w gt gl Gr L r Ct, f { w with gamma_t := gt, gamma_l := gl, Gamma_r := Gr, Lambda := L, r := r, Ct := Ct } =
          { f w with gamma_t := gt, gamma_l := gl, Gamma_r := Gr, Lambda := L, r := r, Ct := Ct }) →
        ((f w).updateLoading mini a).2 = f (w.updateLoading mini a).2 := by
      intro f hf hg
      obtain ⟨f1, f2, f3⟩ := hf w
      unfold WT.updateLoading
      simp only [f1, f2, f3]
      split
      · rfl
      · split
        · rfl
        · split
          · rfl
          · simp only
            refine Eq.trans ?_ (hg w _ _ _ _ _ _).symm
            simp only [f1, f2]
    rcases ho with rfl | rfl | rfl
    · exact key (fun w => w.updateYawPos y) (fun w => ⟨rfl, rfl, rfl⟩) (fun _ _ _ _ _ _ _ => rfl)
    · exact key (fun w => w.updatePosition p) (fun w => ⟨rfl, rfl, rfl⟩) (fun _ _ _ _ _ _ _ => rfl)
    · exact key (fun w => w.setChi c) (fun w => ⟨rfl, rfl, rfl⟩) (fun _ _ _ _ _ _ _ => rfl)

/-- C124 (the exception): setting a stronger wind after loading is not the same as before: the vorticity stays that of the old wind. -/
theorem C124_stale_wind (mini : (ℝ → Num) → ℝ) (w : WT) (hR : 0 < w.R) (hU : w.U0_g ≠ 0) (u : V3 ℝ) (hu : V3.norm w.U0_g < V3.norm u)
    (h20 : 20 ≤ 800 * w.R / V3.norm u) (C : ℝ) (hC : 0 < C) (hCc : C ≤ Ctc) (h1 : C * (1 + C * π * V3.norm u^2 / 800 / (4 * π * 800 * w.R)^2) ≤ 1) :
    let a : LoadArgs := { Ct := some [.fin C], Lambda := some .pinf }
    ∃ g g', (w.run mini [.loading a, .wind u]).gamma_t = some [.fin g] ∧ (w.run mini [.wind u, .loading a]).gamma_t = some [.fin g'] ∧
      g' < g ∧ g < 0 := by
  have hn : 0 < V3.norm w.U0_g := norm_pos hU
  have hu0 : u ≠ 0 := by
    intro h; rw [h] at hu
    have : V3.norm (0 : V3 ℝ) = 0 := by show √((0:ℝ)^2 + 0^2 + 0^2) = 0; simp
    rw [this] at hu; exact absurd hu (not_lt.2 hn.le)
  have k1 := C34_update_loading mini w hR hU [C] (by simp) .pinf 800 (Or.inr ⟨rfl, rfl⟩)
    (h20.trans (by gcongr)) none none
  have k2 := C34_update_loading mini (w.updateWind u) hR hu0 [C] (by simp) .pinf 800 (Or.inr ⟨rfl, rfl⟩) h20 none none
  simp only [List.sum_cons, List.sum_nil, List.length_cons, List.length_nil, add_zero, Nat.zero_add, Nat.cast_one, div_one, List.map_cons, List.map_nil] at k1 k2
  have hlt : C * (1 + C * π * V3.norm w.U0_g^2 / 800 / (4 * π * 800 * w.R)^2) < C * (1 + C * π * V3.norm u^2 / 800 / (4 * π * 800 * w.R)^2) := by
    have := Real.pi_pos
    gcongr
  have e1 := k1.2.1 hCc (by linarith)
  have e2 := k2.2.1 hCc (sub_nonneg.2 h1)
  refine ⟨_, _, e1, e2, ?_, ?_⟩
  · change -V3.norm u * (1 - √(1 - C * (1 + C * π * V3.norm u^2 / 800 / (4 * π * 800 * w.R)^2))) < _
    have hs := Real.sqrt_lt_sqrt (sub_nonneg.2 h1) (sub_lt_sub_left hlt 1)
    have hs1 : √(1 - C * (1 + C * π * V3.norm u^2 / 800 / (4 * π * 800 * w.R)^2)) < 1 := by
      rw [Real.sqrt_lt' one_pos]
      have : 0 < C * (1 + C * π * V3.norm u^2 / 800 / (4 * π * 800 * w.R)^2) := by positivity
      linarith
    generalize √(1 - C * (1 + C * π * V3.norm u^2 / 800 / (4 * π * 800 * w.R)^2)) = s at *
    generalize √(1 - C * (1 + C * π * V3.norm w.U0_g^2 / 800 / (4 * π * 800 * w.R)^2)) = s' at *
    nlinarith
  · have hs1 : √(1 - C * (1 + C * π * V3.norm w.U0_g^2 / 800 / (4 * π * 800 * w.R)^2)) < 1 := by
      rw [Real.sqrt_lt' one_pos]
      have : 0 < C * (1 + C * π * V3.norm w.U0_g^2 / 800 / (4 * π * 800 * w.R)^2) := by positivity
      linarith
    nlinarith
/-- a turbine of radius 1 in a wind of 1, then 2, loaded with a thrust coefficient of 1/2: the hypotheses of `C124_stale_wind` are met -/
example (mini : (ℝ → Num) → ℝ) : ∃ g g', ((WT.new 1 0 ⟨1, 0, 0⟩ ⟨0, 0, 1⟩ ⟨1, 0, 0⟩ none false "VC").run mini
    [.loading { Ct := some [.fin (1/2)], Lambda := some .pinf }, .wind ⟨2, 0, 0⟩]).gamma_t = some [.fin g] ∧
    ((WT.new 1 0 ⟨1, 0, 0⟩ ⟨0, 0, 1⟩ ⟨1, 0, 0⟩ none false "VC").run mini
    [.wind ⟨2, 0, 0⟩, .loading { Ct := some [.fin (1/2)], Lambda := some .pinf }]).gamma_t = some [.fin g'] ∧ g' < g ∧ g < 0 := by
  have n1 : V3.norm (⟨1, 0, 0⟩ : V3 ℝ) = 1 := by show √((1:ℝ)^2 + 0^2 + 0^2) = 1; simp
  have n2 : V3.norm (⟨2, 0, 0⟩ : V3 ℝ) = 2 := by
    show √((2:ℝ)^2 + 0^2 + 0^2) = 2
    rw [show (2:ℝ)^2 + 0^2 + 0^2 = 2^2 by norm_num]; exact Real.sqrt_sq (by norm_num)
  refine C124_stale_wind mini (WT.new 1 0 ⟨1, 0, 0⟩ ⟨0, 0, 1⟩ ⟨1, 0, 0⟩ none false "VC") ?_ ?_ ⟨2, 0, 0⟩ ?_ ?_ (1/2) (by norm_num) ?_ ?_
  · show (0:ℝ) < 1; norm_num
  · intro h; have := congrArg V3.x h; exact one_ne_zero this
  · change V3.norm (⟨1, 0, 0⟩ : V3 ℝ) < _; rw [n1, n2]; norm_num
  · change (20:ℝ) ≤ 800 * 1 / _; rw [n2]; norm_num
  · unfold Ctc ac; norm_num
  · change 1/2 * (1 + 1/2 * π * _^2 / 800 / (4 * π * 800 * 1)^2) ≤ 1
    rw [n2]
    have h3 := Real.pi_gt_three
    have : 1/2 * π * 2^2 / 800 / (4 * π * 800 * 1)^2 ≤ 1 := by
      rw [div_div, div_le_one (by positivity)]; nlinarith
    linarith

/-- after a successful loading, a move and a loading without data (which fails), the second case of `C124_normal_form` is met, and not the first -/
example (mini : (ℝ → Num) → ℝ) : let t0 := WT.new 1 0 ⟨1, 0, 0⟩ ⟨0, 0, 1⟩ ⟨1, 0, 0⟩ (some .pinf) false "VC"
    t0.run mini [.loading { Ct := some [.fin (1/2)], gamma_t_Ct := some id }, .position ⟨3, 0, 0⟩, .loading {}] =
    t0.run mini [.wind ⟨1, 0, 0⟩, .loading { Ct := some [.fin (1/2)], gamma_t_Ct := some id, Lambda := some .pinf },
      .position ⟨3, 0, 0⟩, .wind ⟨1, 0, 0⟩, .yaw 0, .chi none] := by
  intro t0
  have hok : (t0.updateLoading mini { Ct := some [.fin (1/2)], gamma_t_Ct := some id }).1 = .ok () := rfl
  rcases C124_normal_form mini 1 0 ⟨1, 0, 0⟩ ⟨0, 0, 1⟩ ⟨1, 0, 0⟩ (some .pinf) false "VC"
    [.loading { Ct := some [.fin (1/2)], gamma_t_Ct := some id }, .position ⟨3, 0, 0⟩, .loading {}] with ⟨h, -⟩ | ⟨h1, a, h2, Λ, e, e1, -, e3, e4⟩
  · exact absurd hok (h [] _ _ rfl)
  · rcases h1 with _ | ⟨o, _ | ⟨o', _ | ⟨o'', h1⟩⟩⟩
    · simp only [List.nil_append, List.cons.injEq, Op.loading.injEq] at e
      obtain ⟨rfl, -⟩ := e
      have : Λ = .pinf := (Option.some.inj e3).symm
      subst this
      exact e4
    · simp at e
    · simp only [List.cons_append, List.nil_append, List.cons.injEq, Op.loading.injEq] at e
      obtain ⟨rfl, rfl, rfl, -⟩ := e
      exact nomatch e1
    · simp at e
end Wiz
