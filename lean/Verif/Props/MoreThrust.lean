import Verif.Lemmas.StrengthScale
import Verif.Props.Units
import Verif.Props.Momentum

/-! # C128: induced velocities are proportional to the vorticity; more thrust, more induction -/
namespace Wiz
open Classical Spec
set_option autoImplicit false

/-- the turbine with other loading results -/
def WT.withLoad (w : WT) (gt gl : Option (List Num)) (Gr : Option Num) (ct : Option (List Num)) : WT :=
  { w with gamma_t := gt, gamma_l := gl, Gamma_r := Gr, Ct := ct }

theorem withLoad_step (mini : (ℝ → Num) → ℝ) (w : WT) (gt gl : Option (List Num)) (Gr : Option Num) (ct : Option (List Num)) (op : Op) (h : ∀ a, op ≠ .loading a) :
    (w.withLoad gt gl Gr ct).step mini op = (w.step mini op).withLoad gt gl Gr ct ∧ (w.step mini op).gamma_t = w.gamma_t ∧
    (w.step mini op).gamma_l = w.gamma_l ∧ (w.step mini op).Gamma_r = w.Gamma_r := by
  cases op with
  | loading a => exact absurd rfl (h a)
  | eval pts o =>
    simp only [WT.step, computeU_state]
    exact ⟨rfl, trivial, trivial, trivial⟩
  | _ => exact ⟨rfl, rfl, rfl, rfl⟩

theorem withLoad_run (mini : (ℝ → Num) → ℝ) (gt gl : Option (List Num)) (Gr : Option Num) (ct : Option (List Num)) (h : List Op) :
    ∀ (w : WT), (∀ a, Op.loading a ∉ h) → (w.withLoad gt gl Gr ct).run mini h = (w.run mini h).withLoad gt gl Gr ct ∧ (w.run mini h).gamma_t = w.gamma_t ∧
    (w.run mini h).gamma_l = w.gamma_l ∧ (w.run mini h).Gamma_r = w.Gamma_r := by
  induction h with
  | nil => intro w _; exact ⟨rfl, rfl, rfl, rfl⟩
  | cons op h ih =>
    intro w hn
    obtain ⟨a1, a2, a3, a4⟩ := withLoad_step mini w gt gl Gr ct op (fun a e => hn a (e ▸ List.mem_cons_self))
    obtain ⟨b1, b2, b3, b4⟩ := ih (w.step mini op) (fun a e => hn a (List.mem_cons_of_mem _ e))
    have e1 : ∀ v : WT, v.run mini (op :: h) = (v.step mini op).run mini h := fun v => rfl
    simp only [e1]
    rw [a1]
    exact ⟨b1, b2.trans a2, b3.trans a3, b4.trans a4⟩

/-- what a loading by a strength function stores -/
theorem loading_given (mini : (ℝ → Num) → ℝ) (w : WT) (a : LoadArgs) (f : List Num → List Num) (hf : a.gamma_t_Ct = some f)
    (hs : (w.updateLoading mini a).1 = .ok ()) (g : List Num → List Num) :
    ∃ c, (w.updateLoading mini a).2.gamma_t = some (f c) ∧ (w.updateLoading mini a).2.gamma_l = none ∧ (w.updateLoading mini a).2.Gamma_r = none ∧
      (w.updateLoading mini { a with gamma_t_Ct := some g }).2 = (w.updateLoading mini a).2.withLoad (some (g c)) none none (w.updateLoading mini a).2.Ct := by
  obtain ⟨ar, aCt, aG, aL, aN, af⟩ := a
  simp only at hf
  subst hf
  have er : ∀ g, reinterp w.R ⟨ar, aCt, aG, aL, aN, g⟩ = reinterp w.R ⟨ar, aCt, aG, aL, aN, none⟩ := fun g => rfl
  unfold WT.updateLoading at hs ⊢
  simp only [er] at hs ⊢
  cases hr : reinterp w.R ⟨ar, aCt, aG, aL, aN, none⟩ with
  | error e => rw [hr] at hs; cases hs
  | ok x =>
    obtain ⟨r, Ct, Γ⟩ := x
    rw [hr] at hs
    simp only at hs ⊢
    cases aL with
    | none =>
      simp only at hs ⊢
      cases hl : w.Lambda with
      | none => rw [hl] at hs; cases hs
      | some l =>
        rw [hl] at hs
        simp only at hs ⊢
        unfold loadingSolve at hs ⊢
        cases Ct with
        | none => cases hs
        | some c => exact ⟨c, rfl, rfl, rfl, rfl⟩
    | some l =>
      simp only at hs ⊢
      unfold loadingSolve at hs ⊢
      cases Ct with
      | none => cases hs
      | some c => exact ⟨c, rfl, rfl, rfl, rfl⟩

/-- the field is that of the first turbine times `m` -/
theorem str_ratio {m : ℝ} (hm : 0 < m) (mini : (ℝ → Num) → ℝ) (v : WT) (gt : List Num) (gl' : Option (List Num)) (Gr' : Option Num) (ct : Option (List Num)) (o : Opts)
    (ho : o.only_ind = true) (hg : v.gamma_t = some gt)
    (hl : (v.gamma_l = none ∧ gl' = none) ∨ (o.longi = false ∧ ∃ g, gt = [g])) (hr : (v.Gamma_r = none ∧ Gr' = none) ∨ o.root = false)
    (h2 : List Op) (hn : ∀ a, Op.loading a ∉ h2) (pts : List (V3 ℝ)) :
    (((v.withLoad (some (gt.map (sc m))) gl' Gr' ct).run mini h2).computeU pts o).1 = mapOk (List.map (scV m)) ((v.run mini h2).computeU pts o).1 := by
  obtain ⟨e1, e2, e3, e4⟩ := withLoad_run mini (some (gt.map (sc m))) gl' Gr' ct h2 v hn
  rw [e1]
  refine str_computeU hm (v.run mini h2) ((v.run mini h2).withLoad (some (gt.map (sc m))) gl' Gr' ct) o ho ⟨rfl, rfl, rfl, rfl, rfl, rfl, rfl, ?_, ?_, ?_⟩ pts
  · rw [e2, hg]; rfl
  · rw [e2, e3, hg]
    exact hl.imp id fun x => ⟨x.1, x.2.imp fun g e => by rw [e]⟩
  · rw [e4]; exact hr

/-- C128: the induced velocities are proportional to the tangential vorticity.  After any history, load the turbine with a
strength function `gamma_t_Ct` or with `m` times that function, then issue the same further calls (any but loadings): every evaluation of the
induced velocity raises the same exception, or returns `m` times the velocity at every point.  Holds for every
wake model, yawed or not, one or several cylinders, with or without ground, `no_wake`, `longi`, `root`, any far-field radius. -/
theorem C128_linear (mini : (ℝ → Num) → ℝ) (m : ℝ) (hm : 0 < m) (R : ℝ) (hub shaft vert U0 : V3 ℝ) (L : Option Num) (G : Bool) (M : String)
    (h : List Op) (a : LoadArgs) (f : List Num → List Num) (hf : a.gamma_t_Ct = some f)
    (hs : (((WT.new R hub shaft vert U0 L G M).run mini h).updateLoading mini a).1 = .ok ())
    (h2 : List Op) (hn : ∀ b, Op.loading b ∉ h2) (pts : List (V3 ℝ)) (o : Opts) (ho : o.only_ind = true) :
    let a' := { a with gamma_t_Ct := some fun c => (f c).map fun g => Num.fin m * g }
    let x := (((WT.new R hub shaft vert U0 L G M).run mini (h ++ [.loading a] ++ h2)).computeU pts o).1
    let x' := (((WT.new R hub shaft vert U0 L G M).run mini (h ++ [.loading a'] ++ h2)).computeU pts o).1
    (∀ e, x = .error e ↔ x' = .error e) ∧
    ∀ u u', x = .ok u → x' = .ok u' → ∀ (i : ℕ) (v : V3 ℝ), u[i]? = some (V3.fin v) ↔ u'[i]? = some (V3.fin (V3.smul m v)) := by
  intro a' x x'
  obtain ⟨c, e1, e2, e3, e4⟩ := loading_given mini _ a f hf hs (fun c => (f c).map fun g => Num.fin m * g)
  have hx : x' = mapOk (List.map (scV m)) x := by
    have k := str_ratio hm mini _ (f c) none none (((WT.new R hub shaft vert U0 L G M).run mini h).updateLoading mini a).2.Ct o ho e1 (.inl ⟨e2, rfl⟩) (.inl ⟨e3, rfl⟩) h2 hn pts
    have r1 : ∀ b, (WT.new R hub shaft vert U0 L G M).run mini (h ++ [.loading b] ++ h2) =
        ((((WT.new R hub shaft vert U0 L G M).run mini h).updateLoading mini b).2).run mini h2 := by
      intro b; simp only [WT.run, List.foldl_append, List.foldl_cons, List.foldl_nil]; rfl
    simp only [x, x', r1]
    rw [← k]
    exact congrArg (fun t : WT => ((t.run mini h2).computeU pts o).1) e4
  rw [hx]
  exact sc_result hm _

/-- two loadings with one cylinder differ in the vorticities only -/
theorem loading_two (mini : (ℝ → Num) → ℝ) (w : WT) (c1 c2 : List ℝ) (Lam : Num)
    (o1 : (w.updateLoading mini { Ct := some (c1.map .fin), Lambda := some Lam, nCyl := some 1 }).1 = .ok ())
    (o2 : (w.updateLoading mini { Ct := some (c2.map .fin), Lambda := some Lam, nCyl := some 1 }).1 = .ok ()) :
    let l1 := (w.updateLoading mini { Ct := some (c1.map .fin), Lambda := some Lam, nCyl := some 1 }).2
    let l2 := (w.updateLoading mini { Ct := some (c2.map .fin), Lambda := some Lam, nCyl := some 1 }).2
    l2 = l1.withLoad l2.gamma_t l2.gamma_l l2.Gamma_r l2.Ct := by
  intro l1 l2
  simp only [l1, l2]
  unfold WT.updateLoading reinterp at o1 o2 ⊢
  simp only [if_true, Option.map_some, Option.map_none] at o1 o2 ⊢
  generalize loadingSolve mini w.R (.fin (V3.norm w.U0_g)) (Lam * .fin (V3.norm w.U0_g) / .fin w.R) (some [0.995 * w.R]) (some [npMean (c1.map .fin)]) none none = x1 at o1 ⊢
  generalize loadingSolve mini w.R (.fin (V3.norm w.U0_g)) (Lam * .fin (V3.norm w.U0_g) / .fin w.R) (some [0.995 * w.R]) (some [npMean (c2.map .fin)]) none none = x2 at o2 ⊢
  cases x1 with
  | error e => cases o1
  | ok x1 =>
    cases x2 with
    | error e => cases o2
    | ok x2 => rfl

/-- fields of two loadings whose single strengths have the same sign -/
theorem loading_ratio (mini : (ℝ → Num) → ℝ) (w : WT) (c1 c2 : List ℝ) (Lam : Num)
    (o1 : (w.updateLoading mini { Ct := some (c1.map .fin), Lambda := some Lam, nCyl := some 1 }).1 = .ok ())
    (o2 : (w.updateLoading mini { Ct := some (c2.map .fin), Lambda := some Lam, nCyl := some 1 }).1 = .ok ()) (g m : ℝ) (hm : 0 < m)
    (e1 : (w.updateLoading mini { Ct := some (c1.map .fin), Lambda := some Lam, nCyl := some 1 }).2.gamma_t = some [.fin g])
    (e2 : (w.updateLoading mini { Ct := some (c2.map .fin), Lambda := some Lam, nCyl := some 1 }).2.gamma_t = some [.fin (m * g)])
    (h2 : List Op) (hn : ∀ b, Op.loading b ∉ h2) (pts : List (V3 ℝ)) (o : Opts) (ho : o.only_ind = true) (hl : o.longi = false) (hr : o.root = false) :
    (((w.step mini (.loading { Ct := some (c2.map .fin), Lambda := some Lam, nCyl := some 1 })).run mini h2).computeU pts o).1 =
    mapOk (List.map (scV m)) (((w.step mini (.loading { Ct := some (c1.map .fin), Lambda := some Lam, nCyl := some 1 })).run mini h2).computeU pts o).1 := by
  have h := loading_two mini w c1 c2 Lam o1 o2
  simp only at h
  have k := str_ratio hm mini _ [.fin g] (w.updateLoading mini { Ct := some (c2.map .fin), Lambda := some Lam, nCyl := some 1 }).2.gamma_l
    (w.updateLoading mini { Ct := some (c2.map .fin), Lambda := some Lam, nCyl := some 1 }).2.Gamma_r
    (w.updateLoading mini { Ct := some (c2.map .fin), Lambda := some Lam, nCyl := some 1 }).2.Ct o ho e1 (.inr ⟨hl, _, rfl⟩) (.inr hr) h2 hn pts
  refine Eq.trans ?_ k
  rw [show (some (List.map (sc m) [Num.fin g])) = (w.updateLoading mini { Ct := some (c2.map .fin), Lambda := some Lam, nCyl := some 1 }).2.gamma_t from e2.symm, ← h]
  rfl

/-- the strength below the high-thrust limit increases with the thrust -/
theorem strength_mono (U k C1 C2 : ℝ) (hU : 0 < U) (hk : 0 ≤ k) (h0 : 0 < C1) (h : C1 ≤ C2) (hr : 0 ≤ 1 - C2 * (1 + C2 * k)) :
    ∃ m : ℝ, 1 ≤ m ∧ (C1 < C2 → 1 < m) ∧ 0 ≤ 1 - C1 * (1 + C1 * k) ∧ -U * (1 - √(1 - C2 * (1 + C2 * k))) = m * (-U * (1 - √(1 - C1 * (1 + C1 * k)))) := by
  have h1 : 0 ≤ 1 - C1 * (1 + C1 * k) := by nlinarith [mul_nonneg hk (sub_nonneg.2 h), mul_nonneg (mul_nonneg hk h0.le) (sub_nonneg.2 h), mul_nonneg (mul_nonneg hk (h0.le.trans h)) (sub_nonneg.2 h)]
  have hlt : √(1 - C1 * (1 + C1 * k)) < 1 := by
    rw [Real.sqrt_lt' one_pos]; nlinarith [mul_nonneg (mul_nonneg h0.le h0.le) hk]
  have hle : √(1 - C2 * (1 + C2 * k)) ≤ √(1 - C1 * (1 + C1 * k)) := by
    apply Real.sqrt_le_sqrt
    nlinarith [mul_nonneg hk (sub_nonneg.2 h), mul_nonneg (mul_nonneg hk h0.le) (sub_nonneg.2 h), mul_nonneg (mul_nonneg hk (h0.le.trans h)) (sub_nonneg.2 h)]
  refine ⟨(1 - √(1 - C2 * (1 + C2 * k))) / (1 - √(1 - C1 * (1 + C1 * k))), ?_, ?_, h1, ?_⟩
  · rw [le_div_iff₀ (by linarith)]; linarith
  · intro hs
    have : √(1 - C2 * (1 + C2 * k)) < √(1 - C1 * (1 + C1 * k)) := by
      apply Real.sqrt_lt_sqrt hr
      nlinarith [mul_nonneg hk (sub_nonneg.2 h), mul_nonneg (mul_nonneg hk h0.le) (sub_nonneg.2 h), mul_nonneg (mul_nonneg hk (h0.le.trans h)) (sub_nonneg.2 h)]
    rw [lt_div_iff₀ (by linarith)]; linarith
  · have : 1 - √(1 - C1 * (1 + C1 * k)) ≠ 0 := by linarith
    rw [mul_left_comm, div_mul_cancel₀ _ this]

/-- C128: more thrust, more induction (one cylinder, tip-speed ratio at least 20 or infinite).  After any history, load the turbine
with mean thrust coefficient `C1` or with a higher one `C2`, on the same side of the high-thrust limit, then issue the same
further calls: the induced velocities for `C2` are those for `C1` multiplied by one factor, at least one, the same at every point
(larger than one if `C1 < C2`): the wake, the blockage, every component grows.  Below the limit the root must be real, as in C34. -/
theorem C128_more_thrust (mini : (ℝ → Num) → ℝ) (R : ℝ) (hub shaft vert U0 : V3 ℝ) (L : Option Num) (G : Bool) (M : String) (h : List Op) (hR : 0 < R)
    (hU : ((WT.new R hub shaft vert U0 L G M).run mini h).U0_g ≠ 0) (c1 c2 : List ℝ) (n1 : c1 ≠ []) (n2 : c2 ≠ [])
    (h0 : 0 < c1.sum / c1.length) (hC : c1.sum / c1.length ≤ c2.sum / c2.length) (Lam : Num) (Ω : ℝ)
    (hΩ : let U := V3.norm ((WT.new R hub shaft vert U0 L G M).run mini h).U0_g
      ((∃ l : ℝ, Lam = .fin l ∧ Ω = l * U / R) ∨ (Lam = .pinf ∧ Ω = 800)) ∧ 20 ≤ Ω * R / U)
    (side : let U := V3.norm ((WT.new R hub shaft vert U0 L G M).run mini h).U0_g
      let C2 := c2.sum / c2.length
      (C2 ≤ Ctc ∧ 0 ≤ 1 - C2 * (1 + C2 * Real.pi * U^2 / Ω / (4 * Real.pi * Ω * R)^2)) ∨ Ctc < c1.sum / c1.length)
    (h2 : List Op) (hn : ∀ b, Op.loading b ∉ h2) (pts : List (V3 ℝ)) (o : Opts) (ho : o.only_ind = true) (hl : o.longi = false) (hr : o.root = false) :
    let load := fun c : List ℝ => Op.loading { Ct := some (c.map .fin), Lambda := some Lam, nCyl := some 1 }
    let x := (((WT.new R hub shaft vert U0 L G M).run mini (h ++ [load c1] ++ h2)).computeU pts o).1
    let x' := (((WT.new R hub shaft vert U0 L G M).run mini (h ++ [load c2] ++ h2)).computeU pts o).1
    (∀ e, x = .error e ↔ x' = .error e) ∧
    ∃ m : ℝ, 1 ≤ m ∧ (c1.sum / c1.length < c2.sum / c2.length → 1 < m) ∧
      ∀ u u', x = .ok u → x' = .ok u' → ∀ (i : ℕ) (v : V3 ℝ), u[i]? = some (V3.fin v) ↔ u'[i]? = some (V3.fin (V3.smul m v)) := by
  intro load x x'
  obtain ⟨w, hw⟩ : ∃ w, w = (WT.new R hub shaft vert U0 L G M).run mini h := ⟨_, rfl⟩
  have hwR : w.R = R := by rw [hw]; exact (frame_run mini shaft vert R h _ (frame_new _ _ _ _ _ _ _ _)).R
  have r1 : ∀ b, (WT.new R hub shaft vert U0 L G M).run mini (h ++ [b] ++ h2) = (w.step mini b).run mini h2 := by
    intro b; rw [hw]; simp only [WT.run, List.foldl_append, List.foldl_cons, List.foldl_nil]
  rw [← hw] at hU
  simp only [← hw] at hΩ side
  rw [← hwR] at hR hΩ side
  simp only [x, x', r1]
  clear x x' r1 hw
  obtain ⟨hΩ, h20⟩ := hΩ
  obtain ⟨p1, q1, -, s1, -⟩ := C34_update_loading mini w hR hU c1 n1 Lam Ω hΩ h20 none none
  obtain ⟨p2, q2, -, s2, -⟩ := C34_update_loading mini w hR hU c2 n2 Lam Ω hΩ h20 none none
  have hUp : 0 < V3.norm w.U0_g := norm_pos hU
  have hΩ0 : 0 < Ω := by
    by_contra hn
    push Not at hn
    have : Ω * w.R / V3.norm w.U0_g ≤ 0 := div_nonpos_of_nonpos_of_nonneg (mul_nonpos_of_nonpos_of_nonneg hn hR.le) hUp.le
    linarith
  obtain ⟨C1, e1⟩ : ∃ C, C = c1.sum / c1.length := ⟨_, rfl⟩
  obtain ⟨C2, e2⟩ : ∃ C, C = c2.sum / c2.length := ⟨_, rfl⟩
  obtain ⟨U, eU⟩ : ∃ U, U = V3.norm w.U0_g := ⟨_, rfl⟩
  rw [← e1, ← e2] at hC
  rw [← e1] at h0
  rw [← e1, ← e2]
  rw [← e1, ← eU] at q1 s1
  rw [← e2, ← eU] at q2 s2
  rw [← e1, ← e2, ← eU] at side
  rw [← eU] at hUp
  obtain ⟨g, m, hm1, hm2, f1, f2⟩ : ∃ g m : ℝ, 1 ≤ m ∧ (C1 < C2 → 1 < m) ∧
      (w.updateLoading mini { Ct := some (c1.map .fin), Lambda := some Lam, nCyl := some 1 }).2.gamma_t = some [.fin g] ∧
      (w.updateLoading mini { Ct := some (c2.map .fin), Lambda := some Lam, nCyl := some 1 }).2.gamma_t = some [.fin (m * g)] := by
    have ek : ∀ C : ℝ, C * Real.pi * U^2 / Ω / (4 * Real.pi * Ω * w.R)^2 = C * (Real.pi * U^2 / Ω / (4 * Real.pi * Ω * w.R)^2) := fun C => by ring
    rw [ek] at q1 q2 side
    have hk : 0 ≤ Real.pi * U^2 / Ω / (4 * Real.pi * Ω * w.R)^2 := by have := Real.pi_pos; positivity
    rcases side with ⟨a, b⟩ | a
    · obtain ⟨m, m1, m2, m3, m4⟩ := strength_mono U _ C1 C2 hUp hk h0 hC b
      exact ⟨_, m, m1, m2, q1 (hC.trans a) m3, by rw [← m4]; exact q2 a b⟩
    · have mono := C29_monotone_continuous.2.1
      have p0 : 0 < aOfCt C1 := by
        have := mono h0
        rwa [C29_monotone_continuous.2.2.1] at this
      refine ⟨_, aOfCt C2 / aOfCt C1, ?_, ?_, s1 a, ?_⟩
      · rw [le_div_iff₀ p0, one_mul]; exact mono.monotone hC
      · intro hs; rw [lt_div_iff₀ p0, one_mul]; exact mono hs
      · rw [s2 (a.trans_le hC)]
        congr 3
        field_simp
  have hm : 0 < m := by linarith
  have key := loading_ratio mini w c1 c2 Lam p1 p2 g m hm f1 f2 h2 hn pts o ho hl hr
  simp only [load]
  rw [key]
  obtain ⟨a, b⟩ := sc_result hm (((w.step mini (.loading { Ct := some (c1.map .fin), Lambda := some Lam, nCyl := some 1 })).run mini h2).computeU pts o).1
  exact ⟨a, m, hm1, hm2, b⟩

/-- C128 (refuted across the high-thrust limit): a rotor of radius 10000 in a wind of speed 1 at tip-speed ratio 20.  Raising
the thrust coefficient from 0.897 (below the limit 0.8976) to 0.9 (above it) multiplies every induced velocity by a
factor smaller than one: the swirl correction used below the limit is dropped above it. -/
theorem C128_across_limit_refuted (mini : (ℝ → Num) → ℝ) (G : Bool) (M : String) (h2 : List Op) (hn : ∀ b, Op.loading b ∉ h2) (pts : List (V3 ℝ))
    (o : Opts) (ho : o.only_ind = true) (hl : o.longi = false) (hr : o.root = false) :
    let load := fun c : ℝ => Op.loading { Ct := some [.fin c], Lambda := some (.fin 20), nCyl := some 1 }
    let x := fun c : ℝ => (((WT.new 10000 0 ⟨0, 0, 1⟩ ⟨0, 1, 0⟩ ⟨0, 0, 1⟩ none G M).run mini ([load c] ++ h2)).computeU pts o).1
    ∃ m : ℝ, 0 < m ∧ m < 1 ∧
      ∀ u u', x 0.897 = .ok u → x 0.9 = .ok u' → ∀ (i : ℕ) (v : V3 ℝ), u[i]? = some (V3.fin v) ↔ u'[i]? = some (V3.fin (V3.smul m v)) := by
  intro load x
  obtain ⟨w, hw⟩ : ∃ w, w = WT.new 10000 0 ⟨0, 0, 1⟩ ⟨0, 1, 0⟩ ⟨0, 0, 1⟩ none G M := ⟨_, rfl⟩
  have hR : w.R = 10000 := by rw [hw]; rfl
  have hUv : w.U0_g = ⟨0, 0, 1⟩ := by rw [hw]; rfl
  have hU1 : V3.norm w.U0_g = 1 := by rw [hUv]; simp [V3.norm]
  have hU : w.U0_g ≠ 0 := by rw [hUv]; intro e; have := congrArg V3.z e; exact one_ne_zero this
  have c34 := fun c : ℝ => C34_update_loading mini w (by rw [hR]; norm_num) hU [c] (by simp) (.fin 20) (1/500)
    (.inl ⟨20, rfl, by rw [hU1, hR]; norm_num⟩) (by rw [hU1, hR]; norm_num) none none
  have hpi := Real.pi_gt_three
  have hpi2 := Real.pi_lt_d2
  have hk : ∀ c : ℝ, c * Real.pi * 1^2 / (1/500) / (4 * Real.pi * (1/500) * 10000)^2 = c * (500 / 6400) / Real.pi := by
    intro c; have := Real.pi_ne_zero; field_simp; ring
  obtain ⟨k, ek⟩ : ∃ k : ℝ, k = 0.897 * (500 / 6400) / Real.pi := ⟨_, rfl⟩
  have k1 : 0.0222 < k := by rw [ek, lt_div_iff₀ Real.pi_pos]; linarith
  have k2 : k < 0.0234 := by rw [ek, div_lt_iff₀ Real.pi_pos]; linarith
  have e1 : (w.updateLoading mini { Ct := some ([(0.897 : ℝ)].map .fin), Lambda := some (.fin 20), nCyl := some 1 }).2.gamma_t =
      some [.fin (-1 * (1 - √(1 - 0.897 * (1 + k))))] := by
    have := (c34 0.897).2.1
    simp only [List.sum_singleton, List.length_singleton, Nat.cast_one, div_one, hU1, hR, hk, ← ek] at this
    exact this (by unfold Ctc ac; norm_num) (by linarith)
  have e2 : (w.updateLoading mini { Ct := some ([(0.9 : ℝ)].map .fin), Lambda := some (.fin 20), nCyl := some 1 }).2.gamma_t =
      some [.fin (-2 * 1 * ((0.9 - 4 * 0.34^2) / (4 * (1 - 2 * 0.34))))] := by
    have := (c34 0.9).2.2.2.1
    simp only [List.sum_singleton, List.length_singleton, Nat.cast_one, div_one, hU1] at this
    have hc : Ctc < 0.9 := by unfold Ctc ac; norm_num
    rw [this hc]
    unfold aOfCt
    rw [if_neg (not_le.2 hc)]; rfl
  have hs : √(1 - 0.897 * (1 + k)) < 0.3 := by
    rw [Real.sqrt_lt' (by norm_num)]; linarith
  obtain ⟨s, es⟩ : ∃ s, s = √(1 - 0.897 * (1 + k)) := ⟨_, rfl⟩
  rw [← es] at hs e1
  have hm : (0:ℝ) < 0.68375 / (1 - s) := by apply div_pos <;> linarith
  refine ⟨0.68375 / (1 - s), hm, ?_, ?_⟩
  · rw [div_lt_one (by linarith)]; linarith
  · have key := loading_ratio mini w [0.897] [0.9] (.fin 20) (c34 0.897).1 (c34 0.9).1 (-1 * (1 - s)) (0.68375 / (1 - s)) hm e1
      (by rw [e2]
          congr 3
          have : 1 - s ≠ 0 := by linarith
          field_simp
          norm_num) h2 hn pts o ho hl hr
    have hx : x 0.9 = mapOk (List.map (scV (0.68375 / (1 - s)))) (x 0.897) := by
      rw [hw] at key; exact key
    rw [hx]
    exact (sc_result hm _).2

/-- a farm-scale use of `C128_linear`: its hypotheses are met by a turbine loaded with three cylinders, moved and yawed afterwards -/
example (mini : (ℝ → Num) → ℝ) :
    (((WT.new 50 ⟨1,2,3⟩ ⟨0,0,1⟩ ⟨0,1,0⟩ ⟨0,0,10⟩ (some .pinf) true "VCFF").run mini [.yaw 0.2]).updateLoading mini
      { r := some [10, 20, 30], Ct := some [.fin 0.3, .fin 0.4, .fin 0.5], nCyl := none, gamma_t_Ct := some fun c => c.map fun x => -x }).1 = .ok () ∧
    (∀ b, Op.loading b ∉ [Op.position ⟨3,4,5⟩, Op.yaw 0.1]) := ⟨rfl, by simp⟩

/-- `C128_more_thrust` at a rated thrust: a rotor of radius 50 in a wind of 10 with infinite tip-speed ratio, loaded with 0.4 and then 0.8 -/
example (mini : (ℝ → Num) → ℝ) (pts : List (V3 ℝ)) :
    let load := fun c : List ℝ => Op.loading { Ct := some (c.map .fin), Lambda := some .pinf, nCyl := some 1 }
    let x := fun c => (((WT.new 50 ⟨1,2,3⟩ ⟨0,0,1⟩ ⟨0,1,0⟩ ⟨0,0,10⟩ none false "VC").run mini ([.yaw 0.2] ++ [load c] ++ [.chi none])).computeU pts { only_ind := true }).1
    ∃ m : ℝ, 1 < m ∧ ∀ u u', x [0.3, 0.5] = .ok u → x [0.8] = .ok u' → ∀ (i : ℕ) (v : V3 ℝ), u[i]? = some (V3.fin v) ↔ u'[i]? = some (V3.fin (V3.smul m v)) := by
  intro load x
  have hU : V3.norm (⟨0,0,10⟩ : V3 ℝ) = 10 := by
    rw [V3.norm, show (0:ℝ)^2 + 0^2 + 10^2 = 10^2 by norm_num]; exact Real.sqrt_sq (by norm_num)
  have hpi := Real.pi_gt_three
  have hap : (0.8:ℝ) * Real.pi * 10^2 / 800 / (4 * Real.pi * 800 * 50)^2 ≤ 1/8 := by
    have e : (0.8:ℝ) * Real.pi * 10^2 / 800 / (4 * Real.pi * 800 * 50)^2 = (1/10) / (Real.pi * (4 * 800 * 50)^2) := by field_simp; norm_num
    rw [e, div_le_iff₀ (by positivity)]
    nlinarith
  obtain ⟨-, m, h1, h2, h3⟩ := C128_more_thrust mini 50 ⟨1,2,3⟩ ⟨0,0,1⟩ ⟨0,1,0⟩ ⟨0,0,10⟩ none false "VC" [.yaw 0.2] (by norm_num)
    (by intro e; have := congrArg V3.z e; exact absurd this (by norm_num : (10:ℝ) ≠ 0)) [0.3, 0.5] [0.8] (by simp) (by simp) (by norm_num) (by norm_num) .pinf 800
    (by
      have e : V3.norm ((WT.new 50 ⟨1,2,3⟩ ⟨0,0,1⟩ ⟨0,1,0⟩ ⟨0,0,10⟩ none false "VC").run mini [.yaw 0.2]).U0_g = 10 := hU
      rw [e]
      exact ⟨.inr ⟨rfl, rfl⟩, by norm_num⟩)
    (by
      have e : V3.norm ((WT.new 50 ⟨1,2,3⟩ ⟨0,0,1⟩ ⟨0,1,0⟩ ⟨0,0,10⟩ none false "VC").run mini [.yaw 0.2]).U0_g = 10 := hU
      rw [e]
      simp only [List.sum_singleton, List.length_singleton, Nat.cast_one, div_one]
      exact .inl ⟨by unfold Ctc ac; norm_num, by linarith⟩) [.chi none] (by simp) pts { only_ind := true } rfl rfl rfl
  exact ⟨m, h2 (by norm_num), h3⟩

end Wiz
