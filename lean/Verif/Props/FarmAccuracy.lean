import Verif.Spec.FarmFlow
import Verif.Props.CylinderAccuracy3
import Verif.Props.BlockageFarm
import Verif.Spec.FarmAxes
import Verif.Props.WindFarm
import Mathlib.Analysis.Real.Pi.Bounds

/-! # C132: the velocity field of a farm is that of its vortex cylinders -/
set_option autoImplicit false
namespace Wiz
open Spec Classical Real
noncomputable section

theorem norm_triangle (a b : V3 ℝ) : V3.norm (a + b) ≤ V3.norm a + V3.norm b := by
  have ha := norm_sq' a
  have hb := norm_sq' b
  have na : 0 ≤ V3.norm a := Real.sqrt_nonneg _
  have nb : 0 ≤ V3.norm b := Real.sqrt_nonneg _
  have hd : a.x*b.x + a.y*b.y + a.z*b.z ≤ V3.norm a * V3.norm b := by
    apply le_of_abs_le
    apply abs_le_of_sq_le_sq _ (mul_nonneg na nb)
    rw [mul_pow, ha, hb]
    nlinarith [sq_nonneg (a.x*b.y - a.y*b.x), sq_nonneg (a.x*b.z - a.z*b.x), sq_nonneg (a.y*b.z - a.z*b.y)]
  unfold V3.norm at *
  rw [Real.sqrt_le_left (by positivity)]
  simp only [V3.add_x, V3.add_y, V3.add_z]
  nlinarith

theorem norm_zero3 : V3.norm (0 : V3 ℝ) = 0 := by simp [V3.norm]

theorem norm_sum_le {ι : Type} (l : List ι) (f : ι → V3 ℝ) (b : ι → ℝ) (h : ∀ i ∈ l, V3.norm (f i) ≤ b i) :
    V3.norm (l.map f).sum ≤ (l.map b).sum := by
  induction l with
  | nil => rw [List.map_nil, List.map_nil, List.sum_nil, List.sum_nil, norm_zero3]
  | cons a l ih =>
    rw [List.map_cons, List.map_cons, List.sum_cons, List.sum_cons]
    have h1 := h a (by simp)
    have h2 := ih fun i hi => h i (by simp [hi])
    linarith [norm_triangle (f a) (l.map f).sum]

theorem norm_smul_unit (k : ℝ) (a : V3 ℝ) (h : V3.dot a a = 1) : V3.norm (V3.smul k a) = |k| := by
  unfold V3.dot at h
  unfold V3.norm
  rw [← Real.sqrt_sq_eq_abs]
  congr 1
  simp only [V3.smul]
  linear_combination k^2 * h

theorem norm_frame (v s : V3 ℝ) (hv : V3.dot v v = 1) (hs : V3.dot s s = 1) (ho : V3.dot v s = 0) (e : V3 ℝ) (g : ℝ)
    (hg : 0 ≤ g) (h1 : |e.x| ≤ 1e-7*g) (h2 : |e.y| ≤ 1e-7*g) (h3 : |e.z| ≤ 3/100*g) :
    V3.norm (V3.smul e.x (V3.cross v s) + V3.smul e.y v + V3.smul e.z s) ≤ 0.0301 * g := by
  have hc : V3.dot (V3.cross v s) (V3.cross v s) = 1 := by
    unfold V3.dot V3.cross at *
    linear_combination (s.x*s.x+s.y*s.y+s.z*s.z)*hv + hs - (v.x*s.x+v.y*s.y+v.z*s.z)*ho
  have t1 := norm_triangle (V3.smul e.x (V3.cross v s) + V3.smul e.y v) (V3.smul e.z s)
  have t2 := norm_triangle (V3.smul e.x (V3.cross v s)) (V3.smul e.y v)
  rw [norm_smul_unit _ _ hs] at t1
  rw [norm_smul_unit _ _ hv, norm_smul_unit _ _ hc] at t2
  norm_num at h1 h2 h3 ⊢
  linarith

theorem wakes_sum (γ R : ℝ) (v s p : V3 ℝ) (l : List (V3 ℝ)) (F : V3 ℝ) (hF : F = (l.map fun c => cylinderField γ R (inRotor c v s p)).sum) :
    (l.map fun c => wakeFlow γ R c v s p).sum = V3.smul F.x (V3.cross v s) + V3.smul F.y v + V3.smul F.z s := by
  subst hF
  induction l with
  | nil => ext <;> simp
  | cons c l ih =>
    rw [List.map_cons, List.sum_cons, ih, List.map_cons, List.sum_cons]
    unfold wakeFlow
    ext <;> simp <;> ring

theorem sum_map_sub {ι : Type} (l : List ι) (f g : ι → V3 ℝ) : (l.map f).sum - (l.map g).sum = (l.map fun i => f i - g i).sum := by
  induction l with
  | nil => ext <;> simp
  | cons a l ih =>
    rw [List.map_cons, List.map_cons, List.map_cons, List.sum_cons, List.sum_cons, List.sum_cons, ← ih]
    ext <;> simp <;> ring

theorem sum_map_const_mul {ι : Type} (l : List ι) (k : ℝ) (f : ι → ℝ) : (l.map fun i => k * f i).sum = k * (l.map f).sum := by
  induction l with
  | nil => simp
  | cons a l ih => rw [List.map_cons, List.map_cons, List.sum_cons, List.sum_cons, ih, mul_add]

/-- C132: the velocity field of a farm is the free stream plus, for each turbine and each image below the ground, the Biot–Savart velocity of
the semi-infinite vortex cylinder that leaves its rotor along the shaft, with an error of at most 3.01% of the sum of the intensities of the
cylinders.  The turbines are built from `args` and called with the histories `hist`, after which they have the intensities `γ` (one cylinder
each), model "VC" and no skew. -/
theorem C132_farm (mini : (ℝ → Num) → ℝ) (args : ℕ → TurbineArgs) (hist : ℕ → List Op) (ts : List ℕ) (γ : ℕ → ℝ)
    (pts : List (V3 ℝ)) (o : Opts) (hnw : o.no_wake = false) (hta : o.tang = true) (hlo : o.longi = false) (hro : o.root = false)
    (U0 : Option (V3 ℝ)) (w : ℕ → WT) (hw : ∀ t, w t = ((args t).build).run mini (hist t))
    (ho : ∀ t ∈ ts, Orthonormal (args t).shaft (args t).vert) (hR : ∀ t ∈ ts, 0 < (args t).R)
    (hg : ∀ t ∈ ts, (w t).gamma_t = some [.fin (γ t)])
    (hM : ∀ t ∈ ts, o.Model.getD (w t).Model = "VC")
    (hchi : ∀ t ∈ ts, ∃ chi, ((w t).computeU pts o).2.chi = some chi ∧ ¬ (Num.fin 1e-7 < Num.abs chi)) :
    let q := frun mini (ts.map .turbine) w []
    let wakes := fun t => wakeCentres (o.ground.getD (w t).Ground) (args t).vert (w t).r_hub
    ∃ u, (farmVelocity q.1 q.2 pts o U0).1 = .ok u ∧ ∀ (i : ℕ) (p : V3 ℝ), pts[i]? = some p →
      (∀ t ∈ ts, ∀ c ∈ wakes t, OffEdge (args t).R c (args t).vert (w t).e_shaft_g p) →
      ∃ v, u[i]? = some (V3.fin v) ∧
        V3.norm (v - (U0.getD 0 + (ts.map fun t => ((wakes t).map fun c => wakeFlow (γ t) (args t).R c (args t).vert (w t).e_shaft_g p).sum).sum)) ≤
          0.0301 * (ts.map fun t => (wakes t).length * |γ t|).sum := by
  intro q wakes
  -- one turbine
  have one : ∀ t ∈ ts, ∃ u, inducedBy q.2 pts o t = .ok u ∧ ∀ (i : ℕ) (p : V3 ℝ), pts[i]? = some p →
      (∀ c ∈ wakes t, OffEdge (args t).R c (args t).vert (w t).e_shaft_g p) → ∃ v, u[i]? = some (V3.fin v) ∧
        V3.norm (v - ((wakes t).map fun c => wakeFlow (γ t) (args t).R c (args t).vert (w t).e_shaft_g p).sum) ≤ 0.0301 * ((wakes t).length * |γ t|) := by
    intro t ht
    obtain ⟨chi, c1, c2⟩ := hchi t ht
    have key := C119_turbine_ground mini (args t).R (args t).hub (args t).shaft (args t).vert (args t).U0 (args t).Lambda (args t).Ground (args t).Model
      (ho t ht) (hR t ht) (hist t) pts { o with only_ind := true } hnw hta hlo hro
    have ew : w t = (WT.new (args t).R (args t).hub (args t).shaft (args t).vert (args t).U0 (args t).Lambda (args t).Ground (args t).Model).run mini (hist t) := hw t
    rw [← ew] at key
    obtain ⟨u, hu, hall⟩ := key (γ t) chi (hg t ht) (hM t ht) (by rw [computeU_state] at c1 ⊢; exact c1) c2
    refine ⟨u, hu, fun i p hpi hoff => ?_⟩
    obtain ⟨F, e, v, hF, huv, hv, e1, e2, e3⟩ := hall i p hpi (fun c => inRotor c (args t).vert (w t).e_shaft_g p) (fun c => rfl) hoff
    refine ⟨v, huv, ?_⟩
    obtain ⟨a1, a2, a3, a4, a5, a6⟩ := rotorAxes_run mini (args t).R (args t).hub (args t).shaft (args t).vert (args t).U0 (args t).Lambda (args t).Ground (args t).Model (ho t ht) (hist t)
    rw [← ew] at a1 a2 a3 a5 a6
    rw [wakes_sum (γ t) (args t).R _ _ p (wakes t) F hF, hv]
    have hd : ((if (true : Bool) = true then 0 else (w t).U0_g) + V3.smul (F.x + e.x) (V3.cross (args t).vert (w t).e_shaft_g) + V3.smul (F.y + e.y) (args t).vert +
        V3.smul (F.z + e.z) (w t).e_shaft_g) - (V3.smul F.x (V3.cross (args t).vert (w t).e_shaft_g) + V3.smul F.y (args t).vert + V3.smul F.z (w t).e_shaft_g) =
        V3.smul e.x (V3.cross (args t).vert (w t).e_shaft_g) + V3.smul e.y (args t).vert + V3.smul e.z (w t).e_shaft_g := by
      rw [if_pos rfl]; ext <;> simp <;> ring
    simp only at hd ⊢
    rw [hd]
    exact norm_frame _ _ (ho t ht).vert a6 a5 e _ (by positivity) e1 e2 e3
  choose! u hu hall using one
  have hok : ∀ x ∈ ts.map PyObj.turbine, ∃ t v, x = .turbine t ∧ inducedBy q.2 pts o t = .ok v := by
    intro x hx
    obtain ⟨t, ht, rfl⟩ := List.mem_map.1 hx
    exact ⟨t, _, rfl, hu t ht⟩
  obtain ⟨r, hr⟩ := (C18_succeeds_iff (ts.map PyObj.turbine) q.2 pts o U0).2 hok
  refine ⟨r, hr, fun i p hpi hoff => ?_⟩
  have hil : i < pts.length := by
    by_contra h
    rw [List.getElem?_eq_none (by omega)] at hpi; exact nomatch hpi
  obtain ⟨l1, l2⟩ := C18_sum _ _ _ _ _ _ hr
  have hi := l2 i hil
  have hval : ∀ t ∈ ts, ∃ v, (u t)[i]? = some (V3.fin v) ∧
        V3.norm (v - ((wakes t).map fun c => wakeFlow (γ t) (args t).R c (args t).vert (w t).e_shaft_g p).sum) ≤ 0.0301 * ((wakes t).length * |γ t|) :=
    fun t ht => hall t ht i p hpi (hoff t ht)
  choose! v hv hb using hval
  have hs : ((ts.map PyObj.turbine).map (inducedAt q.2 pts o i)).sum = V3.fin (ts.map v).sum := by
    rw [← sum_fin, List.map_map]
    congr 1
    apply List.map_congr_left
    intro t ht
    simp only [Function.comp, inducedAt, hu t ht]
    rw [List.getD_eq_getElem?_getD, hv t ht, Option.getD_some]
  have hf : freeStream U0 = V3.fin (U0.getD 0) := by
    cases U0 with
    | none => rfl
    | some U => rfl
  rw [hs, hf] at hi
  refine ⟨(ts.map v).sum + U0.getD 0, ?_, ?_⟩
  · have hil' : i < r.length := by omega
    rw [List.getElem?_eq_getElem hil']
    rw [List.getD_eq_getElem?_getD, List.getElem?_eq_getElem hil', Option.getD_some] at hi
    rw [hi]
    rfl
  · rw [← sum_map_const_mul]
    have := norm_sum_le ts _ _ hb
    rw [← sum_map_sub] at this
    have e : (ts.map v).sum + U0.getD 0 - (U0.getD 0 + (ts.map fun t => ((wakes t).map fun c => wakeFlow (γ t) (args t).R c (args t).vert (w t).e_shaft_g p).sum).sum) =
        (ts.map v).sum - (ts.map fun t => ((wakes t).map fun c => wakeFlow (γ t) (args t).R c (args t).vert (w t).e_shaft_g p).sum).sum := by
      ext <;> simp <;> ring
    rw [e]
    exact this

/-- a turbine whose shaft points along the wind finds no skew -/
theorem aligned_chi (mini : (ℝ → Num) → ℝ) (c : TurbineArgs) (ho : Orthonormal c.shaft c.vert) (U : ℝ) (hU : 0 < U) (hw : c.U0 = V3.smul U c.shaft)
    (a : LoadArgs) (pts : List (V3 ℝ)) (o : Opts) :
    (((c.build).run mini [.loading a]).computeU pts o).2.chi = some 0 := by
  have hfr : FrameInv c.shaft c.vert c.R ((c.build).run mini [.loading a]) := frame_run mini c.shaft c.vert c.R [.loading a] _ (frame_new c.R c.hub c.shaft c.vert c.U0 c.Lambda c.Ground c.Model)
  obtain ⟨b1, b2, b3, b4, b5, b6, b7, b8, b9, b10, b11, b12, b13, b14⟩ := loading_frame mini c.build a
  have hchi : ((c.build).run mini [.loading a]).chi = none := b13.trans rfl
  have hU0 : ((c.build).run mini [.loading a]).U0_g = V3.smul U c.shaft := b11.trans hw
  have hy : ((c.build).run mini [.loading a]).yaw_pos = 0 := b10.trans rfl
  generalize (c.build).run mini [.loading a] = w at *
  rw [computeU_state, hchi]
  simp only
  congr 1
  have hh : horizontal c.vert w.U0_g = V3.smul U c.shaft := by
    rw [hU0]
    have : V3.dot (V3.smul U c.shaft) c.vert = 0 := by rw [dot_smul_left, ho.orth, mul_zero]
    unfold horizontal
    rw [this]
    ext <;> simp
  have hn : V3.norm (V3.smul U c.shaft) = U := by rw [norm_smul_unit _ _ ho.shaft, abs_of_pos hU]
  have hne : horizontal c.vert w.U0_g ≠ 0 := by
    rw [hh]
    intro h
    rw [h, norm_zero3] at hn
    exact hU.ne hn
  obtain ⟨χ, θ, x1, x2, x3, -⟩ := chiAuto_eq c.shaft c.vert c.R ho w hfr hne
  obtain ⟨θ', y1, y2, y3, y4⟩ := yawWind_eq c.shaft c.vert c.R ho w hfr hne
  have hθ : θ' = θ := by rw [x2] at y1; exact (Num.fin.inj y1).symm
  subst hθ
  rw [hh, hn] at y4
  have hc : Real.cos θ' = 1 := by
    have hd := congrArg (fun a => V3.dot a c.shaft) y4
    have h1 := ho.shaft
    have h2 := ho.orth
    simp only [turn, V3.dot, V3.smul, V3.cross, V3.add_x, V3.add_y, V3.add_z] at hd h1 h2
    have : 1 / U * U = 1 := by field_simp
    linear_combination hd + (1/U*U - Real.cos θ')*h1 + this - (1 - Real.cos θ')*(c.shaft.x*c.vert.x + c.shaft.y*c.vert.y + c.shaft.z*c.vert.z)*h2
  have h0 := (Real.cos_eq_one_iff_of_lt_of_lt (by linarith [Real.pi_pos]) (by linarith [Real.pi_pos])).1 hc
  rw [x1, x3, hy, h0]
  simp

/-- C132 for the standard workflow: turbines built with the wind along their shafts and loaded with `update_loading(Ct=C)` (no or little
wake rotation, `C` below the high-thrust limit) have the intensities of momentum theory, so that `velocity_field` is the free stream plus the
Biot–Savart velocities of the cylinders of intensities `-U(1-√(1-C(1+apc)))`, `apc` being the solver's rotation correction, up to
3.01% of their sum. -/
theorem C132_thrust (mini : (ℝ → Num) → ℝ) (args : ℕ → TurbineArgs) (C U Ω apc : ℕ → ℝ) (ts : List ℕ)
    (ho : ∀ t ∈ ts, Orthonormal (args t).shaft (args t).vert) (hR : ∀ t ∈ ts, 0 < (args t).R)
    (hU : ∀ t ∈ ts, 0 < U t ∧ (args t).U0 = V3.smul (U t) (args t).shaft) (hM : ∀ t ∈ ts, (args t).Model = "VC")
    (hΩ : ∀ t ∈ ts, ((∃ l : ℝ, (args t).Lambda = some (.fin l) ∧ Ω t = l * U t / (args t).R) ∨ ((args t).Lambda = some .pinf ∧ Ω t = 800)) ∧
      20 ≤ Ω t * (args t).R / U t)
    (hapc : ∀ t ∈ ts, apc t = C t * π * (U t)^2 / Ω t / (4 * π * Ω t * (args t).R)^2)
    (hC : ∀ t ∈ ts, C t ≤ Ctc ∧ 0 ≤ 1 - C t * (1 + apc t))
    (pts : List (V3 ℝ)) (V : V3 ℝ) :
    let w := fun t => ((args t).build).run mini [.loading { Ct := some [.fin (C t)] }]
    let q := frun mini (ts.map .turbine) w []
    let wakes := fun t => wakeCentres (args t).Ground (args t).vert (args t).hub
    let γ := fun t => -U t * (1 - √(1 - C t * (1 + apc t)))
    ∃ u, (farmVelocity q.1 q.2 pts {} (some V)).1 = .ok u ∧ ∀ (i : ℕ) (p : V3 ℝ), pts[i]? = some p →
      (∀ t ∈ ts, ∀ c ∈ wakes t, OffEdge (args t).R c (args t).vert (args t).shaft p) →
      ∃ v, u[i]? = some (V3.fin v) ∧
        V3.norm (v - (V + (ts.map fun t => ((wakes t).map fun c => wakeFlow (γ t) (args t).R c (args t).vert (args t).shaft p).sum).sum)) ≤
          0.0301 * (ts.map fun t => (wakes t).length * |γ t|).sum := by
  intro w q wakes γ
  have hb : ∀ t, (w t).r_hub = (args t).hub ∧ (w t).e_shaft_g = M3.mulVec (rotMatAxisAngle (args t).vert 0) (args t).shaft ∧
      (w t).Ground = (args t).Ground ∧ (w t).Model = (args t).Model := by
    intro t
    obtain ⟨b1, b2, b3, b4, b5, b6, b7, b8, b9, b10, b11, b12, b13, b14⟩ := loading_frame mini (args t).build { Ct := some [.fin (C t)] }
    exact ⟨b2, b5, b12, b14⟩
  have hsh : ∀ t, (w t).e_shaft_g = (args t).shaft := by
    intro t
    rw [(hb t).2.1]
    unfold rotMatAxisAngle M3.mulVec
    ext <;> simp
  have hg : ∀ t ∈ ts, (w t).gamma_t = some [.fin (γ t)] := by
    intro t ht
    obtain ⟨hu, hw⟩ := hU t ht
    have hn : V3.norm ((args t).build).U0_g = U t := by
      change V3.norm (args t).U0 = U t
      rw [hw, norm_smul_unit _ _ (ho t ht).shaft, abs_of_pos hu]
    have hne : ((args t).build).U0_g ≠ 0 := by
      intro h
      rw [h, norm_zero3] at hn
      exact hu.ne hn
    obtain ⟨o1, o2⟩ := hΩ t ht
    have key : ∀ L : Num, (args t).Lambda = some L → ((∃ l : ℝ, L = .fin l ∧ Ω t = l * U t / (args t).R) ∨ (L = .pinf ∧ Ω t = 800)) →
        (w t).gamma_t = some [.fin (γ t)] := by
      intro L hL hLO
      have hd := updateLoading_default mini (args t).build L hL { Ct := some [.fin (C t)] } rfl
      obtain ⟨r1, r2, -⟩ := C34_update_loading mini (args t).build (hR t ht) hne [C t] (by simp) L (Ω t) (by rw [hn]; exact hLO) (by rw [hn]; exact o2) none none
      simp only [List.map_cons, List.map_nil, List.sum_cons, List.sum_nil, add_zero, List.length_singleton, Nat.cast_one, div_one] at r2
      rw [hn] at r2
      have e := hapc t ht
      change apc t = C t * π * (U t)^2 / Ω t / (4 * π * Ω t * ((args t).build).R)^2 at e
      rw [← e] at r2
      have := r2 (hC t ht).1 (hC t ht).2
      change ((args t).build.updateLoading mini { Ct := some [.fin (C t)] }).2.gamma_t = _
      rw [hd]
      exact this
    rcases o1 with ⟨l, h1, h2⟩ | ⟨h1, h2⟩
    · exact key _ h1 (Or.inl ⟨l, rfl, h2⟩)
    · exact key _ h1 (Or.inr ⟨rfl, h2⟩)
  obtain ⟨u, h1, h2⟩ := C132_farm mini args (fun t => [.loading { Ct := some [.fin (C t)] }]) ts γ pts {} rfl rfl rfl rfl (some V) w (fun _ => rfl) ho hR hg
    (fun t ht => (hb t).2.2.2.trans (hM t ht)) (fun t ht => ⟨0, aligned_chi mini (args t) (ho t ht) (U t) (hU t ht).1 (hU t ht).2 _ _ _, by simp; norm_num⟩)
  have hwk : ∀ t, wakeCentres ((w t).Ground) (args t).vert (w t).r_hub = wakes t := by
    intro t
    rw [(hb t).1, (hb t).2.2.1]
  refine ⟨u, h1, fun i p hpi hoff => ?_⟩
  have := h2 i p hpi
  simp only [Option.getD_none, hwk, hsh, Option.getD_some] at this
  exact this hoff

/-- two turbines in line over the ground, `Ct = 0.8`, wind 10 along the shafts, seen from a point upstream, meet the hypotheses -/
example : let args : ℕ → TurbineArgs := fun t => ⟨50, ⟨0, 80, 500*t⟩, ⟨0, 0, 1⟩, ⟨0, 1, 0⟩, ⟨0, 0, 10⟩, some .pinf, true, "VC"⟩
    let apc : ℝ := 0.8 * π * 10^2 / 800 / (4 * π * 800 * 50)^2
    ∀ t ∈ [0, 1], Orthonormal (args t).shaft (args t).vert ∧ 0 < (args t).R ∧ (args t).U0 = V3.smul 10 (args t).shaft ∧ (args t).Model = "VC" ∧
      20 ≤ 800 * (args t).R / 10 ∧ (0.8:ℝ) ≤ Ctc ∧ 0 ≤ 1 - 0.8 * (1 + apc) ∧
      ∀ c ∈ wakeCentres (args t).Ground (args t).vert (args t).hub, OffEdge (args t).R c (args t).vert (args t).shaft ⟨0, 80, -200⟩ := by
  intro args apc t _
  refine ⟨⟨by simp [V3.dot, args], by simp [V3.dot, args], by simp [V3.dot, args]⟩, by norm_num [args], ?_, rfl, by norm_num [args], ?_, ?_, ?_⟩
  · ext <;> simp [args]
  · unfold Ctc ac; norm_num
  · have hp := Real.pi_gt_three
    have : apc ≤ 0.001 := by
      have h1 : apc = 0.8 * 10^2 / 800 / (π * (4 * 800 * 50)^2) := by simp only [apc]; field_simp
      rw [h1, div_le_iff₀ (by positivity)]
      nlinarith
    linarith
  · intro c hc
    have : c = ⟨0, 80, 500*t⟩ ∨ c = ⟨0, -80, 500*t⟩ := by
      simp only [wakeCentres, args, if_true, List.mem_cons, List.not_mem_nil, or_false] at hc
      rcases hc with h | h
      · exact Or.inl h
      · right; rw [h]; ext <;> simp [groundImage, V3.dot]; norm_num
    rcases this with rfl | rfl
    · have e : √((inRotor ⟨0, 80, 500*t⟩ ⟨0, 1, 0⟩ ⟨0, 0, 1⟩ ⟨0, 80, -200⟩).x^2 + (inRotor ⟨0, 80, 500*t⟩ ⟨0, 1, 0⟩ ⟨0, 0, 1⟩ ⟨0, 80, -200⟩).y^2) = 0 := by
        simp [inRotor, V3.dot, V3.cross]
      unfold OffEdge
      simp only [args, e]
      norm_num
    · have e : √((inRotor ⟨0, -80, 500*t⟩ ⟨0, 1, 0⟩ ⟨0, 0, 1⟩ ⟨0, 80, -200⟩).x^2 + (inRotor ⟨0, -80, 500*t⟩ ⟨0, 1, 0⟩ ⟨0, 0, 1⟩ ⟨0, 80, -200⟩).y^2) = 160 := by
        rw [Real.sqrt_eq_iff_mul_self_eq (by positivity) (by norm_num)]
        simp [inRotor, V3.dot, V3.cross]; norm_num
      unfold OffEdge
      simp only [args, e]
      norm_num

end
end Wiz
