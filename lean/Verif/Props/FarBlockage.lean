import Verif.Props.FarAccuracy

/-! # C137: far from its rotors a farm is a set of point sinks; blockage far upstream -/
set_option autoImplicit false
namespace Wiz
open Spec Classical Real
noncomputable section

/-- beyond the cut-off the far-field models are point sinks -/
theorem model_sink (chi : Num) (hsk : ¬ (Num.fin 1e-7 < Num.abs chi)) (Mn : String) (γ R cut : ℝ) (hR : 0 < R) (v s c : V3 ℝ)
    (hv : V3.dot v v = 1) (hs : V3.dot s s = 1) (ho : V3.dot v s = 0) (pts : List (V3 ℝ)) (i : ℕ) (p : V3 ℝ) (hpi : pts[i]? = some p)
    (hdom : (Mn = "VCFF" ∧ cut * R < V3.norm (p - c) ∧ OutsideWake R c v s p ∧ ResolvedPoint c v s p) ∨ (Mn = "VD" ∧ 2e-8 ≤ R ∧ OutsideWake R c v s p)) :
    (wakeTang chi Mn (.fin γ) R cut (rotorAxes (V3.cross v s) v s c pts)).getD i 0 =
      V3.fin (V3.smul (-(γ * R^2/4)/V3.norm (p - c)^3) (inRotor c v s p)) := by
  have hY : (rotorAxes (V3.cross v s) v s c pts)[i]? = some (inRotor c v s p) := by
    simp only [rotorAxes, List.getElem?_map, hpi, Option.map_some, inRotor]
  have hn := inRotor_norm c v s p hv hs ho
  unfold wakeTang
  rw [if_neg (show ¬ skewed chi from hsk)]
  rcases hdom with ⟨rfl, hfar, hout, hres⟩ | ⟨rfl, h8, hout⟩
  · rw [if_neg (by decide), if_pos rfl]
    have := vcff_sink _ γ R cut hR i _ hY (by change _ < V3.norm _; rw [hn]; exact hfar) hout hres.1 hres.2
    change _ = some (V3.fin (V3.smul (-(γ * R^2/4)/V3.norm (inRotor c v s p)^3) _)) at this
    rw [hn] at this
    exact getElem_getD this
  · rw [if_neg (by decide), if_neg (by decide), if_pos rfl]
    apply getElem_getD
    rw [List.getElem?_map, hY, Option.map_some, Num.fin_mul]
    congr 1
    rw [C59_point_source _ _ ?_, sink_value]
    · change V3.fin (V3.smul (-(γ * R^2/4)/V3.norm (inRotor c v s p)^3) _) = _
      rw [hn]
    rintro ⟨h1, h2, h3⟩
    rcases hout with h | h
    · generalize inRotor c v s p = q at *
      obtain ⟨r, hr⟩ : ∃ r, r = √(q.x^2 + q.y^2) := ⟨_, rfl⟩
      have h5 : r^2 = q.x^2 + q.y^2 := by rw [hr]; exact sq_sqrt (by positivity)
      change R < √(q.x^2 + q.y^2) at h
      rw [← hr] at h
      rw [abs_lt] at h1 h2
      norm_num at h1 h2 h8
      have : q.y^2 ≤ (1/100000000)^2 := by nlinarith
      have : q.x^2 ≤ (1/100000000)^2 := by nlinarith
      nlinarith
    · exact absurd h (not_lt.2 h3)

theorem sub_eq_zero3 (a b : V3 ℝ) (h : V3.norm (a - b) ≤ 0) : a = b := by
  have h0 : V3.norm (a - b) = 0 := le_antisymm h (Real.sqrt_nonneg _)
  unfold V3.norm at h0
  rw [Real.sqrt_eq_zero (by positivity)] at h0
  have h1 := sq_nonneg (a - b).x
  have h2 := sq_nonneg (a - b).y
  have h3 := sq_nonneg (a - b).z
  simp only [V3.sub_x, V3.sub_y, V3.sub_z] at *
  ext
  · have : (a.x - b.x)^2 = 0 := by linarith
    have := pow_eq_zero_iff (two_ne_zero) |>.1 this
    linarith
  · have : (a.y - b.y)^2 = 0 := by linarith
    have := pow_eq_zero_iff (two_ne_zero) |>.1 this
    linarith
  · have : (a.z - b.z)^2 = 0 := by linarith
    have := pow_eq_zero_iff (two_ne_zero) |>.1 this
    linarith

theorem fromAxes_smul_inRotor (k : ℝ) (c v s p : V3 ℝ) (hv : V3.dot v v = 1) (hs : V3.dot s s = 1) (ho : V3.dot v s = 0) :
    fromAxes (V3.cross v s) v s (V3.smul k (inRotor c v s p)) = V3.smul k (p - c) := by
  rw [fromAxes_smul]
  exact congrArg (V3.smul k) (axes_expand v s hv hs ho (p - c))

/-- C137: beyond the cut-off and outside of the wakes, `velocity_field` of a farm of turbines without skew that use the models "VCFF" and "VD" is exactly
the free stream plus, for every rotor and every image below the ground, the point sink `-γR²/4 (p-c)/|p-c|³` at its centre. -/
theorem C137_sinks (mini : (ℝ → Num) → ℝ) (args : ℕ → TurbineArgs) (hist : ℕ → List Op) (ts : List ℕ) (γ : ℕ → ℝ) (model : ℕ → String)
    (pts : List (V3 ℝ)) (o : Opts) (hnw : o.no_wake = false) (hta : o.tang = true) (hlo : o.longi = false) (hro : o.root = false)
    (U0 : Option (V3 ℝ)) (w : ℕ → WT) (hw : ∀ t, w t = ((args t).build).run mini (hist t))
    (ho : ∀ t ∈ ts, Orthonormal (args t).shaft (args t).vert) (hR : ∀ t ∈ ts, 0 < (args t).R)
    (hg : ∀ t ∈ ts, (w t).gamma_t = some [.fin (γ t)])
    (hM : ∀ t ∈ ts, o.Model.getD (w t).Model = model t ∧ (model t = "VCFF" ∨ model t = "VD"))
    (hchi : ∀ t ∈ ts, ∃ chi, ((w t).computeU pts o).2.chi = some chi ∧ ¬ (Num.fin 1e-7 < Num.abs chi)) :
    let q := frun mini (ts.map .turbine) w []
    let wakes := fun t => wakeCentres (o.ground.getD (w t).Ground) (args t).vert (w t).r_hub
    ∃ u, (farmVelocity q.1 q.2 pts o U0).1 = .ok u ∧ ∀ (i : ℕ) (p : V3 ℝ), pts[i]? = some p →
      (∀ t ∈ ts, ∀ c ∈ wakes t, OutsideWake (args t).R c (args t).vert (w t).e_shaft_g p ∧
        ((model t = "VCFF" ∧ o.R_far_field * (args t).R < V3.norm (p - c) ∧ ResolvedPoint c (args t).vert (w t).e_shaft_g p) ∨ (model t = "VD" ∧ 2e-8 ≤ (args t).R))) →
      u[i]? = some (V3.fin (U0.getD 0 + (ts.map fun t => ((wakes t).map fun c => V3.smul (-(γ t * (args t).R^2/4)/V3.norm (p - c)^3) (p - c)).sum).sum)) := by
  intro q wakes
  have key := farm_within mini ts w pts o U0 (fun t p => ((wakes t).map fun c => V3.smul (-(γ t * (args t).R^2/4)/V3.norm (p - c)^3) (p - c)).sum)
    (fun t => 0) (fun t p => ∀ c ∈ wakes t, OutsideWake (args t).R c (args t).vert (w t).e_shaft_g p ∧
        ((model t = "VCFF" ∧ o.R_far_field * (args t).R < V3.norm (p - c) ∧ ResolvedPoint c (args t).vert (w t).e_shaft_g p) ∨ (model t = "VD" ∧ 2e-8 ≤ (args t).R))) ?_
  · obtain ⟨u, hu, hall⟩ := key
    refine ⟨u, hu, fun i p hpi hgood => ?_⟩
    obtain ⟨v, hv, hb⟩ := hall i p hpi hgood
    have : (ts.map fun _ => (0:ℝ)).sum = 0 := by simp
    rw [this] at hb
    rw [hv, sub_eq_zero3 _ _ hb]
  intro t ht
  have ew : w t = (WT.new (args t).R (args t).hub (args t).shaft (args t).vert (args t).U0 (args t).Lambda (args t).Ground (args t).Model).run mini (hist t) := hw t
  obtain ⟨a1, a2, a3, a4, a5, a6⟩ := rotorAxes_run mini (args t).R (args t).hub (args t).shaft (args t).vert (args t).U0 (args t).Lambda (args t).Ground (args t).Model (ho t ht) (hist t)
  rw [← ew] at a1 a2 a3 a5 a6
  obtain ⟨chi, c1, c2⟩ := hchi t ht
  have c1' : ((w t).computeU pts { o with only_ind := true }).2.chi = some chi := by rw [computeU_state] at c1 ⊢; exact c1
  obtain ⟨u, hu⟩ := straight_ok (w t) _ chi (hg t ht) pts { o with only_ind := true } hro hlo (model t) (hM t ht).1 (Or.inr (hM t ht).2) c1' c2
  refine ⟨u, hu, fun i p hpi hgood => ?_⟩
  have hs := model_sum mini (args t).R (args t).hub (args t).shaft (args t).vert (args t).U0 (args t).Lambda (args t).Ground (args t).Model (ho t ht) (hist t) pts
    { o with only_ind := true } hnw hta hlo hro (w t) ew (γ t) chi (hg t ht) (model t) (hM t ht).1 c1' u hu i p hpi
    (fun c => V3.smul (-(γ t * (args t).R^2/4)/V3.norm (p - c)^3) (inRotor c (args t).vert (w t).e_shaft_g p))
    (fun _ c hc => model_sink chi c2 (model t) (γ t) (args t).R o.R_far_field (hR t ht) (args t).vert (w t).e_shaft_g c (ho t ht).vert a6 a5 pts i p hpi (by
      obtain ⟨g1, g2⟩ := hgood c hc
      rcases g2 with ⟨h1, h2, h3⟩ | ⟨h1, h2⟩
      · exact Or.inl ⟨h1, h2, g1, h3⟩
      · exact Or.inr ⟨h1, h2, g1⟩)) (fun h0 c => by rw [h0]; ext <;> simp)
  refine ⟨_, hs, ?_⟩
  have e0 : ∀ x : V3 ℝ, x + (if ({ o with only_ind := true } : Opts).only_ind = true then 0 else (w t).U0_g) = x := fun x => by
    rw [if_pos rfl]; ext <;> simp
  rw [e0, fromAxes_sum]
  have he : ((wakes t).map fun c => fromAxes (V3.cross (args t).vert (w t).e_shaft_g) (args t).vert (w t).e_shaft_g
      (V3.smul (-(γ t * (args t).R^2/4)/V3.norm (p - c)^3) (inRotor c (args t).vert (w t).e_shaft_g p))) =
      (wakes t).map fun c => V3.smul (-(γ t * (args t).R^2/4)/V3.norm (p - c)^3) (p - c) :=
    List.map_congr_left fun c _ => fromAxes_smul_inRotor _ c _ _ p (ho t ht).vert a6 a5
  rw [show (wakeCentres (({ o with only_ind := true } : Opts).ground.getD (w t).Ground) (args t).vert (w t).r_hub) = wakes t from rfl, he]
  have : ∀ x : V3 ℝ, x - x = 0 := fun x => by ext <;> simp
  rw [this, norm_zero3]

/-- the axial velocity deficit of one sink upstream of its rotor, and how close it is to that of the vortex cylinder -/
theorem sink_deficit (γ R : ℝ) (hR : 0 < R) (hγ : γ ≤ 0) (c v s p : V3 ℝ) (hv : V3.dot v v = 1) (hs : V3.dot s s = 1) (ho : V3.dot v s = 0)
    (hz : (inRotor c v s p).z < 0) (h6 : 6 * R ≤ V3.norm (p - c)) (b : ℝ)
    (hb : b = -V3.dot (V3.smul (-(γ * R^2/4)/V3.norm (p - c)^3) (p - c)) s) :
    0 ≤ b ∧ (γ < 0 → 0 < b) ∧ |b - -γ/(4*π) * diskSolidAngle R (inRotor c v s p)| ≤ 1/24 * b := by
  have hpi := pi_pos
  have hn := inRotor_norm c v s p hv hs ho
  have hzdef : (inRotor c v s p).z = V3.dot (p - c) s := rfl
  have hdot : V3.dot (V3.smul (-(γ * R^2/4)/V3.norm (p - c)^3) (p - c)) s = -(γ * R^2/4)/V3.norm (p - c)^3 * (inRotor c v s p).z := by
    rw [hzdef]; simp only [V3.dot, V3.smul_x, V3.smul_y, V3.smul_z]; ring
  rw [hdot] at hb
  have hd2 : V3.norm (inRotor c v s p)^2 = √((inRotor c v s p).x^2 + (inRotor c v s p).y^2)^2 + |(inRotor c v s p).z|^2 := by
    unfold V3.norm
    rw [sq_sqrt (by positivity), sq_sqrt (by positivity), sq_abs]
  rw [hn] at hd2
  clear hdot
  generalize inRotor c v s p = q at *
  generalize V3.norm (p - c) = d at *
  have hd0 : 0 < d := by linarith
  have hsa : diskSolidAngle R q = saK √(q.x^2 + q.y^2) |q.z| R := by
    conv_lhs => rw [polar_form q]
    exact solidAngle_eq R _ _ _ hz.ne hR.le
  have hf := saK_far (abs_pos.2 hz.ne) hR.le hd0 hd2 h6
  rw [← hsa, abs_of_neg hz] at hf
  have hb' : b = -γ/(4*π) * (π*R^2*(-q.z)/d^3) := by rw [hb]; field_simp
  have hk : 0 < π*R^2*(-q.z)/d^3 := by have : 0 < -q.z := by linarith
                                       positivity
  have hg : 0 ≤ -γ/(4*π) := div_nonneg (by linarith) (by positivity)
  refine ⟨hb' ▸ mul_nonneg hg hk.le, fun h => hb' ▸ mul_pos (div_pos (by linarith) (by positivity)) hk, ?_⟩
  have hq : R/d ≤ 1/6 := by rw [div_le_iff₀ hd0]; linarith
  have hq0 : 0 ≤ R/d := by positivity
  have hq2 : (R/d)^2 ≤ 1/36 := by nlinarith
  have h3 : |diskSolidAngle R q - π*R^2*(-q.z)/d^3| ≤ 1/24 * (π*R^2*(-q.z)/d^3) :=
    hf.trans (mul_le_mul_of_nonneg_right (by linarith) hk.le)
  rw [hb', ← mul_sub, abs_mul, abs_of_nonneg hg, abs_sub_comm]
  calc -γ/(4*π) * |diskSolidAngle R q - π*R^2*(-q.z)/d^3| ≤ -γ/(4*π) * (1/24 * (π*R^2*(-q.z)/d^3)) := mul_le_mul_of_nonneg_left h3 hg
    _ = _ := by ring

/-- sums of non-negative terms, each known up to a relative error -/
theorem sum_relative {α : Type*} (l : List α) (f g : α → ℝ) (ε : ℝ) (h0 : ∀ a ∈ l, 0 ≤ f a) (h : ∀ a ∈ l, |f a - g a| ≤ ε * f a) :
    0 ≤ (l.map f).sum ∧ |(l.map f).sum - (l.map g).sum| ≤ ε * (l.map f).sum ∧ ((∃ a ∈ l, 0 < f a) → 0 < (l.map f).sum) := by
  induction l with
  | nil => simp
  | cons a l ih =>
    obtain ⟨i1, i2, i3⟩ := ih (fun b hb => h0 b (List.mem_cons_of_mem _ hb)) (fun b hb => h b (List.mem_cons_of_mem _ hb))
    have ha := h0 a List.mem_cons_self
    have hb := h a List.mem_cons_self
    simp only [List.map_cons, List.sum_cons]
    refine ⟨by linarith, ?_, ?_⟩
    · rw [show f a + (l.map f).sum - (g a + (l.map g).sum) = (f a - g a) + ((l.map f).sum - (l.map g).sum) by ring]
      exact (abs_add_le _ _).trans (by linarith)
    · rintro ⟨b, hb, hp⟩
      rcases List.mem_cons.1 hb with rfl | hb
      · linarith
      · linarith [i3 ⟨b, hb, hp⟩]

theorem dot_sum_neg {α : Type*} (l : List α) (f : α → V3 ℝ) (s : V3 ℝ) : -V3.dot ((l.map f).sum) s = (l.map fun a => -V3.dot (f a) s).sum := by
  induction l with
  | nil => simp [V3.dot]
  | cons a l ih =>
    simp only [List.map_cons, List.sum_cons, ← ih]
    simp only [V3.dot, V3.add_x, V3.add_y, V3.add_z]; ring

theorem wakeCentres_mem (g : Bool) (v h : V3 ℝ) : h ∈ wakeCentres g v h := by
  unfold wakeCentres; cases g <;> simp

/-- C137: the blockage of a farm of "VCFF" and "VD" turbines with a common shaft direction, at a point upstream of all the rotors, six radii or more from
them (and beyond the cut-off). The deficit along the shaft is the sum of `|γ|R²/4 |z|/d³`; it is non-negative, positive as soon as one turbine has thrust,
and within 1/24 of `Σ |γ|/(4π) Ω`, the deficit of the vortex cylinders (`Ω`: solid angle of the rotor seen from the point). -/
theorem C137_blockage (mini : (ℝ → Num) → ℝ) (args : ℕ → TurbineArgs) (hist : ℕ → List Op) (ts : List ℕ) (γ : ℕ → ℝ) (model : ℕ → String)
    (pts : List (V3 ℝ)) (o : Opts) (hnw : o.no_wake = false) (hta : o.tang = true) (hlo : o.longi = false) (hro : o.root = false)
    (U0 s : V3 ℝ) (w : ℕ → WT) (hw : ∀ t, w t = ((args t).build).run mini (hist t))
    (ho : ∀ t ∈ ts, Orthonormal (args t).shaft (args t).vert) (hR : ∀ t ∈ ts, 0 < (args t).R)
    (hg : ∀ t ∈ ts, (w t).gamma_t = some [.fin (γ t)]) (hs : ∀ t ∈ ts, (w t).e_shaft_g = s) (hγ : ∀ t ∈ ts, γ t ≤ 0)
    (hM : ∀ t ∈ ts, o.Model.getD (w t).Model = model t ∧ (model t = "VCFF" ∨ model t = "VD"))
    (hchi : ∀ t ∈ ts, ∃ chi, ((w t).computeU pts o).2.chi = some chi ∧ ¬ (Num.fin 1e-7 < Num.abs chi)) :
    let q := frun mini (ts.map .turbine) w []
    let wakes := fun t => wakeCentres (o.ground.getD (w t).Ground) (args t).vert (w t).r_hub
    ∃ u, (farmVelocity q.1 q.2 pts o (some U0)).1 = .ok u ∧ ∀ (i : ℕ) (p : V3 ℝ), pts[i]? = some p →
      (∀ t ∈ ts, ∀ c ∈ wakes t, V3.dot (p - c) s < 0 ∧ 6 * (args t).R ≤ V3.norm (p - c) ∧
        ((model t = "VCFF" ∧ o.R_far_field * (args t).R < V3.norm (p - c) ∧ ResolvedPoint c (args t).vert s p) ∨ (model t = "VD" ∧ 2e-8 ≤ (args t).R))) →
      ∃ (v : V3 ℝ) (B : ℝ), u[i]? = some (V3.fin v) ∧ V3.dot v s = V3.dot U0 s - B ∧
        B = (ts.map fun t => ((wakes t).map fun c => |γ t| * (args t).R^2/4 * |V3.dot (p - c) s|/V3.norm (p - c)^3).sum).sum ∧
        0 ≤ B ∧ ((∃ t ∈ ts, γ t < 0) → 0 < B) ∧
        |B - (ts.map fun t => ((wakes t).map fun c => |γ t|/(4*π) * diskSolidAngle (args t).R (inRotor c (args t).vert s p)).sum).sum| ≤ 1/24 * B := by
  intro q wakes
  obtain ⟨u, hu, hall⟩ := C137_sinks mini args hist ts γ model pts o hnw hta hlo hro (some U0) w hw ho hR hg hM hchi
  refine ⟨u, hu, fun i p hpi hgood => ?_⟩
  have hval := hall i p hpi (fun t ht c hc => by
    obtain ⟨g1, g2, g3⟩ := hgood t ht c hc
    rw [hs t ht]
    exact ⟨Or.inr g1, g3⟩)
  have hterm : ∀ t ∈ ts, ∀ c ∈ wakes t, -V3.dot (V3.smul (-(γ t * (args t).R^2/4)/V3.norm (p - c)^3) (p - c)) s =
      |γ t| * (args t).R^2/4 * |V3.dot (p - c) s|/V3.norm (p - c)^3 := by
    intro t ht c hc
    obtain ⟨g1, g2, g3⟩ := hgood t ht c hc
    rw [abs_of_nonpos (hγ t ht), abs_of_neg g1]
    simp only [V3.dot, V3.smul_x, V3.smul_y, V3.smul_z]; ring
  have hone : ∀ t ∈ ts, ∀ c ∈ wakes t,
      let f := |γ t| * (args t).R^2/4 * |V3.dot (p - c) s|/V3.norm (p - c)^3
      0 ≤ f ∧ (γ t < 0 → 0 < f) ∧ |f - |γ t|/(4*π) * diskSolidAngle (args t).R (inRotor c (args t).vert s p)| ≤ 1/24 * f := by
    intro t ht c hc f
    obtain ⟨g1, g2, g3⟩ := hgood t ht c hc
    have ew : w t = (WT.new (args t).R (args t).hub (args t).shaft (args t).vert (args t).U0 (args t).Lambda (args t).Ground (args t).Model).run mini (hist t) := hw t
    obtain ⟨a1, a2, a3, a4, a5, a6⟩ := rotorAxes_run mini (args t).R (args t).hub (args t).shaft (args t).vert (args t).U0 (args t).Lambda (args t).Ground (args t).Model (ho t ht) (hist t)
    rw [← ew, hs t ht] at a5 a6
    have := sink_deficit (γ t) (args t).R (hR t ht) (hγ t ht) c (args t).vert s p (ho t ht).vert a6 a5 g1 g2 f (hterm t ht c hc).symm
    rw [abs_of_nonpos (hγ t ht)]
    exact this
  have hin : ∀ t ∈ ts, 0 ≤ ((wakes t).map fun c => |γ t| * (args t).R^2/4 * |V3.dot (p - c) s|/V3.norm (p - c)^3).sum ∧
      |((wakes t).map fun c => |γ t| * (args t).R^2/4 * |V3.dot (p - c) s|/V3.norm (p - c)^3).sum -
        ((wakes t).map fun c => |γ t|/(4*π) * diskSolidAngle (args t).R (inRotor c (args t).vert s p)).sum| ≤
        1/24 * ((wakes t).map fun c => |γ t| * (args t).R^2/4 * |V3.dot (p - c) s|/V3.norm (p - c)^3).sum ∧
      (γ t < 0 → 0 < ((wakes t).map fun c => |γ t| * (args t).R^2/4 * |V3.dot (p - c) s|/V3.norm (p - c)^3).sum) := by
    intro t ht
    obtain ⟨k1, k2, k3⟩ := sum_relative (wakes t) (fun c => |γ t| * (args t).R^2/4 * |V3.dot (p - c) s|/V3.norm (p - c)^3)
      (fun c => |γ t|/(4*π) * diskSolidAngle (args t).R (inRotor c (args t).vert s p)) (1/24) (fun c hc => (hone t ht c hc).1) (fun c hc => (hone t ht c hc).2.2)
    exact ⟨k1, k2, fun h => k3 ⟨(w t).r_hub, wakeCentres_mem _ _ _, (hone t ht _ (wakeCentres_mem _ _ _)).2.1 h⟩⟩
  obtain ⟨k1, k2, k3⟩ := sum_relative ts (fun t => ((wakes t).map fun c => |γ t| * (args t).R^2/4 * |V3.dot (p - c) s|/V3.norm (p - c)^3).sum)
    (fun t => ((wakes t).map fun c => |γ t|/(4*π) * diskSolidAngle (args t).R (inRotor c (args t).vert s p)).sum) (1/24) (fun t ht => (hin t ht).1) (fun t ht => (hin t ht).2.1)
  refine ⟨_, _, hval, ?_, rfl, k1, fun ⟨t, ht, h⟩ => k3 ⟨t, ht, (hin t ht).2.2 h⟩, k2⟩
  have e1 : ∀ x y : V3 ℝ, V3.dot (x + y) s = V3.dot x s - -V3.dot y s := fun x y => by
    simp only [V3.dot, V3.add_x, V3.add_y, V3.add_z]; ring
  rw [Option.getD_some, e1, dot_sum_neg]
  congr 2
  apply List.map_congr_left
  intro t ht
  rw [dot_sum_neg]
  congr 1
  exact List.map_congr_left fun c hc => hterm t ht c hc

/-- C137 for the standard workflow: "VCFF" and "VD" turbines that face a common wind `U s`, loaded with `update_loading(Ct=C)`, `C > 0` below the high-thrust
limit, evaluated by `velocity_field` with the default options upstream of all the rotors and six radii or more away. The wind speed there is `U - B`, with
`B > 0` the sum of the sinks, within 1/24 of the vortex cylinders of intensities `U(1-√(1-C(1+apc)))`. -/
theorem C137_thrust (mini : (ℝ → Num) → ℝ) (args : ℕ → TurbineArgs) (C Ω apc : ℕ → ℝ) (ts : List ℕ) (hne : ts ≠ []) (U : ℝ) (hU : 0 < U) (s : V3 ℝ)
    (ho : ∀ t ∈ ts, Orthonormal (args t).shaft (args t).vert) (hR : ∀ t ∈ ts, 0 < (args t).R)
    (hs : ∀ t ∈ ts, (args t).shaft = s ∧ (args t).U0 = V3.smul U s)
    (hM : ∀ t ∈ ts, (args t).Model = "VCFF" ∨ (args t).Model = "VD")
    (hΩ : ∀ t ∈ ts, ((∃ l : ℝ, (args t).Lambda = some (.fin l) ∧ Ω t = l * U / (args t).R) ∨ ((args t).Lambda = some .pinf ∧ Ω t = 800)) ∧
      20 ≤ Ω t * (args t).R / U)
    (hapc : ∀ t ∈ ts, apc t = C t * π * U^2 / Ω t / (4 * π * Ω t * (args t).R)^2)
    (hC : ∀ t ∈ ts, 0 < C t ∧ C t ≤ Ctc ∧ 0 ≤ 1 - C t * (1 + apc t))
    (pts : List (V3 ℝ)) :
    let w := fun t => ((args t).build).run mini [.loading { Ct := some [.fin (C t)] }]
    let q := frun mini (ts.map .turbine) w []
    let wakes := fun t => wakeCentres (args t).Ground (args t).vert (args t).hub
    let γ := fun t => U * (1 - √(1 - C t * (1 + apc t)))
    ∃ u, (farmVelocity q.1 q.2 pts {} (some (V3.smul U s))).1 = .ok u ∧ ∀ (i : ℕ) (p : V3 ℝ), pts[i]? = some p →
      (∀ t ∈ ts, ∀ c ∈ wakes t, V3.dot (p - c) s < 0 ∧ 6 * (args t).R < V3.norm (p - c) ∧
        (((args t).Model = "VCFF" ∧ ResolvedPoint c (args t).vert s p) ∨ ((args t).Model = "VD" ∧ 2e-8 ≤ (args t).R))) →
      ∃ (v : V3 ℝ) (B : ℝ), u[i]? = some (V3.fin v) ∧ V3.dot v s = U - B ∧
        B = (ts.map fun t => ((wakes t).map fun c => γ t * (args t).R^2/4 * |V3.dot (p - c) s|/V3.norm (p - c)^3).sum).sum ∧ 0 < B ∧
        |B - (ts.map fun t => ((wakes t).map fun c => γ t/(4*π) * diskSolidAngle (args t).R (inRotor c (args t).vert s p)).sum).sum| ≤ 1/24 * B := by
  intro w q wakes γ
  have hb : ∀ t, (w t).r_hub = (args t).hub ∧ (w t).e_shaft_g = M3.mulVec (rotMatAxisAngle (args t).vert 0) (args t).shaft ∧
      (w t).Ground = (args t).Ground ∧ (w t).Model = (args t).Model := by
    intro t
    obtain ⟨b1, b2, b3, b4, b5, b6, b7, b8, b9, b10, b11, b12, b13, b14⟩ := loading_frame mini (args t).build { Ct := some [.fin (C t)] }
    exact ⟨b2, b5, b12, b14⟩
  have hsh : ∀ t ∈ ts, (w t).e_shaft_g = s := by
    intro t ht
    rw [(hb t).2.1, (hs t ht).1]
    unfold rotMatAxisAngle M3.mulVec
    ext <;> simp
  have hwind : ∀ t ∈ ts, (args t).U0 = V3.smul U (args t).shaft := fun t ht => by rw [(hs t ht).1]; exact (hs t ht).2
  have hg : ∀ t ∈ ts, (w t).gamma_t = some [.fin (-γ t)] := fun t ht => by
    rw [show -γ t = -U * (1 - √(1 - C t * (1 + apc t))) by simp only [γ]; ring]
    exact thrust_strength mini (args t) (C t) U (Ω t) (apc t) (ho t ht) (hR t ht) hU (hwind t ht) (hΩ t ht) (hapc t ht) ⟨(hC t ht).2.1, (hC t ht).2.2⟩
  have hpos : ∀ t ∈ ts, 0 < γ t := by
    intro t ht
    obtain ⟨c1, c2, c3⟩ := hC t ht
    have hΩ0 : 0 < Ω t := by
      have h1 := (hΩ t ht).2
      have h2 := hR t ht
      rw [le_div_iff₀ hU] at h1
      by_contra h3
      have : Ω t * (args t).R ≤ 0 := mul_nonpos_of_nonpos_of_nonneg (not_lt.1 h3) h2.le
      linarith
    have ha : 0 ≤ apc t := by
      rw [hapc t ht]
      have := hR t ht
      have := pi_pos
      positivity
    have : √(1 - C t * (1 + apc t)) < 1 := by
      rw [sqrt_lt' one_pos]
      nlinarith
    exact mul_pos hU (by linarith)
  obtain ⟨u, h1, h2⟩ := C137_blockage mini args (fun t => [.loading { Ct := some [.fin (C t)] }]) ts (fun t => -γ t) (fun t => (args t).Model) pts {} rfl rfl rfl rfl
    (V3.smul U s) s w (fun _ => rfl) ho hR hg hsh (fun t ht => by have := hpos t ht; linarith)
    (fun t ht => ⟨(hb t).2.2.2, hM t ht⟩) (fun t ht => ⟨0, aligned_chi mini (args t) (ho t ht) U hU (hwind t ht) _ _ _, by simp; norm_num⟩)
  have hwk : ∀ t, wakeCentres ((w t).Ground) (args t).vert (w t).r_hub = wakes t := by
    intro t
    rw [(hb t).1, (hb t).2.2.1]
  refine ⟨u, h1, fun i p hpi hoff => ?_⟩
  have := h2 i p hpi
  simp only [Option.getD_none, hwk] at this
  obtain ⟨v, B, k1, k2, k3, k4, k5, k6⟩ := this (fun t ht c hc => by
    obtain ⟨g1, g2, g3⟩ := hoff t ht c hc
    exact ⟨g1, g2.le, g3.imp (fun h => ⟨h.1, g2, h.2⟩) id⟩)
  obtain ⟨t0, ht0⟩ := List.exists_mem_of_ne_nil ts hne
  have hss : V3.dot s s = 1 := by rw [← (hs t0 ht0).1]; exact (ho t0 ht0).shaft
  refine ⟨v, B, k1, ?_, ?_, k5 ⟨t0, ht0, by have := hpos t0 ht0; linarith⟩, ?_⟩
  · rw [k2]
    congr 1
    have : V3.dot (V3.smul U s) s = U * V3.dot s s := by simp only [V3.dot, V3.smul_x, V3.smul_y, V3.smul_z]; ring
    rw [this, hss, mul_one]
  · rw [k3]
    congr 1
    apply List.map_congr_left
    intro t ht
    congr 1
    apply List.map_congr_left
    intro c hc
    rw [abs_neg, abs_of_pos (hpos t ht)]
  · rw [List.map_congr_left (g := fun t => ((wakes t).map fun c => |-γ t|/(4*π) * diskSolidAngle (args t).R (inRotor c (args t).vert s p)).sum)]
    · exact k6
    intro t ht
    congr 1
    apply List.map_congr_left
    intro c hc
    rw [abs_neg, abs_of_pos (hpos t ht)]

/-- a row of a "VCFF" and a "VD" turbine above the ground, seen from 12 radii upstream -/
example : let args : ℕ → TurbineArgs := fun t => ⟨50, ⟨300*t, 80, 0⟩, ⟨0, 0, 1⟩, ⟨0, 1, 0⟩, ⟨0, 0, 10⟩, some .pinf, true, if t = 0 then "VCFF" else "VD"⟩
    let ts := [0, 1]
    let s : V3 ℝ := ⟨0, 0, 1⟩
    let p : V3 ℝ := ⟨100, 80, -600⟩
    (∀ t ∈ ts, (args t).shaft = s ∧ (args t).U0 = V3.smul 10 s) ∧
    ∀ t ∈ ts, ∀ c ∈ wakeCentres (args t).Ground (args t).vert (args t).hub, V3.dot (p - c) s < 0 ∧ 6 * (args t).R < V3.norm (p - c) ∧
        (((args t).Model = "VCFF" ∧ ResolvedPoint c (args t).vert s p) ∨ ((args t).Model = "VD" ∧ 2e-8 ≤ (args t).R)) := by
  intro args ts s p
  have hn : ∀ c : V3 ℝ, c.z = 0 → (6:ℝ) * 50 < V3.norm (p - c) := by
    intro c hc
    refine lt_of_lt_of_le ?_ (comp_le_norm _).2.2
    rw [V3.sub_z, hc]; norm_num [p]
  refine ⟨fun t _ => ⟨rfl, by ext <;> simp [args, s]⟩, fun t ht c hc => ?_⟩
  have hc' : c = ⟨300*t, 80, 0⟩ ∨ c = ⟨300*t, -80, 0⟩ := by
    simp only [wakeCentres, args, if_true, List.mem_cons, List.not_mem_nil, or_false] at hc
    refine hc.imp id fun h => ?_
    rw [h]
    ext <;> simp [groundImage, V3.dot]
    norm_num
  have hcz : c.z = 0 := by rcases hc' with h | h <;> rw [h]
  refine ⟨?_, hn c hcz, ?_⟩
  · simp only [V3.dot, V3.sub_x, V3.sub_y, V3.sub_z, hcz, p, s]; norm_num
  · simp only [ts, List.mem_cons, List.not_mem_nil, or_false] at ht
    rcases ht with rfl | rfl
    · left
      refine ⟨rfl, ?_⟩
      have hx : inRotor c (args 0).vert s p = ⟨100, 80 - c.y, -600⟩ := by
        unfold inRotor
        rcases hc' with h | h <;> rw [h] <;> ext <;> norm_num [V3.dot, V3.cross, args, s, p]
      unfold ResolvedPoint
      simp only [hx]
      refine ⟨Or.inr ?_, by norm_num⟩
      rw [lt_sqrt (by norm_num)]
      nlinarith [sq_nonneg (80 - c.y)]
    · right
      exact ⟨rfl, by norm_num [args]⟩

end
end Wiz
