import Verif.Props.CompleteWake
import Verif.Props.TurbineSwirl2
import Verif.Props.Swirl
/-! # C140: the velocity of a turbine is the Biot–Savart velocity of its complete wake: straight wakes, and wakes from the loading -/
set_option autoImplicit false
namespace Wiz
open Spec Classical Real
noncomputable section

theorem far_straight (R : ℝ) (hR : 0 < R) (q : V3 ℝ) (θ t : ℝ) : |√(q.x^2 + q.y^2) - R| ≤ V3.norm (q - wakePoint R (tan 0) θ t) := by
  rw [wake_norm, skewDir_tan (by rw [cos_zero]; exact one_pos), sin_zero, cos_zero]
  apply Real.abs_le_sqrt
  simp only [mul_zero, sub_zero, mul_one]
  have h1 := Real.sq_sqrt (show 0 ≤ q.x^2 + q.y^2 by positivity)
  have h2 : q.x * cos θ + q.y * sin θ ≤ √(q.x^2 + q.y^2) := by
    apply Real.le_sqrt_of_sq_le
    nlinarith [sq_nonneg (q.x * sin θ - q.y * cos θ), sin_sq_add_cos_sq θ]
  have h3 := mul_le_mul_of_nonneg_left h2 hR.le
  have h4 : (q.x - R * cos θ)^2 + (q.y - R * sin θ)^2 = q.x^2 + q.y^2 - 2*(R*(q.x * cos θ + q.y * sin θ)) + R^2 := by
    linear_combination R^2 * sin_sq_add_cos_sq θ
  nlinarith [sq_nonneg (q.z - t)]

theorem straight_dir (v s : V3 ℝ) : s = V3.smul (sin 0) (V3.cross v s) + V3.smul (cos 0) s := by rw [sin_zero, cos_zero]; ext <;> simp

/-- filaments along the shaft -/
theorem filament_straight (γ R : ℝ) (hR : 0 < R) (c v s p : V3 ℝ) (hv : V3.dot v v = 1) (hs : V3.dot s s = 1) (ho : V3.dot v s = 0)
    (hne : √((inRotor c v s p).x^2 + (inRotor c v s p).y^2) ≠ R) :
    filamentFlow γ R c v s s p = fromAxes (V3.cross v s) v s (longiField γ R (inRotor c v s p)) := by
  have hD : 0 < |√((inRotor c v s p).x^2 + (inRotor c v s p).y^2) - R| := abs_pos.2 (sub_ne_zero.2 hne)
  rw [filamentFlow_axes γ R _ 0 hR.le hD c v s p hv hs ho (by rw [cos_zero]; exact one_pos) s (straight_dir v s)
    (fun θ t _ => far_straight R hR _ θ t)]
  have := off_of_dist hD (fun θ t (_ : 0 ≤ t) => far_straight R hR (inRotor c v s p) θ t)
  rw [tan_zero] at this ⊢
  rw [(C78_fields γ R hR _ this).2]

theorem norm_small (a : V3 ℝ) (g : ℝ) (hg : 0 ≤ g) (hx : |a.x| ≤ 1e-7 * g) (hy : |a.y| ≤ 1e-7 * g) (hz : |a.z| ≤ 3/100 * g) : V3.norm a ≤ 301/10000 * g := by
  unfold V3.norm
  apply Real.sqrt_le_iff.mpr ⟨by positivity, ?_⟩
  have := pow_le_pow_left₀ (abs_nonneg _) hx 2
  have := pow_le_pow_left₀ (abs_nonneg _) hy 2
  have := pow_le_pow_left₀ (abs_nonneg _) hz 2
  rw [sq_abs] at *
  nlinarith [sq_nonneg g]

/-- the straight root vortex -/
theorem root_straight (Y : List (V3 ℝ)) (Γ : ℝ) (i : ℕ) (c v s p : V3 ℝ) (hv : V3.dot v v = 1) (hs : V3.dot s s = 1) (ho : V3.dot v s = 0)
    (hi : Y[i]? = some (inRotor c v s p)) (hr : 0 < axisDist s c p) :
    ∃ F, (vcRoot Y (.fin Γ) false).getD i 0 = V3.fin F ∧ halfLine Γ c s p = fromAxes (V3.cross v s) v s F := by
  have ho' : V3.dot s v = 0 := by rw [dot_comm]; exact ho
  obtain ⟨x1, -⟩ := swirl_axes c v s p hv hs ho' (inRotor c v s p) rfl
  rw [x1] at hr
  refine ⟨_, root_val Y Γ i _ hi hr, ?_⟩
  rw [halfLine_axes Γ 0 c v s p hv hs ho (by rw [cos_zero]; exact one_pos) s (straight_dir v s), tan_zero, skewDir_zero]
  congr 1
  generalize inRotor c v s p = q at *
  have hρ : polarR q.x q.y^2 = q.x^2 + q.y^2 := Real.sq_sqrt (by positivity)
  have hN : V3.norm q = √(polarR q.x q.y^2 + q.z^2) := by unfold V3.norm; rw [hρ]
  unfold eps
  generalize polarR q.x q.y = ρ at *
  have hN2 : V3.norm q^2 = ρ^2 + q.z^2 := by rw [hN, Real.sq_sqrt (by positivity)]
  have hN0 : 0 < V3.norm q := by rw [hN]; positivity
  have hd : V3.dot q ⟨0, 0, 1⟩ = q.z := by simp [V3.dot]
  have hlt : q.z < V3.norm q := by
    by_contra h
    push Not at h
    nlinarith [pow_pos hr 2]
  rw [biotSavart_halfline q ⟨0, 0, 1⟩ (by simp [V3.dot]) hN0 (by rw [hd]; linarith) Γ, hd, ← hN]
  have hpi := pi_pos
  have hk : Γ/(4*π)/(V3.norm q * (V3.norm q - q.z)) = Γ/(4*π*ρ) * (1 + q.z/V3.norm q) / ρ := by
    have h1 : V3.norm q - q.z ≠ 0 := by linarith
    generalize hm : V3.norm q - q.z = m at *
    have hm' : m * (V3.norm q + q.z) = ρ^2 := by rw [← hm]; nlinarith
    field_simp
    linear_combination -Γ*hm'
  rw [hk]
  ext <;> simp [V3.cross] <;> ring

/-- C140 (straight wake): after any history of settings that leaves finite vorticity in the turbine (any number of cylinders), with all parts of the wake switched on, a wake that is
not skewed and no ground, `compute_u` returns at every point off the radii of the cylinders (and off the shaft) the free stream plus the Biot–Savart velocity of the complete wake
that leaves the rotor along the shaft, within `3.01%` of the intensity of each cylinder of rings and `3% R/ρ` of that of each cylinder of filaments (the tolerance of the code's
elliptic integral of the third kind); the root vortex is exact. -/
theorem C140_aligned (mini : (ℝ → Num) → ℝ) (R : ℝ) (hub shaft vert U0 : V3 ℝ) (L : Option Num) (G : Bool)
    (M : String) (ho : Orthonormal shaft vert) (h : List Op) (pts : List (V3 ℝ)) (hp : pts ≠ []) (o : Opts) (hnw : o.no_wake = false)
    (hta : o.tang = true) (hlo : o.longi = true) (hro : o.root = true) (gt : List ℝ) (sheets : List (ℝ × ℝ)) (Γr : ℝ) (chi : Num) (hsk : ¬ (Num.fin 1e-7 < Num.abs chi)) :
    let w := (WT.new R hub shaft vert U0 L G M).run mini h
    let s := w.e_shaft_g
    let c := w.r_hub
    StoredWake w gt sheets Γr → o.ground.getD w.Ground = false → o.Model.getD w.Model = "VC" → (w.computeU pts o).2.chi = some chi →
    ∃ u, (w.computeU pts o).1 = .ok u ∧ ∀ (i : ℕ) (p : V3 ℝ) (ρ : ℝ), pts[i]? = some p → ρ = axisDist s c p → 0 < ρ → (∀ y ∈ sheets, OffEdge y.2 c vert s p) →
      ∃ v, u[i]? = some (V3.fin v) ∧ V3.norm (v - ((if o.only_ind then 0 else w.U0_g) + completeWake gt sheets Γr c vert s s p)) ≤
        (gt.map fun g => 301/10000 * |g|).sum + (sheets.map fun y => 3/100 * |y.1| * (y.2/ρ)).sum := by
  intro w s c hst hg hM hchi
  obtain ⟨u, hu, hall⟩ := complete_main mini R hub shaft vert U0 L G M ho h pts hp o hnw hta hlo hro w rfl gt sheets Γr chi hst hg hM hchi _ rfl
  refine ⟨u, hu, fun i p ρ hi hρ hρ0 hoff => ?_⟩
  obtain ⟨a1, a2, a3, a4, a5, a6⟩ := rotorAxes_run mini R hub shaft vert U0 L G M ho h
  have hpos : ∀ y ∈ sheets, 0 < y.2 := hst.2.2.2.2.1
  have hnsk : ¬ skewed chi := hsk
  obtain ⟨Y, hY⟩ : ∃ Y, Y = rotorAxes (V3.cross vert w.e_shaft_g) vert w.e_shaft_g w.r_hub pts := ⟨_, rfl⟩
  have hYi : Y[i]? = some (inRotor c vert s p) := by
    rw [hY]
    simp only [rotorAxes, List.getElem?_map, hi, Option.map_some]
    rfl
  have hρ' : ρ = √((inRotor c vert s p).x^2 + (inRotor c vert s p).y^2) := by
    rw [hρ, (swirl_axes c vert s p ho.vert a6 (by rw [dot_comm]; exact a5) _ rfl).1]; rfl
  obtain ⟨v, hv, hb⟩ := hall i p s hi (fun y => 301/10000 * |y.1|) (fun y => 3/100 * |y.1| * (y.2/ρ)) (fun y hy => by positivity) (fun y hy => by positivity)
    (by
      intro h0
      rw [← hY]
      unfold wakeRoot
      rw [if_neg hnsk]
      exact root_straight Y Γr i c vert s p ho.vert a6 a5 hYi (hρ ▸ hρ0))
    (by
      intro y hy h0
      obtain ⟨z, hz, e⟩ := List.mem_map.1 (List.of_mem_zip hy).2
      have hR' : 0 < y.2 := by rw [← e]; exact hpos z hz
      have hof : OffEdge y.2 c vert s p := by rw [← e]; exact hoff z hz
      obtain ⟨t, t1, t2, t3, t4⟩ := C119_batch Y y.1 y.2 hR' i _ hYi hof.1 hof.2
      refine ⟨t, cylinderField y.1 y.2 (inRotor c vert s p), ?_, ?_, norm_small _ _ (abs_nonneg _) (by simpa using t2) (by simpa using t3) (by simpa using t4)⟩
      · unfold wakeTang
        rw [if_neg hnsk, if_pos rfl, ← hY, List.getD_eq_getElem?_getD, t1, Option.getD_some]
      · rw [← wakeFlow_sheet y.1 y.2 hR' c vert s p ho.vert a6 a5 hof]; rfl)
    (by
      intro y hy h0
      have hof := hoff y hy
      obtain ⟨d, d1, d2⟩ := C121_accuracy Y y.1 y.2 (hpos y hy) i _ hYi ρ hρ' hρ0 (by rw [hρ']; exact hof.1)
      refine ⟨longiField y.1 y.2 (inRotor c vert s p) + V3.smul d ⟨-((inRotor c vert s p).y/ρ), (inRotor c vert s p).x/ρ, 0⟩, longiField y.1 y.2 (inRotor c vert s p), ?_,
        filament_straight y.1 y.2 (hpos y hy) c vert s p ho.vert a6 a5 hof.1, ?_⟩
      · unfold wakeLongi
        rw [if_neg hnsk, ← hY, List.getD_eq_getElem?_getD, d2, Option.getD_some]
      · generalize inRotor c vert s p = q at *
        have e : longiField y.1 y.2 q + V3.smul d ⟨-(q.y/ρ), q.x/ρ, 0⟩ - longiField y.1 y.2 q = V3.smul d ⟨-(q.y/ρ), q.x/ρ, 0⟩ := by ext <;> simp
        rw [e, norm_smul_unit]
        · exact d1
        · have : ρ^2 = q.x^2 + q.y^2 := by rw [hρ', Real.sq_sqrt (by positivity)]
          unfold V3.dot
          field_simp
          linarith)
  refine ⟨v, hv, hb.trans (le_of_eq ?_)⟩
  congr 2
  have hlen : gt.length = (sheets.map Prod.snd).length := by simpa using hst.2.2.2.1
  generalize sheets.map Prod.snd = l at *
  rw [show (fun y : ℝ × ℝ => 301/10000 * |y.1|) = (fun g => 301/10000 * |g|) ∘ Prod.fst from rfl, ← List.map_map, List.map_fst_zip hlen.le]

theorem axes_dir (v s d : V3 ℝ) (hv : V3.dot v v = 1) (hs : V3.dot s s = 1) (ho : V3.dot v s = 0) (hd : V3.dot d v = 0) (χ : ℝ)
    (h1 : sin χ = V3.dot d (V3.cross v s)) (h2 : cos χ = V3.dot d s) : V3.smul (sin χ) (V3.cross v s) + V3.smul (cos χ) s = d := by
  have := axes_expand v s hv hs ho d
  rw [hd] at this
  rw [h1, h2]
  conv_rhs => rw [← this]
  unfold fromAxes
  ext <;> simp

/-- C140 (wake along the wind): whatever happened to a turbine before, if its skew was left to the program and the wind blows horizontally in the direction `d`, at an angle with the
shaft of at least `1e-7` and less than a quarter turn, `compute_u` with all parts switched on returns the free stream plus the Biot–Savart velocity of the complete wake that leaves
the rotor in the direction of the wind, up to the stated error. -/
theorem C140_wind (mini : (ℝ → Num) → ℝ) (R : ℝ) (hub shaft vert U0 : V3 ℝ) (L : Option Num) (G : Bool)
    (M : String) (ho : Orthonormal shaft vert) (h : List Op) (pts : List (V3 ℝ)) (hp : pts ≠ []) (o : Opts) (hnw : o.no_wake = false)
    (hta : o.tang = true) (hlo : o.longi = true) (hro : o.root = true) (gt : List ℝ) (sheets : List (ℝ × ℝ)) (Γr D U : ℝ) (d : V3 ℝ) (hD : 0 < D) (hU : 0 < U)
    (hd : V3.dot d d = 1) (hdv : V3.dot d vert = 0) :
    let w := (WT.new R hub shaft vert U0 L G M).run mini h
    let s := w.e_shaft_g
    let c := w.r_hub
    StoredWake w gt sheets Γr → w.chi = none → w.U0_g = V3.smul U d → 0 < V3.dot d s → 1e-7 < |V3.dot d (V3.cross vert s)| →
    o.ground.getD w.Ground = false → o.Model.getD w.Model = "VC" →
    ∃ u, (w.computeU pts o).1 = .ok u ∧ ∀ (i : ℕ) (p : V3 ℝ), pts[i]? = some p → (∀ y ∈ sheets, Clear D y.2 c vert s d p) →
      (Γr ≠ 0 → 1e-7 < axisDist s c p ∧ 1e-5 ≤ V3.norm (p - c) ∧ 1e-12 ≤ V3.norm (p - c) * (V3.norm (p - c) - V3.dot (p - c) d)) →
      ∃ v, u[i]? = some (V3.fin v) ∧ V3.norm (v - ((if o.only_ind then 0 else V3.smul U d) + completeWake gt sheets Γr c vert s d p)) ≤
        √3 * π^2/(3 * 179^2) * (((gt.zip (sheets.map Prod.snd)).map fun y => |y.1| * ((y.2/D * (y.2/D + 2)) * (1 + 10 * (y.2/D) + 18 * (y.2/D)^2))).sum +
          (sheets.map fun y => |y.1| * ((y.2/D * (y.2/D + 2)) * (4 * (y.2/D) + 24 * (y.2/D)^2))).sum) := by
  intro w s c hst hchi hwind hds hdl hg hM
  obtain ⟨χ, x1, x2, x3, -⟩ := wind_chi mini R hub shaft vert U0 L G M ho h w rfl hchi U hU d hd hdv hwind pts o
  obtain ⟨a1, a2, a3, a4, a5, a6⟩ := rotorAxes_run mini R hub shaft vert U0 L G M ho h
  have hχ : 1e-7 < |χ| := by
    rw [← x2] at hdl
    exact hdl.trans_le abs_sin_le_abs
  have := C140_yawed mini R hub shaft vert U0 L G M ho h pts hp o hnw hta hlo hro gt sheets Γr χ D hD hχ (by rw [x3]; exact hds) hst hg hM x1
  rw [axes_dir vert _ d ho.vert a6 a5 hdv χ x2 x3] at this
  rw [hwind] at this
  exact this

/-- the wake stored by a loading of `n≥2` stations -/
theorem stations_stored (mini : (ℝ → Num) → ℝ) (R : ℝ) (hub shaft vert U0 : V3 ℝ) (L : Option Num) (gr : Bool) (M : String) (hR : 0 < R) (h : List Op)
    (n : ℕ) (r G : ℕ → ℝ) (lam : ℝ) (hl : 0 < lam) (hl20 : lam < 20) (hn : 2 ≤ n) (h0 : 0 < r 0) (hinc : ∀ i j, i < j → j < n → r i < r j) (a : LoadArgs)
    (ha : a = { r := some ((List.range n).map r), Gamma := some ((List.range n).map fun i => .fin (G i)), Lambda := some (.fin lam), nCyl := none }) (w : WT)
    (hw : w = (WT.new R hub shaft vert U0 L gr M).run mini (h ++ [.loading a])) (hU : 0 < V3.norm w.U0_g) :
    ∃ gt : List ℝ, StoredWake w gt ((List.range n).map fun i => ((G i - (if i = n - 1 then 0 else G (i+1))) / (2 * π * r i), r i)) (-G 0) := by
  obtain ⟨w0, hw0⟩ : ∃ w0, w0 = (WT.new R hub shaft vert U0 L gr M).run mini h := ⟨_, rfl⟩
  have hw : w = (w0.updateLoading mini a).2 := by
    rw [hw, run_append, ← hw0]; rfl
  have hfr := frame_run mini shaft vert R h _ (frame_new R hub shaft vert U0 L gr M)
  rw [← hw0] at hfr
  have hU0 : w.U0_g = w0.U0_g := by rw [hw]; exact (loading_frame mini w0 a).2.2.2.2.2.2.2.2.2.2.1
  rw [hU0] at hU
  obtain ⟨gt, g1, -, g2⟩ := loading_gamma mini w0 (by rw [hfr.R]; exact hR) hU n r G lam hl hl20 (by omega) h0 hinc (by omega) a (by rw [ha]; rfl) (by rw [ha]) (by rw [ha])
  rw [← hw] at g2
  have hpos : ∀ i < n, 0 < r i := by
    intro i hi
    rcases Nat.eq_zero_or_pos i with rfl | h
    · exact h0
    · exact h0.trans (hinc 0 i h hi)
  refine ⟨gt, by rw [g2], by rw [g2], ?_, by simpa using g1, ?_, Or.inl ⟨by simp; omega, ?_⟩⟩
  · rw [g2, List.map_map]; rfl
  · intro y hy
    obtain ⟨i, hi, rfl⟩ := List.mem_map.mp hy
    exact hpos i (List.mem_range.mp hi)
  · rw [g2, List.map_map]; rfl

/-- C140 (from the loading): load a turbine, whatever happened to it before, with a blade circulation `G` at `n≥2` increasing stations `r` and a tip-speed ratio below 20, in a
horizontal wind that makes an angle with the shaft.  Then `compute_u` with all parts switched on returns the free stream plus the Biot–Savart velocity of the wake
that leaves the rotor with the wind: a root vortex of circulation `-G_0`, filaments that carry `G_i - G_{i+1}` away from the station `r_i` (all around the circle of radius `r_i`), and rings
of the intensities that the turbine stores. -/
theorem C140_loading (mini : (ℝ → Num) → ℝ) (R : ℝ) (hub shaft vert U0 : V3 ℝ) (L : Option Num) (gr : Bool)
    (M : String) (ho : Orthonormal shaft vert) (hR : 0 < R) (h hist : List Op) (pts : List (V3 ℝ)) (hp : pts ≠ []) (o : Opts) (hnw : o.no_wake = false)
    (hta : o.tang = true) (hlo : o.longi = true) (hro : o.root = true) (D U : ℝ) (d : V3 ℝ) (hD : 0 < D) (hU : 0 < U) (hd : V3.dot d d = 1) (hdv : V3.dot d vert = 0)
    (n : ℕ) (r G : ℕ → ℝ) (lam : ℝ) (hl : 0 < lam) (hl20 : lam < 20) (hn : 2 ≤ n) (h0 : 0 < r 0) (hinc : ∀ i j, i < j → j < n → r i < r j) (a : LoadArgs) (hh : hist = h ++ [.loading a])
    (ha : a = { r := some ((List.range n).map r), Gamma := some ((List.range n).map fun i => .fin (G i)), Lambda := some (.fin lam), nCyl := none }) :
    let w := (WT.new R hub shaft vert U0 L gr M).run mini hist
    let s := w.e_shaft_g
    let c := w.r_hub
    let sheets : List (ℝ × ℝ) := (List.range n).map fun i => ((G i - (if i = n - 1 then 0 else G (i+1))) / (2 * π * r i), r i)
    w.chi = none → w.U0_g = V3.smul U d → 0 < V3.dot d s → 1e-7 < |V3.dot d (V3.cross vert s)| → o.ground.getD w.Ground = false → o.Model.getD w.Model = "VC" →
    ∃ gt : List ℝ, gt.length = n ∧ w.gamma_t = some (gt.map .fin) ∧ ∃ u, (w.computeU pts o).1 = .ok u ∧ ∀ (i : ℕ) (p : V3 ℝ), pts[i]? = some p → (∀ j < n, Clear D (r j) c vert s d p) →
      1e-7 < axisDist s c p → 1e-5 ≤ V3.norm (p - c) → 1e-12 ≤ V3.norm (p - c) * (V3.norm (p - c) - V3.dot (p - c) d) →
      ∃ v, u[i]? = some (V3.fin v) ∧ V3.norm (v - ((if o.only_ind then 0 else V3.smul U d) + completeWake gt sheets (-G 0) c vert s d p)) ≤
        √3 * π^2/(3 * 179^2) * (((gt.zip (sheets.map Prod.snd)).map fun y => |y.1| * ((y.2/D * (y.2/D + 2)) * (1 + 10 * (y.2/D) + 18 * (y.2/D)^2))).sum +
          (sheets.map fun y => |y.1| * ((y.2/D * (y.2/D + 2)) * (4 * (y.2/D) + 24 * (y.2/D)^2))).sum) := by
  intro w s c sheets hchi hwind hds hdl hg hM
  obtain ⟨gt, hst⟩ := stations_stored mini R hub shaft vert U0 L gr M hR h n r G lam hl hl20 hn h0 hinc a ha w (by rw [← hh])
    (by rw [hwind, norm_smul_unit _ _ hd, abs_of_pos hU]; exact hU)
  refine ⟨gt, by simpa using hst.2.2.2.1, hst.1, ?_⟩
  have hsh : ∀ y ∈ sheets, ∃ j < n, y.2 = r j := by
    intro y hy
    obtain ⟨j, hj, rfl⟩ := List.mem_map.mp hy
    exact ⟨j, List.mem_range.mp hj, rfl⟩
  have hst : StoredWake w gt sheets (-G 0) := hst
  clear_value sheets
  have key := C140_wind mini R hub shaft vert U0 L gr M ho hist pts hp o hnw hta hlo hro gt sheets (-G 0) D U d hD hU hd hdv hst hchi hwind hds hdl hg hM
  obtain ⟨u, hu, H⟩ := key
  refine ⟨u, hu, fun i p hi hcl h1 h2 h3 => H i p hi ?_ fun _ => ⟨h1, h2, h3⟩⟩
  intro y hy
  obtain ⟨j, hj, e⟩ := hsh y hy
  rw [e]
  exact hcl j hj

/-- a rotor turned by 30° to the wind and loaded at two stations meets the hypotheses of `C140_loading` (and so those of `C140_wind` and `C140_yawed`) at a point 200 m upstream -/
example (mini : (ℝ → Num) → ℝ) :
    let a : LoadArgs := { r := some ((List.range 2).map fun i : ℕ => 20 * ((i:ℝ) + 1)), Gamma := some ((List.range 2).map fun i : ℕ => Num.fin (60 + 40 * (i:ℝ))), Lambda := some (.fin 7), nCyl := none }
    let w := (WT.new 50 ⟨0,0,0⟩ ⟨1/2,0,√3/2⟩ ⟨0,1,0⟩ ⟨0,0,10⟩ none false "VC").run mini ([] ++ [.loading a])
    let s := w.e_shaft_g
    let c := w.r_hub
    let d : V3 ℝ := ⟨0,0,1⟩
    let p : V3 ℝ := ⟨0,0,-200⟩
    Orthonormal (⟨1/2,0,√3/2⟩ : V3 ℝ) ⟨0,1,0⟩ ∧ w.chi = none ∧ w.U0_g = V3.smul 10 d ∧ 0 < V3.dot d s ∧ 1e-7 < |V3.dot d (V3.cross ⟨0,1,0⟩ s)| ∧ w.Ground = false ∧ w.Model = "VC" ∧
      (∀ j : ℕ, j < 2 → Clear 150 (20 * ((j:ℝ) + 1)) c ⟨0,1,0⟩ s d p) ∧
      1e-7 < axisDist s c p ∧ 1e-5 ≤ V3.norm (p - c) ∧ 1e-12 ≤ V3.norm (p - c) * (V3.norm (p - c) - V3.dot (p - c) d) := by
  intro a w s c d p
  have h3 : √3^2 = 3 := Real.sq_sqrt (by norm_num)
  have h30 : 0 < √3 := Real.sqrt_pos.mpr (by norm_num)
  obtain ⟨e1, e2, -, -, e5, -, -, -, -, -, e11, e12, e13, e14⟩ := loading_frame mini
    ((WT.new 50 ⟨0,0,0⟩ ⟨1/2,0,√3/2⟩ ⟨0,1,0⟩ ⟨0,0,10⟩ none false "VC").run mini []) a
  have f2 : c = ⟨0,0,0⟩ := e2
  have f5 : s = ⟨1/2,0,√3/2⟩ := by
    refine Eq.trans e5 ?_
    have := (frame_run mini ⟨1/2,0,√3/2⟩ ⟨0,1,0⟩ 50 [] _ (frame_new 50 ⟨0,0,0⟩ ⟨1/2,0,√3/2⟩ ⟨0,1,0⟩ ⟨0,0,10⟩ none false "VC")).e_shaft_g
    rw [turn_eq] at this
    refine this.trans ?_
    change turn _ 0 _ = _
    unfold turn
    ext <;> simp
  have f11 : w.U0_g = ⟨0,0,10⟩ := e11
  have hn : V3.norm (p - c) = 200 := by
    rw [f2]; unfold V3.norm
    rw [Real.sqrt_eq_iff_mul_self_eq (by positivity) (by norm_num)]
    simp [p]; norm_num
  have hdt : V3.dot (p - c) d = -200 := by rw [f2]; simp [V3.dot, p, d]
  refine ⟨⟨?_, ?_, ?_⟩, e13, ?_, ?_, ?_, e12, e14, ?_, ?_, ?_, ?_⟩
  · simp only [V3.dot]; linarith
  · simp [V3.dot]
  · simp [V3.dot]
  · rw [f11]; ext <;> simp [d]
  · rw [f5]; simp [V3.dot, d]
  · rw [f5]; simp [V3.dot, V3.cross, d]; norm_num
  · intro j hj θ t ht
    rw [f2, f5]
    refine le_trans ?_ (comp_le_norm _).2.2
    have hj1 : (j:ℝ) ≤ 1 := by exact_mod_cast (by omega : j ≤ 1)
    have hj0 : (0:ℝ) ≤ j := Nat.cast_nonneg j
    have e : (p - sheetPoint (20 * ((j:ℝ) + 1)) ⟨0,0,0⟩ ⟨0,1,0⟩ ⟨1/2, 0, √3/2⟩ d θ t).z = -200 + 10 * ((j:ℝ) + 1) * cos θ - t := by
      simp [sheetPoint, V3.cross, p, d]; ring
    have : 10 * ((j:ℝ) + 1) * cos θ ≤ 20 := by nlinarith [cos_le_one θ]
    rw [e, abs_of_neg (by linarith)]
    linarith
  · rw [f2, f5]
    unfold axisDist
    refine lt_of_lt_of_le ?_ (comp_le_norm _).2.1
    simp [V3.cross, p]; norm_num
  · rw [hn]; norm_num
  · rw [hn, hdt]; norm_num

/-- a turbine that faces the wind, with a single cylinder, meets the hypotheses of `C140_aligned` at a point of its wake; the error there is that of the statement -/
example (mini : (ℝ → Num) → ℝ) :
    let w := (WT.new 50 ⟨0,0,0⟩ ⟨0,0,1⟩ ⟨0,1,0⟩ ⟨0,0,10⟩ none false "VC").run mini
      ([.chi (some 0)] ++ [.loading { r := some [50], Gamma := some [.fin 100], Lambda := some (.fin 7), nCyl := none }])
    ∃ g u v, (w.computeU [⟨3,4,100⟩] { longi := true, root := true }).1 = .ok u ∧ u[0]? = some (V3.fin v) ∧ w.gamma_t = some [.fin g] ∧
      V3.norm (v - (⟨0,0,10⟩ + completeWake [g] [(100/(2*π*50), 50)] (-100) ⟨0,0,0⟩ ⟨0,1,0⟩ ⟨0,0,1⟩ ⟨0,0,1⟩ ⟨3,4,100⟩)) ≤ 301/10000 * |g| + 3/100 * (100/(2*π*50)) * (50/5) := by
  intro w
  obtain ⟨f2, f5, f11, f12, f13, f14, f15⟩ := example_state mini 50 50
  obtain ⟨g, hst⟩ := stored_one mini ((WT.new 50 ⟨0,0,0⟩ ⟨0,0,1⟩ ⟨0,1,0⟩ ⟨0,0,10⟩ none false "VC").run mini [.chi (some 0)]) (by change (0:ℝ) < 50; norm_num)
    (by change 0 < V3.norm (⟨0,0,10⟩ : V3 ℝ); unfold V3.norm; simp) 50 100 7 (by norm_num) (by norm_num) (by norm_num) (le_refl (50:ℝ))
    { r := some [50], Gamma := some [.fin 100], Lambda := some (.fin 7), nCyl := none } rfl rfl rfl
  have hst : StoredWake w [g] [(100/(2*π*50), 50)] (-100) := hst
  obtain ⟨u, hu, H⟩ := C140_aligned mini 50 ⟨0,0,0⟩ ⟨0,0,1⟩ ⟨0,1,0⟩ ⟨0,0,10⟩ none false "VC" ⟨by simp [V3.dot], by simp [V3.dot], by simp [V3.dot]⟩
    ([Op.chi (some 0)] ++ [Op.loading { r := some [50], Gamma := some [.fin 100], Lambda := some (.fin 7), nCyl := none }]) [⟨3,4,100⟩] (by simp) { longi := true, root := true } rfl rfl rfl rfl
    [g] [(100/(2*π*50), 50)] (-100) 0 (by simp [Num.abs_fin, Num.zero_def, Num.lt_fin]; norm_num) hst f12 f14
    (by rw [computeU_state]; change some (match WT.chi _ with | some c => c | none => _) = _; rw [f13])
  rw [f2, f5, f11] at H
  have h5 : axisDist ⟨0,0,1⟩ ⟨0,0,0⟩ ⟨3,4,100⟩ = 5 := by
    unfold axisDist V3.norm
    rw [Real.sqrt_eq_iff_mul_self_eq (by positivity) (by norm_num)]
    simp [V3.cross]; norm_num
  obtain ⟨v, v1, v2⟩ := H 0 ⟨3,4,100⟩ 5 rfl h5.symm (by norm_num) (by
    intro y hy
    rw [List.mem_singleton.mp hy]
    have e : √((inRotor ⟨0,0,0⟩ ⟨0,1,0⟩ ⟨0,0,1⟩ ⟨3,4,100⟩).x^2 + (inRotor ⟨0,0,0⟩ ⟨0,1,0⟩ ⟨0,0,1⟩ ⟨3,4,100⟩).y^2) = 5 := by
      rw [Real.sqrt_eq_iff_mul_self_eq (by positivity) (by norm_num)]
      simp [inRotor, V3.dot, V3.cross]; norm_num
    unfold OffEdge
    simp only [e]
    norm_num)
  refine ⟨g, u, v, hu, v1, hst.1, ?_⟩
  have hpi := pi_pos
  simp only [List.map_cons, List.map_nil, List.sum_cons, List.sum_nil, add_zero, Bool.false_eq_true, if_false, abs_of_pos (show 0 < 100/(2*π*50) by positivity)] at v2
  exact v2

end
end Wiz
