import Verif.Lemmas.GlobalFilaments
import Verif.Props.TurbineSwirl
import Verif.Props.YawedFarm
/-! # C140: the velocity of a turbine is the Biot–Savart velocity of its complete wake -/
set_option autoImplicit false
namespace Wiz
open Spec Classical Real
noncomputable section

theorem halfLine_zero (c d p : V3 ℝ) : halfLine 0 c d p = 0 := by
  unfold halfLine biotSavart; ext <;> simp
theorem sheetFlow_zero (R : ℝ) (c v s d p : V3 ℝ) : sheetFlow 0 R c v s d p = 0 := by
  unfold sheetFlow; ext <;> simp
theorem filamentFlow_zero (R : ℝ) (c v s d p : V3 ℝ) : filamentFlow 0 R c v s d p = 0 := by
  unfold filamentFlow biotSavart vint; ext <;> simp

/-- value of `compute_u` with all parts switched on, several cylinders -/
theorem complete_multi (mini : (ℝ → Num) → ℝ) (R : ℝ) (hub shaft vert U0 : V3 ℝ) (L : Option Num) (G : Bool)
    (M : String) (ho : Orthonormal shaft vert) (h : List Op) (pts : List (V3 ℝ)) (hp : pts ≠ []) (o : Opts) (hnw : o.no_wake = false)
    (hta : o.tang = true) (hlo : o.longi = true) (hro : o.root = true) (w : WT) (hw : w = (WT.new R hub shaft vert U0 L G M).run mini h)
    (gt gl r : List ℝ) (Γr : ℝ) (chi : Num) (hgt : w.gamma_t = some (gt.map .fin)) (hgl : w.gamma_l = some (gl.map .fin)) (hGr : w.Gamma_r = some (.fin Γr))
    (hr : w.r = some r) (hl1 : gt.length = r.length) (hl2 : gl.length = r.length) (hl3 : gt.length ≠ 1)
    (hg : o.ground.getD w.Ground = false) (hM : o.Model.getD w.Model = "VC") (hchi : (w.computeU pts o).2.chi = some chi) (Y : List (V3 ℝ))
    (hY : Y = rotorAxes (V3.cross vert w.e_shaft_g) vert w.e_shaft_g w.r_hub pts) :
    ∃ u : List (V3 Num), (w.computeU pts o).1 = .ok u ∧ ∀ (i : ℕ) (p : V3 ℝ), pts[i]? = some p → ∀ (Rt : V3 ℝ) (T Lg : ℝ × ℝ → V3 ℝ),
      (Γr ≠ 0 → (wakeRoot chi (.fin Γr) Y).getD i 0 = V3.fin Rt) → (Γr = 0 → Rt = 0) →
      (∀ y ∈ gt.zip r, y.1 ≠ 0 → (wakeTang chi "VC" (.fin y.1) y.2 o.R_far_field Y).getD i 0 = V3.fin (T y)) → (∀ y ∈ gt.zip r, y.1 = 0 → T y = 0) →
      (∀ y ∈ gl.zip r, y.1 ≠ 0 → (wakeLongi chi (.fin y.1) y.2 Y).getD i 0 = V3.fin (Lg y)) → (∀ y ∈ gl.zip r, y.1 = 0 → Lg y = 0) →
      u[i]? = some (V3.fin (fromAxes (V3.cross vert w.e_shaft_g) vert w.e_shaft_g (Rt + ((gt.zip r).map T).sum + ((gl.zip r).map Lg).sum) +
        if o.only_ind then 0 else w.U0_g)) := by
  obtain ⟨u, hu⟩ := (C16_multi w _ r hgt (by simpa using hl3) hr (by simpa using hl1) (Or.inr ⟨_, hgl, by simpa using hl2⟩) pts hp o).mpr hM
  have hfield := C16_field_multi_all mini R hub shaft vert U0 L G M ho h pts o hnw
  simp only [← hw] at hfield
  obtain ⟨ul, uv⟩ := hfield _ r chi u hgt (by simpa using hl3) hr hchi hu
  clear hfield
  refine ⟨u, hu, fun i p hpi Rt T Lg r1 r2 t1 t2 l1 l2 => ?_⟩
  have hil : i < pts.length := by
    by_contra h
    rw [List.getElem?_eq_none (by omega)] at hpi; exact nomatch hpi
  have uv := uv i hil
  rw [hg, hgl, hGr, hlo, hro, hta] at uv
  simp only [Bool.false_eq_true, if_false, false_and, List.map_cons, List.map_nil, List.sum_cons, List.sum_nil, add_zero, true_and, if_true] at uv
  rw [← hY] at uv
  have E1 : (if ¬ Num.Eqv (Num.fin Γr) 0 then (wakeRoot chi (.fin Γr) Y).getD i 0 else 0) = V3.fin Rt := by
    by_cases h0 : Γr = 0
    · rw [if_neg (by simp [h0]), r2 h0]; rfl
    · rw [if_pos (by simpa using h0), r1 h0]
  have E2 := filter_zip_fin gt r (fun y => (wakeTang chi "VC" y.1 y.2 o.R_far_field Y).getD i 0) T t1 t2
  have E3 := filter_zip_fin gl r (fun y => (wakeLongi chi y.1 y.2 Y).getD i 0) Lg l1 l2
  have uv : u.getD i 0 = V3.fin (fromAxes (V3.cross vert w.e_shaft_g) vert w.e_shaft_g (Rt + ((gt.zip r).map T).sum + ((gl.zip r).map Lg).sum) + if o.only_ind then 0 else w.U0_g) := by
    refine uv.trans ?_
    refine (congrArg (fun z => transform (M3.fin (M3.ofCols (V3.cross vert w.e_shaft_g) vert w.e_shaft_g)) z + _) (congrArg₂ (· + ·) (congrArg₂ (· + ·) E1 E2) E3)).trans ?_
    have e4 : ∀ x y : V3 ℝ, V3.fin x + V3.fin y = V3.fin (x + y) := fun x y => by ext <;> simp
    rw [e4, e4, transform_fin, mulVec_fromAxes]
    cases o.only_ind <;> ext <;> simp <;> rfl
  rw [List.getD_eq_getElem?_getD, List.getElem?_eq_getElem (by omega)] at uv
  rw [List.getElem?_eq_getElem (by omega)]
  exact congrArg some uv

/-- the same with one cylinder -/
theorem complete_single (mini : (ℝ → Num) → ℝ) (R : ℝ) (hub shaft vert U0 : V3 ℝ) (L : Option Num) (G : Bool)
    (M : String) (ho : Orthonormal shaft vert) (h : List Op) (pts : List (V3 ℝ)) (hp : pts ≠ []) (o : Opts) (hnw : o.no_wake = false)
    (hta : o.tang = true) (hlo : o.longi = true) (hro : o.root = true) (w : WT) (hw : w = (WT.new R hub shaft vert U0 L G M).run mini h)
    (g γl Γr : ℝ) (chi : Num) (hgt : w.gamma_t = some [.fin g]) (hgl : w.gamma_l = some [.fin γl]) (hGr : w.Gamma_r = some (.fin Γr))
    (hg : o.ground.getD w.Ground = false) (hM : o.Model.getD w.Model = "VC") (hchi : (w.computeU pts o).2.chi = some chi) (Y : List (V3 ℝ))
    (hY : Y = rotorAxes (V3.cross vert w.e_shaft_g) vert w.e_shaft_g w.r_hub pts) :
    ∃ u : List (V3 Num), (w.computeU pts o).1 = .ok u ∧ ∀ (i : ℕ) (p : V3 ℝ), pts[i]? = some p → ∀ Rt T Lg : V3 ℝ,
      (Γr ≠ 0 → (wakeRoot chi (.fin Γr) Y).getD i 0 = V3.fin Rt) → (Γr = 0 → Rt = 0) →
      (g ≠ 0 → (wakeTang chi "VC" (.fin g) R o.R_far_field Y).getD i 0 = V3.fin T) → (g = 0 → T = 0) →
      (γl ≠ 0 → (wakeLongi chi (.fin γl) R Y).getD i 0 = V3.fin Lg) → (γl = 0 → Lg = 0) →
      u[i]? = some (V3.fin (fromAxes (V3.cross vert w.e_shaft_g) vert w.e_shaft_g (Rt + T + Lg) + if o.only_ind then 0 else w.U0_g)) := by
  obtain ⟨u, hu⟩ := (C16_single w _ hgt (Or.inr ⟨_, hgl⟩) pts hp o chi hchi).mpr ⟨fun _ => Or.inl hM, fun _ _ _ _ => hM⟩
  have hfield := C16_field mini R hub shaft vert U0 L G M ho h pts o hnw
  simp only [← hw] at hfield
  obtain ⟨ul, uv⟩ := hfield _ chi u hgt hchi hu
  clear hfield
  refine ⟨u, hu, fun i p hpi Rt T Lg r1 r2 t1 t2 l1 l2 => ?_⟩
  have hil : i < pts.length := by
    by_contra h
    rw [List.getElem?_eq_none (by omega)] at hpi; exact nomatch hpi
  have uv := uv i hil
  rw [hg, hgl, hGr, hlo, hro, hM, hta] at uv
  simp only [Bool.false_eq_true, if_false, List.map_cons, List.map_nil, List.sum_cons, List.sum_nil, add_zero, true_and] at uv
  rw [← hY] at uv
  have key : ∀ (x : ℝ) (f : V3 Num) (F : V3 ℝ), (x ≠ 0 → f = V3.fin F) → (x = 0 → F = 0) → (if ¬ Num.Eqv (Num.fin x) 0 then f else 0) = V3.fin F := by
    intro x f F h1 h2
    by_cases h0 : x = 0
    · rw [if_neg (by simp [h0]), h2 h0]; rfl
    · rw [if_pos (by simpa using h0), h1 h0]
  have uv : u.getD i 0 = V3.fin (fromAxes (V3.cross vert w.e_shaft_g) vert w.e_shaft_g (Rt + T + Lg) + if o.only_ind then 0 else w.U0_g) := by
    refine uv.trans ?_
    refine (congrArg (fun z => transform (M3.fin (M3.ofCols (V3.cross vert w.e_shaft_g) vert w.e_shaft_g)) z + _)
      (congrArg₂ (· + ·) (congrArg₂ (· + ·) (key _ _ _ r1 r2) (key _ _ _ t1 t2)) (key _ _ _ l1 l2))).trans ?_
    have e4 : ∀ x y : V3 ℝ, V3.fin x + V3.fin y = V3.fin (x + y) := fun x y => by ext <;> simp
    rw [e4, e4, transform_fin, mulVec_fromAxes]
    cases o.only_ind <;> ext <;> simp <;> rfl
  rw [List.getD_eq_getElem?_getD, List.getElem?_eq_getElem (by omega)] at uv
  rw [List.getElem?_eq_getElem (by omega)]
  exact congrArg some uv

/-- the value of `compute_u` with all parts switched on, for whatever the turbine stores -/
theorem complete_value (mini : (ℝ → Num) → ℝ) (R : ℝ) (hub shaft vert U0 : V3 ℝ) (L : Option Num) (G : Bool)
    (M : String) (ho : Orthonormal shaft vert) (h : List Op) (pts : List (V3 ℝ)) (hp : pts ≠ []) (o : Opts) (hnw : o.no_wake = false)
    (hta : o.tang = true) (hlo : o.longi = true) (hro : o.root = true) (w : WT) (hw : w = (WT.new R hub shaft vert U0 L G M).run mini h)
    (gt : List ℝ) (sheets : List (ℝ × ℝ)) (Γr : ℝ) (chi : Num) (hst : StoredWake w gt sheets Γr)
    (hg : o.ground.getD w.Ground = false) (hM : o.Model.getD w.Model = "VC") (hchi : (w.computeU pts o).2.chi = some chi) (Y : List (V3 ℝ))
    (hY : Y = rotorAxes (V3.cross vert w.e_shaft_g) vert w.e_shaft_g w.r_hub pts) :
    ∃ u : List (V3 Num), (w.computeU pts o).1 = .ok u ∧ ∀ (i : ℕ) (p : V3 ℝ), pts[i]? = some p → ∀ (Rt : V3 ℝ) (T Lg : ℝ × ℝ → V3 ℝ),
      (Γr ≠ 0 → (wakeRoot chi (.fin Γr) Y).getD i 0 = V3.fin Rt) → (Γr = 0 → Rt = 0) →
      (∀ y ∈ gt.zip (sheets.map Prod.snd), y.1 ≠ 0 → (wakeTang chi "VC" (.fin y.1) y.2 o.R_far_field Y).getD i 0 = V3.fin (T y)) →
      (∀ y ∈ gt.zip (sheets.map Prod.snd), y.1 = 0 → T y = 0) →
      (∀ y ∈ sheets, y.1 ≠ 0 → (wakeLongi chi (.fin y.1) y.2 Y).getD i 0 = V3.fin (Lg y)) → (∀ y ∈ sheets, y.1 = 0 → Lg y = 0) →
      u[i]? = some (V3.fin (fromAxes (V3.cross vert w.e_shaft_g) vert w.e_shaft_g (Rt + ((gt.zip (sheets.map Prod.snd)).map T).sum + (sheets.map Lg).sum) +
        if o.only_ind then 0 else w.U0_g)) := by
  obtain ⟨h1, h2, h3, h4, h5, h6⟩ := hst
  rcases h6 with ⟨h6, h7⟩ | ⟨h6, h7⟩
  · have hz : (sheets.map Prod.fst).zip (sheets.map Prod.snd) = sheets := by rw [List.zip_map', List.map_id'']; intro x; rfl
    have := complete_multi mini R hub shaft vert U0 L G M ho h pts hp o hnw hta hlo hro w hw gt (sheets.map Prod.fst) (sheets.map Prod.snd) Γr chi h1
      (by rw [h3, List.map_map]; rfl) h2 h7 (by simpa using h4) (by simp) (by rw [h4]; exact h6) hg hM hchi Y hY
    rwa [hz] at this
  · have hwR : w.R = R := by rw [hw]; exact (frame_run mini shaft vert R h _ (frame_new R hub shaft vert U0 L G M)).R
    match sheets, h6 with
    | [(γl, R')], _ =>
      have hR' : R' = R := by simpa [hwR] using h7
      subst hR'
      match gt, h4 with
      | [g], _ =>
        obtain ⟨u, a, c⟩ := complete_single mini R' hub shaft vert U0 L G M ho h pts hp o hnw hta hlo hro w hw g γl Γr chi h1 h3 h2 hg hM hchi Y hY
        refine ⟨u, a, fun i p hi Rt T Lg r1 r2 t1 t2 l1 l2 => ?_⟩
        have := c i p hi Rt (T (g, R')) (Lg (γl, R')) r1 r2 (t1 (g, R') (by simp)) (t2 (g, R') (by simp)) (l1 (γl, R') (by simp)) (l2 (γl, R') (by simp))
        simpa using this

/-- if every part is within some distance of its Biot–Savart velocity, so is the sum -/
theorem complete_within (c v s d p : V3 ℝ) (hv : V3.dot v v = 1) (hs : V3.dot s s = 1) (ho : V3.dot v s = 0) (gt : List ℝ) (sheets : List (ℝ × ℝ)) (Γr : ℝ) (Rt : V3 ℝ)
    (T Lg FT FL : ℝ × ℝ → V3 ℝ) (bT bL : ℝ × ℝ → ℝ) (hR : halfLine Γr c d p = fromAxes (V3.cross v s) v s Rt)
    (hT : ∀ y ∈ gt.zip (sheets.map Prod.snd), sheetFlow y.1 y.2 c v s d p = fromAxes (V3.cross v s) v s (FT y) ∧ V3.norm (T y - FT y) ≤ bT y)
    (hL : ∀ y ∈ sheets, filamentFlow y.1 y.2 c v s d p = fromAxes (V3.cross v s) v s (FL y) ∧ V3.norm (Lg y - FL y) ≤ bL y) (U : V3 ℝ) :
    V3.norm (fromAxes (V3.cross v s) v s (Rt + ((gt.zip (sheets.map Prod.snd)).map T).sum + (sheets.map Lg).sum) + U - (U + completeWake gt sheets Γr c v s d p)) ≤
      ((gt.zip (sheets.map Prod.snd)).map bT).sum + (sheets.map bL).sum := by
  unfold completeWake
  rw [hR]
  generalize gt.zip (sheets.map Prod.snd) = ts at *
  have e1 : (ts.map fun y => sheetFlow y.1 y.2 c v s d p).sum = fromAxes (V3.cross v s) v s (ts.map FT).sum := by
    rw [fromAxes_sum, List.map_congr_left fun y hy => (hT y hy).1]
  have e2 : (sheets.map fun y => filamentFlow y.1 y.2 c v s d p).sum = fromAxes (V3.cross v s) v s (sheets.map FL).sum := by
    rw [fromAxes_sum, List.map_congr_left fun y hy => (hL y hy).1]
  rw [e1, e2]
  have e3 : fromAxes (V3.cross v s) v s (Rt + (ts.map T).sum + (sheets.map Lg).sum) + U -
      (U + (fromAxes (V3.cross v s) v s Rt + fromAxes (V3.cross v s) v s (ts.map FT).sum + fromAxes (V3.cross v s) v s (sheets.map FL).sum)) =
      fromAxes (V3.cross v s) v s ((ts.map fun y => T y - FT y).sum + (sheets.map fun y => Lg y - FL y).sum) := by
    rw [← sum_map_sub, ← sum_map_sub]
    simp only [fromAxes_add, fromAxes_sub]
    ext <;> simp <;> ring
  rw [e3, axes_norm v s hv hs ho]
  exact (norm_triangle _ _).trans (add_le_add (norm_sum_le _ _ _ fun y hy => (hT y hy).2) (norm_sum_le _ _ _ fun y hy => (hL y hy).2))

/-- the velocity of a turbine and that of its complete wake, from its parts -/
theorem complete_main (mini : (ℝ → Num) → ℝ) (R : ℝ) (hub shaft vert U0 : V3 ℝ) (L : Option Num) (G : Bool)
    (M : String) (ho : Orthonormal shaft vert) (h : List Op) (pts : List (V3 ℝ)) (hp : pts ≠ []) (o : Opts) (hnw : o.no_wake = false)
    (hta : o.tang = true) (hlo : o.longi = true) (hro : o.root = true) (w : WT) (hw : w = (WT.new R hub shaft vert U0 L G M).run mini h)
    (gt : List ℝ) (sheets : List (ℝ × ℝ)) (Γr : ℝ) (chi : Num) (hst : StoredWake w gt sheets Γr)
    (hg : o.ground.getD w.Ground = false) (hM : o.Model.getD w.Model = "VC") (hchi : (w.computeU pts o).2.chi = some chi) (Y : List (V3 ℝ))
    (hY : Y = rotorAxes (V3.cross vert w.e_shaft_g) vert w.e_shaft_g w.r_hub pts) :
    ∃ u : List (V3 Num), (w.computeU pts o).1 = .ok u ∧ ∀ (i : ℕ) (p d : V3 ℝ), pts[i]? = some p → ∀ (bT bL : ℝ × ℝ → ℝ), (∀ y, 0 ≤ y.2 → 0 ≤ bT y) → (∀ y, 0 ≤ y.2 → 0 ≤ bL y) →
      (Γr ≠ 0 → ∃ F, (wakeRoot chi (.fin Γr) Y).getD i 0 = V3.fin F ∧ halfLine Γr w.r_hub d p = fromAxes (V3.cross vert w.e_shaft_g) vert w.e_shaft_g F) →
      (∀ y ∈ gt.zip (sheets.map Prod.snd), y.1 ≠ 0 → ∃ t F, (wakeTang chi "VC" (.fin y.1) y.2 o.R_far_field Y).getD i 0 = V3.fin t ∧
        sheetFlow y.1 y.2 w.r_hub vert w.e_shaft_g d p = fromAxes (V3.cross vert w.e_shaft_g) vert w.e_shaft_g F ∧ V3.norm (t - F) ≤ bT y) →
      (∀ y ∈ sheets, y.1 ≠ 0 → ∃ t F, (wakeLongi chi (.fin y.1) y.2 Y).getD i 0 = V3.fin t ∧
        filamentFlow y.1 y.2 w.r_hub vert w.e_shaft_g d p = fromAxes (V3.cross vert w.e_shaft_g) vert w.e_shaft_g F ∧ V3.norm (t - F) ≤ bL y) →
      ∃ v, u[i]? = some (V3.fin v) ∧ V3.norm (v - ((if o.only_ind then 0 else w.U0_g) + completeWake gt sheets Γr w.r_hub vert w.e_shaft_g d p)) ≤
        ((gt.zip (sheets.map Prod.snd)).map bT).sum + (sheets.map bL).sum := by
  obtain ⟨u, hu, hall⟩ := complete_value mini R hub shaft vert U0 L G M ho h pts hp o hnw hta hlo hro w hw gt sheets Γr chi hst hg hM hchi Y hY
  refine ⟨u, hu, fun i p d hi bT bL b1 b2 hR hT hL => ?_⟩
  obtain ⟨a1, a2, a3, a4, a5, a6⟩ := rotorAxes_run mini R hub shaft vert U0 L G M ho h
  rw [← hw] at a1 a2 a3 a5 a6
  have hpos : ∀ y ∈ sheets, 0 < y.2 := hst.2.2.2.2.1
  have hpos' : ∀ y ∈ gt.zip (sheets.map Prod.snd), 0 < y.2 := by
    intro y hy
    obtain ⟨z, hz, e⟩ := List.mem_map.1 (List.of_mem_zip hy).2
    rw [← e]; exact hpos z hz
  obtain ⟨Rt, r1, r2, r3⟩ : ∃ Rt : V3 ℝ, (Γr ≠ 0 → (wakeRoot chi (.fin Γr) Y).getD i 0 = V3.fin Rt) ∧ (Γr = 0 → Rt = 0) ∧
      halfLine Γr w.r_hub d p = fromAxes (V3.cross vert w.e_shaft_g) vert w.e_shaft_g Rt := by
    by_cases h0 : Γr = 0
    · exact ⟨0, fun h => absurd h0 h, fun _ => rfl, by rw [h0, halfLine_zero, fromAxes_zero]⟩
    · obtain ⟨F, h1, h2⟩ := hR h0
      exact ⟨F, fun _ => h1, fun h => absurd h h0, h2⟩
  choose! t F t1 t2 t3 using hT
  choose! t' F' t1' t2' t3' using hL
  have hv := hall i p hi Rt (fun y => if y.1 = 0 then 0 else t y) (fun y => if y.1 = 0 then 0 else t' y) r1 r2
    (fun y hy h0 => by rw [if_neg h0]; exact t1 y hy h0) (fun y _ h0 => if_pos h0)
    (fun y hy h0 => by rw [if_neg h0]; exact t1' y hy h0) (fun y _ h0 => if_pos h0)
  refine ⟨_, hv, ?_⟩
  refine complete_within w.r_hub vert w.e_shaft_g d p ho.vert a6 a5 gt sheets Γr Rt _ _ (fun y => if y.1 = 0 then 0 else F y) (fun y => if y.1 = 0 then 0 else F' y) bT bL r3 ?_ ?_ _
  · intro y hy
    beta_reduce
    by_cases h0 : y.1 = 0
    · rw [if_pos h0, if_pos h0, h0, sheetFlow_zero, fromAxes_zero, show (0 : V3 ℝ) - 0 = 0 by ext <;> simp, norm_zero3]
      exact ⟨rfl, b1 y (hpos' y hy).le⟩
    · rw [if_neg h0, if_neg h0]
      exact ⟨t2 y hy h0, t3 y hy h0⟩
  · intro y hy
    beta_reduce
    by_cases h0 : y.1 = 0
    · rw [if_pos h0, if_pos h0, h0, filamentFlow_zero, fromAxes_zero, show (0 : V3 ℝ) - 0 = 0 by ext <;> simp, norm_zero3]
      exact ⟨rfl, b2 y (hpos y hy).le⟩
    · rw [if_neg h0, if_neg h0]
      exact ⟨t2' y hy h0, t3' y hy h0⟩

/-- the skewed root vortex -/
theorem root_skewed (Y : List (V3 ℝ)) (Γ χ : ℝ) (hcos : 0 < cos χ) (hsk : Num.fin 1e-7 < Num.abs (.fin χ)) (i : ℕ) (c v s p : V3 ℝ)
    (hv : V3.dot v v = 1) (hs : V3.dot s s = 1) (ho : V3.dot v s = 0) (hi : Y[i]? = some (inRotor c v s p)) (d : V3 ℝ)
    (hd : d = V3.smul (sin χ) (V3.cross v s) + V3.smul (cos χ) s)
    (q1 : 1e-7 < axisDist s c p) (q2 : 1e-5 ≤ V3.norm (p - c)) (q3 : 1e-12 ≤ V3.norm (p - c) * (V3.norm (p - c) - V3.dot (p - c) d)) :
    (wakeRoot (.fin χ) (.fin Γ) Y).getD i 0 =
      V3.fin (biotSavart Γ (Set.Ioi 0) (fun t => V3.smul t (skewDir (tan χ))) (fun _ => skewDir (tan χ)) (inRotor c v s p)) ∧
    halfLine Γ c d p = fromAxes (V3.cross v s) v s (biotSavart Γ (Set.Ioi 0) (fun t => V3.smul t (skewDir (tan χ))) (fun _ => skewDir (tan χ)) (inRotor c v s p)) := by
  refine ⟨?_, halfLine_axes Γ χ c v s p hv hs ho hcos d hd⟩
  have htan : Num.tan (.fin χ) = .fin (tan χ) := by
    show (if cos χ = 0 then Num.nan else Num.fin (tan χ)) = _
    rw [if_neg hcos.ne']
  have ho' : V3.dot s v = 0 := by rw [dot_comm]; exact ho
  obtain ⟨x1, -⟩ := swirl_axes c v s p hv hs ho' (inRotor c v s p) rfl
  have x2 : V3.norm (inRotor c v s p) = V3.norm (p - c) := by
    rw [← axes_norm v s hv hs ho (inRotor c v s p)]
    exact congrArg V3.norm (axes_expand v s hv hs ho (p - c))
  have x3 : V3.dot (inRotor c v s p) (skewDir (tan χ)) = V3.dot (p - c) d := by
    rw [skewDir_tan hcos, hd]
    unfold inRotor V3.dot
    simp only [V3.add_x, V3.add_y, V3.add_z, V3.smul_x, V3.smul_y, V3.smul_z]
    ring
  generalize inRotor c v s p = q at *
  obtain ⟨us, ws, e1, -, e3, -⟩ := C67_root_biot_savart (Y.map toPolarPt) Γ (tan χ) i (toPolarPt q) (by rw [List.getElem?_map, hi]; rfl)
    (by change 1e-7 < polarR q.x q.y; rw [← x1]; exact q1) (by rw [polarPoint_toPolarPt, x2, x3]; exact q3) (by rw [polarPoint_toPolarPt, x2]; exact q2)
  rw [polarPoint_toPolarPt] at e3
  unfold wakeRoot svcRoot
  rw [if_pos (show skewed (.fin χ) from hsk), htan, e1]
  simp only
  rw [List.getD_eq_getElem?_getD, e3, Option.getD_some]

/-- C140 (yawed rotor): after any history of settings that leaves finite vorticity in the turbine (any number of cylinders), with all parts of the wake switched on, a skew
angle `χ`, `|χ|>1e-7` and `cos χ>0`, and no ground, `compute_u` returns at every point at a distance `D` or more of all the cylinders (and, if there is a root vortex, outside of its
numerical core) the free stream plus the Biot–Savart velocity of the complete wake that leaves the rotor in the direction `d = sin χ (v×s) + cos χ s`, up to the stated
error of the 180-point azimuthal quadrature. -/
theorem C140_yawed (mini : (ℝ → Num) → ℝ) (R : ℝ) (hub shaft vert U0 : V3 ℝ) (L : Option Num) (G : Bool)
    (M : String) (ho : Orthonormal shaft vert) (h : List Op) (pts : List (V3 ℝ)) (hp : pts ≠ []) (o : Opts) (hnw : o.no_wake = false)
    (hta : o.tang = true) (hlo : o.longi = true) (hro : o.root = true) (gt : List ℝ) (sheets : List (ℝ × ℝ)) (Γr χ D : ℝ) (hD : 0 < D) (hsk : 1e-7 < |χ|) (hcos : 0 < cos χ) :
    let w := (WT.new R hub shaft vert U0 L G M).run mini h
    let s := w.e_shaft_g
    let c := w.r_hub
    let d := V3.smul (sin χ) (V3.cross vert s) + V3.smul (cos χ) s
    StoredWake w gt sheets Γr → o.ground.getD w.Ground = false → o.Model.getD w.Model = "VC" → (w.computeU pts o).2.chi = some (.fin χ) →
    ∃ u, (w.computeU pts o).1 = .ok u ∧ ∀ (i : ℕ) (p : V3 ℝ), pts[i]? = some p → (∀ y ∈ sheets, Clear D y.2 c vert s d p) →
      (Γr ≠ 0 → 1e-7 < axisDist s c p ∧ 1e-5 ≤ V3.norm (p - c) ∧ 1e-12 ≤ V3.norm (p - c) * (V3.norm (p - c) - V3.dot (p - c) d)) →
      ∃ v, u[i]? = some (V3.fin v) ∧ V3.norm (v - ((if o.only_ind then 0 else w.U0_g) + completeWake gt sheets Γr c vert s d p)) ≤
        √3 * π^2/(3 * 179^2) * (((gt.zip (sheets.map Prod.snd)).map fun y => |y.1| * ((y.2/D * (y.2/D + 2)) * (1 + 10 * (y.2/D) + 18 * (y.2/D)^2))).sum +
          (sheets.map fun y => |y.1| * ((y.2/D * (y.2/D + 2)) * (4 * (y.2/D) + 24 * (y.2/D)^2))).sum) := by
  intro w s c d hst hg hM hchi
  obtain ⟨u, hu, hall⟩ := complete_main mini R hub shaft vert U0 L G M ho h pts hp o hnw hta hlo hro w rfl gt sheets Γr (.fin χ) hst hg hM hchi _ rfl
  refine ⟨u, hu, fun i p hi hcl hroot => ?_⟩
  obtain ⟨a1, a2, a3, a4, a5, a6⟩ := rotorAxes_run mini R hub shaft vert U0 L G M ho h
  have hpos : ∀ y ∈ sheets, 0 < y.2 := hst.2.2.2.2.1
  have hskN : Num.fin 1e-7 < Num.abs (.fin χ) := by rw [Num.abs_fin, Num.lt_fin]; exact hsk
  have htan : Num.tan (.fin χ) = .fin (tan χ) := by
    show (if cos χ = 0 then Num.nan else Num.fin (tan χ)) = _
    rw [if_neg hcos.ne']
  obtain ⟨Y, hY⟩ : ∃ Y, Y = rotorAxes (V3.cross vert w.e_shaft_g) vert w.e_shaft_g w.r_hub pts := ⟨_, rfl⟩
  have hYi : Y[i]? = some (inRotor c vert s p) := by
    rw [hY]
    simp only [rotorAxes, List.getElem?_map, hi, Option.map_some]
    rfl
  have hp0 := pi_pos
  obtain ⟨v, hv, hb⟩ := hall i p d hi (fun y => √3 * (|y.1| * (π^2/(3 * 179^2) * (y.2/D * (y.2/D + 2)) * (1 + 10 * (y.2/D) + 18 * (y.2/D)^2))))
    (fun y => √3 * (|y.1| * (π^2/(3 * 179^2) * (y.2/D * (y.2/D + 2)) * (4 * (y.2/D) + 24 * (y.2/D)^2)))) (fun y hy => by positivity) (fun y hy => by positivity)
    (by
      intro h0
      obtain ⟨q1, q2, q3⟩ := hroot h0
      rw [← hY]
      obtain ⟨y1, y2⟩ := root_skewed Y Γr χ hcos hskN i c vert s p ho.vert a6 a5 hYi d rfl q1 q2 q3
      exact ⟨_, y1, y2⟩)
    (by
      intro y hy h0
      obtain ⟨z, hz, e⟩ := List.mem_map.1 (List.of_mem_zip hy).2
      obtain ⟨x1, x2⟩ := sheetFlow_axes y.1 y.2 D χ (by rw [← e]; exact (hpos z hz).le) hD c vert s p ho.vert a6 a5 hcos d rfl (by rw [← e]; exact hcl z hz)
      obtain ⟨t, t1, t2, t3, t4⟩ := C114_tang Y y.1 y.2 (tan χ) D (by rw [← e]; exact hpos z hz) hD 179 i (by norm_num) _ hYi x1 _ rfl
      refine ⟨t, _, ?_, x2, ?_⟩
      · unfold wakeTang
        rw [if_pos (show skewed (.fin χ) from hskN), htan, ← hY, List.getD_eq_getElem?_getD, t1, Option.getD_some]
      · exact norm_le_three _ _ t2 t3 t4)
    (by
      intro y hy h0
      obtain ⟨x1, -⟩ := sheetFlow_axes y.1 y.2 D χ (hpos y hy).le hD c vert s p ho.vert a6 a5 hcos d rfl (hcl y hy)
      have x2 := filamentFlow_axes y.1 y.2 D χ (hpos y hy).le hD c vert s p ho.vert a6 a5 hcos d rfl x1
      obtain ⟨t, t1, t2, t3, t4⟩ := C114_longi Y y.1 y.2 (tan χ) D (hpos y hy) hD 179 i (by norm_num) _ hYi x1 _ rfl
      refine ⟨t, _, ?_, x2, ?_⟩
      · unfold wakeLongi
        rw [if_pos (show skewed (.fin χ) from hskN), htan, ← hY, List.getD_eq_getElem?_getD, t1, Option.getD_some]
      · exact norm_le_three _ _ t2 t3 t4)
  refine ⟨v, hv, hb.trans (le_of_eq ?_)⟩
  rw [mul_add, ← sum_map_const_mul, ← sum_map_const_mul]
  congr 2 <;> (apply List.map_congr_left; intro y _; push_cast; ring)

end
end Wiz
