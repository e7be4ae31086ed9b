import Verif.Spec.TurbineSwirl
import Verif.Props.TurbineMulti
import Verif.Props.Swirl
import Verif.Props.Solver
import Verif.Lemmas.GlobalSheet
/-! # C138: the swirl of a turbine, end to end -/
set_option autoImplicit false
namespace Wiz
open Spec Classical Real
noncomputable section

/-- swirl returned by `vc_longi_u` at distance `ρ` from the axis in the batch `Y` -/
def longiSw (Y : List (V3 ℝ)) (γ R ρ z : ℝ) : ℝ := vcUpsi γ R ρ z (piReal (longiBatch Y R) (vcN R ρ) (vcM R ρ z))

theorem longiSw_plane (Y : List (V3 ℝ)) (γ R ρ : ℝ) (hρ : 0 < ρ) (hne : ρ ≠ R) :
    longiSw Y γ R ρ 0 = (if R < ρ then 2 * π * R * γ else 0) / (4 * π * ρ) := by
  unfold longiSw vcUpsi vcT
  have hpi := pi_pos
  rcases lt_or_gt_of_ne hne with h | h
  · rw [if_pos h, if_neg (not_lt.mpr h.le)]; simp
  · rw [if_neg (not_lt.mpr h.le), if_neg hne, if_pos h]
    field_simp
    ring

theorem longiSw_odd (Y : List (V3 ℝ)) (γ R ρ z : ℝ) : longiSw Y γ R ρ z + longiSw Y γ R ρ (-z) = 2 * longiSw Y γ R ρ 0 := by
  unfold longiSw vcUpsi
  have : vcM R ρ (-z) = vcM R ρ z := by unfold vcM; rw [neg_sq]
  rw [this]
  ring

theorem longi_zero (Y : List (V3 ℝ)) (R ρ z : ℝ) : longiSw Y 0 R ρ z = 0 := by
  unfold longiSw vcUpsi; ring

/-- the azimuthal direction at `q` in rotor axes -/
def eps (q : V3 ℝ) : V3 ℝ := ⟨-(q.y/polarR q.x q.y), q.x/polarR q.x q.y, 0⟩

theorem longi_val (Y : List (V3 ℝ)) (γ R : ℝ) (hR : 0 < R) (i : ℕ) (q : V3 ℝ) (hi : Y[i]? = some q) (hr : 0 < polarR q.x q.y) (hne : polarR q.x q.y ≠ R) :
    (vcLongi Y (.fin γ) R false).getD i 0 = V3.fin (V3.smul (longiSw Y γ R (polarR q.x q.y) q.z) (eps q)) := by
  obtain ⟨c, hc, h1, -⟩ := vcLongi_real Y γ R hR i q hi hr hne
  have hxy : q.x ≠ 0 ∨ q.y ≠ 0 := by
    by_contra h0
    push Not at h0
    rw [polarR_eq_zero.mpr h0] at hr
    exact lt_irrefl _ hr
  rw [List.getD_eq_getElem?_getD, h1, Option.getD_some, cos_arctan2 hxy, sin_arctan2 hxy, hc]
  congr 1
  unfold eps longiSw
  ext <;> simp

theorem root_val (Y : List (V3 ℝ)) (Γ : ℝ) (i : ℕ) (q : V3 ℝ) (hi : Y[i]? = some q) (hr : 0 < polarR q.x q.y) :
    (vcRoot Y (.fin Γ) false).getD i 0 = V3.fin (V3.smul (Γ/(4*π*polarR q.x q.y) * (1 + q.z/√(polarR q.x q.y^2 + q.z^2))) (eps q)) := by
  have hxy : q.x ≠ 0 ∨ q.y ≠ 0 := by
    by_contra h0
    push Not at h0
    rw [polarR_eq_zero.mpr h0] at hr
    exact lt_irrefl _ hr
  have hpi := pi_pos
  unfold vcRoot
  rw [List.getD_eq_getElem?_getD, List.getElem?_map, hi, Option.map_some, Option.getD_some]
  unfold vlSemiinfStraight vlSemiinfStraightPolar eps
  rw [cos_arctan2 hxy, sin_arctan2 hxy]
  generalize polarR q.x q.y = ρ at *
  have h1 : 4 * π * ρ ≠ 0 := by positivity
  have h2 : √(ρ^2 + q.z^2) ≠ 0 := (sqrt_pos.mpr (by positivity)).ne'
  by_cases h0 : Γ = 0
  · subst h0
    rw [if_pos (by simp)]
    ext <;> simp
  · rw [if_neg (by simpa using h0)]
    simp only [Bool.false_eq_true, if_false, Num.one_def, Num.fin_mul, Num.fin_div h1, Num.fin_pow, Num.fin_add]
    rw [Num.sqrt_fin (by positivity)]
    simp only [Num.one_def, Num.fin_mul, Num.fin_div h2, Num.fin_add]
    ext
    · simp; ring
    · simp; ring
    · simp

theorem tang_val (Y : List (V3 ℝ)) (γ R : ℝ) (hR : 0 < R) (i : ℕ) (q : V3 ℝ) (hi : Y[i]? = some q) :
    ∃ t z : ℝ, (vcTang Y (.fin γ) R 0).getD i 0 = V3.fin ⟨t * q.x, t * q.y, z⟩ := by
  rw [vcTang_eval _ _ _ hR, List.getD_eq_getElem?_getD, List.getElem?_map, hi, Option.map_some, Option.getD_some]
  obtain ⟨h1, h2⟩ := vcVal_dir (piReal (vcBatch Y R 0)) γ R q.x q.y q.z hR
  rw [h1, h2]
  exact ⟨_, _, congrArg V3.fin (by ext <;> simp <;> ring : _ = (⟨(vcVal (piReal (vcBatch Y R 0)) γ R (polarR q.x q.y) q.z).1 / polarR q.x q.y * q.x,
    (vcVal (piReal (vcBatch Y R 0)) γ R (polarR q.x q.y) q.z).1 / polarR q.x q.y * q.y, (vcVal (piReal (vcBatch Y R 0)) γ R (polarR q.x q.y) q.z).2⟩ : V3 ℝ))⟩

theorem filter_zip_fin {β : Type} (gt : List ℝ) (r : List β) (f : Num × β → V3 Num) (g : ℝ × β → V3 ℝ) (h : ∀ y ∈ gt.zip r, y.1 ≠ 0 → f (.fin y.1, y.2) = V3.fin (g y))
    (h0 : ∀ y ∈ gt.zip r, y.1 = 0 → g y = 0) :
    ((((gt.map Num.fin).zip r).filter fun y => decide (0 < Num.abs y.1)).map f).sum = V3.fin ((gt.zip r).map g).sum := by
  induction gt generalizing r with
  | nil => rfl
  | cons x gt ih =>
    cases r with
    | nil => rfl
    | cons R r =>
      have ih := ih r (fun y hy => h y (by simp [List.zip_cons_cons, hy])) (fun y hy => h0 y (by simp [List.zip_cons_cons, hy]))
      have hx := h (x, R) (by simp)
      have hx0 := h0 (x, R) (by simp)
      simp only [List.map_cons, List.zip_cons_cons, List.filter_cons, List.sum_cons]
      by_cases hz : x = 0
      · have : ¬ ((0 : Num) < Num.abs (.fin x)) := by
          rw [hz]; simp [Num.abs_fin, Num.zero_def, Num.lt_fin]
        simp only [this, decide_false, Bool.false_eq_true, if_false]
        rw [ih, hx0 hz]
        congr 1
        ext <;> simp
      · have : (0 : Num) < Num.abs (.fin x) := by
          rw [Num.abs_fin, Num.zero_def, Num.lt_fin]; exact abs_pos.mpr hz
        simp only [this, decide_true, if_true, List.map_cons, List.sum_cons]
        rw [ih, hx hz]
        ext <;> simp

theorem radial_sum {α : Type} (l : List α) (q : V3 ℝ) (f : α → V3 ℝ) (h : ∀ y ∈ l, ∃ t z, f y = ⟨t * q.x, t * q.y, z⟩) : ∃ t z, (l.map f).sum = ⟨t * q.x, t * q.y, z⟩ := by
  induction l with
  | nil => exact ⟨0, 0, by ext <;> simp⟩
  | cons y l ih =>
    obtain ⟨t, z, e⟩ := ih fun y hy => h y (List.mem_cons_of_mem _ hy)
    obtain ⟨t', z', e'⟩ := h y List.mem_cons_self
    refine ⟨t' + t, z' + z, ?_⟩
    rw [List.map_cons, List.sum_cons, e, e']
    ext <;> simp <;> ring

theorem smul_sum {α : Type} (l : List α) (e : V3 ℝ) (f : α → ℝ) : (l.map fun y => V3.smul (f y) e).sum = V3.smul (l.map f).sum e := by
  induction l with
  | nil => ext <;> simp
  | cons y l ih => rw [List.map_cons, List.sum_cons, ih, List.map_cons, List.sum_cons]; ext <;> simp <;> ring

/-- the swirl about the shaft, in rotor axes -/
theorem swirl_axes (c v s p : V3 ℝ) (hv : V3.dot v v = 1) (hs : V3.dot s s = 1) (ho : V3.dot s v = 0) (q : V3 ℝ)
    (hq : q = ⟨V3.dot (p - c) (V3.cross v s), V3.dot (p - c) v, V3.dot (p - c) s⟩) :
    axisDist s c p = polarR q.x q.y ∧ ∀ F, V3.dot (fromAxes (V3.cross v s) v s F) (V3.cross s (p - c)) = F.y * q.x - F.x * q.y := by
  have ho' : V3.dot v s = 0 := by rw [← ho]; unfold V3.dot; ring
  have hw := axes_expand v s hv hs ho' (p - c)
  rw [← hq] at hw
  obtain ⟨d, hd⟩ : ∃ d, d = p - c := ⟨_, rfl⟩
  unfold axisDist
  rw [← hd] at hw ⊢
  clear hd
  have hc : V3.cross s d = fromAxes (V3.cross v s) v s ⟨-q.y, q.x, 0⟩ := by
    rw [← hw]
    unfold fromAxes V3.cross V3.smul V3.dot at *
    ext
    · simp only [V3.add_x, V3.add_y, V3.add_z]
      linear_combination (q.x * v.x) * hs - (q.x * s.x) * ho
    · simp only [V3.add_x, V3.add_y, V3.add_z]
      linear_combination (q.x * v.y) * hs - (q.x * s.y) * ho
    · simp only [V3.add_x, V3.add_y, V3.add_z]
      linear_combination (q.x * v.z) * hs - (q.x * s.z) * ho
  rw [hc]
  refine ⟨?_, fun F => ?_⟩
  · rw [axes_norm v s hv hs ho']
    unfold V3.norm polarR
    congr 1
    simp only
    ring
  · have hcc : V3.dot (V3.cross v s) (V3.cross v s) = 1 := by
      unfold V3.dot V3.cross at *
      linear_combination (s.x*s.x+s.y*s.y+s.z*s.z)*hv + hs - (v.x*s.x+v.y*s.y+v.z*s.z)*ho'
    have hcv : V3.dot (V3.cross v s) v = 0 := by unfold V3.dot V3.cross; ring
    have hcs : V3.dot (V3.cross v s) s = 0 := by unfold V3.dot V3.cross; ring
    generalize V3.cross v s = a at *
    unfold fromAxes V3.smul V3.dot at *
    simp only [V3.add_x, V3.add_y, V3.add_z]
    linear_combination (-F.x*q.y)*hcc + (F.x*q.x - F.y*q.y)*hcv - F.z*q.y*hcs + F.y*q.x*hv + F.z*q.x*ho

/-- swirl of root vortex and longitudinal sheets at distance `ρ` from the axis and `z` downstream of the rotor, in the batch `Y` (rotor axes) -/
def swTot (Y : List (V3 ℝ)) (Γr : ℝ) (sheets : List (ℝ × ℝ)) (ρ z : ℝ) : ℝ :=
  Γr/(4*π*ρ) * (1 + z/√(ρ^2 + z^2)) + (sheets.map fun y => longiSw Y y.1 y.2 ρ z).sum

theorem swTot_plane (Y : List (V3 ℝ)) (Γr : ℝ) (sheets : List (ℝ × ℝ)) (ρ : ℝ) (hρ : 0 < ρ) (h : ∀ y ∈ sheets, ρ ≠ y.2) :
    swTot Y Γr sheets ρ 0 = enclosed Γr sheets ρ / (4*π*ρ) := by
  unfold swTot enclosed
  have : (sheets.map fun y => longiSw Y y.1 y.2 ρ 0).sum = (sheets.map fun y => if y.2 < ρ then 2 * π * y.2 * y.1 else 0).sum / (4*π*ρ) := by
    induction sheets with
    | nil => simp
    | cons y l ih =>
      rw [List.map_cons, List.sum_cons, ih fun y hy => h y (List.mem_cons_of_mem _ hy), longiSw_plane Y _ _ _ hρ (h y List.mem_cons_self),
        List.map_cons, List.sum_cons, add_div]
  rw [this]
  simp
  ring

theorem swTot_odd (Y : List (V3 ℝ)) (Γr : ℝ) (sheets : List (ℝ × ℝ)) (ρ z : ℝ) :
    swTot Y Γr sheets ρ z + swTot Y Γr sheets ρ (-z) = 2 * swTot Y Γr sheets ρ 0 := by
  unfold swTot
  have : (sheets.map fun y => longiSw Y y.1 y.2 ρ z).sum + (sheets.map fun y => longiSw Y y.1 y.2 ρ (-z)).sum = 2 * (sheets.map fun y => longiSw Y y.1 y.2 ρ 0).sum := by
    induction sheets with
    | nil => simp
    | cons y l ih =>
      simp only [List.map_cons, List.sum_cons]
      linear_combination ih + longiSw_odd Y y.1 y.2 ρ z
  rw [neg_sq]
  simp only [zero_div, add_zero]
  linear_combination this

/-- a vector that is the sum of a swirl, of a radial and of an axial part, in global axes -/
theorem swirl_of_parts (c v s p : V3 ℝ) (hv : V3.dot v v = 1) (hs : V3.dot s s = 1) (ho : V3.dot s v = 0) (q : V3 ℝ)
    (hq : q = ⟨V3.dot (p - c) (V3.cross v s), V3.dot (p - c) v, V3.dot (p - c) s⟩) (hρ : 0 < polarR q.x q.y) (a b t z : ℝ) :
    swirlAbout s c p (fromAxes (V3.cross v s) v s (V3.smul a (eps q) + ⟨t * q.x, t * q.y, z⟩ + V3.smul b (eps q))) = a + b := by
  obtain ⟨h1, h2⟩ := swirl_axes c v s p hv hs ho q hq
  unfold swirlAbout
  rw [h1, h2, div_eq_iff hρ.ne']
  have := polarR_sq q.x q.y
  unfold eps
  generalize polarR q.x q.y = ρ at *
  simp only [V3.add_x, V3.add_y, V3.smul_x, V3.smul_y]
  field_simp
  linear_combination -(a+b)*this

/-- the induced velocity of a straight wake of several cylinders, its swirl -/
theorem swirl_multi (mini : (ℝ → Num) → ℝ) (R : ℝ) (hub shaft vert U0 : V3 ℝ) (L : Option Num) (G : Bool)
    (M : String) (ho : Orthonormal shaft vert) (h : List Op) (pts : List (V3 ℝ)) (hp : pts ≠ []) (o : Opts) (hnw : o.no_wake = false)
    (hlo : o.longi = true) (hro : o.root = true) (w : WT) (hw : w = (WT.new R hub shaft vert U0 L G M).run mini h)
    (gt gl r : List ℝ) (Γr : ℝ) (chi : Num) (hgt : w.gamma_t = some (gt.map .fin)) (hgl : w.gamma_l = some (gl.map .fin)) (hGr : w.Gamma_r = some (.fin Γr))
    (hr : w.r = some r) (hl1 : gt.length = r.length) (hl2 : gl.length = r.length) (hl3 : gt.length ≠ 1) (hpos : ∀ x ∈ r, 0 < x)
    (hg : o.ground.getD w.Ground = false) (hM : o.Model.getD w.Model = "VC") (hchi : (w.computeU pts o).2.chi = some chi) (hsk : ¬ (Num.fin 1e-7 < Num.abs chi)) :
    ∃ (u : List (V3 Num)) (Y : List (V3 ℝ)), (w.computeU pts o).1 = .ok u ∧ u.length = pts.length ∧ ∀ (i : ℕ) (p : V3 ℝ), pts[i]? = some p → ∀ ρ, ρ = axisDist w.e_shaft_g w.r_hub p → 0 < ρ → ρ ∉ r →
      ∃ v, u[i]? = some (V3.fin v) ∧ swirlAbout w.e_shaft_g w.r_hub p (v - if o.only_ind then 0 else w.U0_g) = swTot Y Γr (gl.zip r) ρ (V3.dot (p - w.r_hub) w.e_shaft_g) ∧
        ∃ q, Y[i]? = some q ∧ polarR q.x q.y = ρ ∧ q.z = V3.dot (p - w.r_hub) w.e_shaft_g := by
  obtain ⟨u, hu⟩ := (C16_multi w _ r hgt (by simpa using hl3) hr (by simpa using hl1) (Or.inr ⟨_, hgl, by simpa using hl2⟩) pts hp o).mpr hM
  have hi := frame_run mini shaft vert R h _ (frame_new R hub shaft vert U0 L G M)
  rw [← hw] at hi
  obtain ⟨a', s', -, -, e3, e4, e5, e6, e7, e8, e9⟩ := frame_cols shaft vert R ho w hi
  have hs' : s' = w.e_shaft_g := by
    have := hi.e_shaft_g
    rw [turn_eq] at this
    rw [e3]; exact this.symm
  rw [hs'] at e5 e8
  have hfield := C16_field_multi_all mini R hub shaft vert U0 L G M ho h pts o hnw
  simp only [← hw] at hfield
  obtain ⟨ul, uv⟩ := hfield _ r chi u hgt (by simpa using hl3) hr hchi hu
  clear hfield
  refine ⟨u, rotorAxes (V3.cross vert w.e_shaft_g) vert w.e_shaft_g w.r_hub pts, hu, ul, fun i p hpi ρ hρ hρ0 hρr => ?_⟩
  have hil : i < pts.length := by
    by_contra h
    rw [List.getElem?_eq_none (by omega)] at hpi; exact nomatch hpi
  have uv := uv i hil
  rw [hg, hgl, hGr, hlo, hro] at uv
  simp only [Bool.false_eq_true, if_false, false_and, List.map_cons, List.map_nil, List.sum_cons, List.sum_nil, add_zero, true_and, if_true] at uv
  generalize hY : rotorAxes (V3.cross vert w.e_shaft_g) vert w.e_shaft_g w.r_hub pts = Y at *
  obtain ⟨q, hq⟩ : ∃ q : V3 ℝ, q = ⟨V3.dot (p - w.r_hub) (V3.cross vert w.e_shaft_g), V3.dot (p - w.r_hub) vert, V3.dot (p - w.r_hub) w.e_shaft_g⟩ := ⟨_, rfl⟩
  have hYi : Y[i]? = some q := by
    rw [← hY, hq]
    simp only [rotorAxes, List.getElem?_map, hpi, Option.map_some]
  obtain ⟨d1, -⟩ := swirl_axes w.r_hub vert w.e_shaft_g p ho.vert e5 e8 q hq
  rw [d1] at hρ
  rw [hρ] at hρ0 hρr
  have hsk' : ¬ skewed chi := hsk
  -- root
  have E1 : (if ¬ Num.Eqv (Num.fin Γr) 0 then (wakeRoot chi (.fin Γr) Y).getD i 0 else 0) =
      V3.fin (V3.smul (Γr/(4*π*ρ) * (1 + q.z/√(ρ^2 + q.z^2))) (eps q)) := by
    by_cases h0 : Γr = 0
    · rw [if_neg (by simp [h0]), h0]
      ext <;> simp
    · rw [if_pos (by simpa using h0)]
      unfold wakeRoot
      rw [if_neg hsk', hρ]
      exact root_val Y Γr i q hYi hρ0
  -- longi
  have E3 : ((((gl.map Num.fin).zip r).filter fun y => decide (0 < Num.abs y.1)).map fun y => (wakeLongi chi y.1 y.2 Y).getD i 0).sum =
      V3.fin (V3.smul ((gl.zip r).map fun y => longiSw Y y.1 y.2 ρ q.z).sum (eps q)) := by
    rw [filter_zip_fin gl r _ (fun y => V3.smul (longiSw Y y.1 y.2 ρ q.z) (eps q)) ?_ ?_, smul_sum]
    · intro y hy _
      have hm := (List.of_mem_zip hy).2
      unfold wakeLongi
      rw [if_neg hsk', hρ]
      exact longi_val Y y.1 y.2 (hpos _ hm) i q hYi hρ0 (fun e => hρr (e ▸ hm))
    · intro y _ hy0
      rw [hy0, longi_zero]
      ext <;> simp
  -- tang
  have E2 : ∃ t z : ℝ, (if o.tang = true then ((((gt.map Num.fin).zip r).filter fun y => decide (0 < Num.abs y.1)).map fun y =>
      (wakeTang chi "VC" y.1 y.2 o.R_far_field Y).getD i 0).sum else 0) = V3.fin ⟨t * q.x, t * q.y, z⟩ := by
    cases o.tang with
    | false => exact ⟨0, 0, by ext <;> simp⟩
    | true =>
      rw [if_pos rfl]
      have hT : ∀ y : ℝ × ℝ, ∃ g : V3 ℝ, (∃ t z, g = ⟨t * q.x, t * q.y, z⟩) ∧ (y ∈ gt.zip r → y.1 ≠ 0 → (wakeTang chi "VC" (.fin y.1) y.2 o.R_far_field Y).getD i 0 = V3.fin g) := by
        intro y
        by_cases hy : y ∈ gt.zip r
        · obtain ⟨t, z, e⟩ := tang_val Y y.1 y.2 (hpos _ (List.of_mem_zip hy).2) i q hYi
          refine ⟨_, ⟨t, z, rfl⟩, fun _ _ => ?_⟩
          unfold wakeTang
          rw [if_neg hsk', if_pos rfl, e]
        · exact ⟨⟨0 * q.x, 0 * q.y, 0⟩, ⟨0, 0, rfl⟩, fun h => absurd h hy⟩
      choose g hg1 hg2 using hT
      obtain ⟨t, z, e⟩ := radial_sum (gt.zip r) q (fun y => if y.1 = 0 then 0 else g y) (by
        intro y _
        beta_reduce
        split_ifs
        · exact ⟨0, 0, by ext <;> simp⟩
        · exact hg1 y)
      refine ⟨t, z, ?_⟩
      rw [← e]
      exact filter_zip_fin gt r _ _ (fun y hy h0 => by rw [if_neg h0]; exact hg2 y hy h0) (fun y _ h0 => if_pos h0)
  obtain ⟨t, z, E2⟩ := E2
  obtain ⟨F, hF⟩ : ∃ F : V3 ℝ, F = V3.smul (Γr/(4*π*ρ) * (1 + q.z/√(ρ^2 + q.z^2))) (eps q) + ⟨t * q.x, t * q.y, z⟩ +
    V3.smul ((gl.zip r).map fun y => longiSw Y y.1 y.2 ρ q.z).sum (eps q) := ⟨_, rfl⟩
  have uv : u.getD i 0 = V3.fin (fromAxes (V3.cross vert w.e_shaft_g) vert w.e_shaft_g F + if o.only_ind then 0 else w.U0_g) := by
    refine uv.trans ?_
    refine (congrArg (fun z => transform (M3.fin (M3.ofCols (V3.cross vert w.e_shaft_g) vert w.e_shaft_g)) z + _) (congrArg₂ (· + ·) (congrArg₂ (· + ·) E1 E2) E3)).trans ?_
    have e4 : ∀ x y : V3 ℝ, V3.fin x + V3.fin y = V3.fin (x + y) := fun x y => by ext <;> simp
    rw [e4, e4, ← hF, transform_fin, mulVec_fromAxes]
    cases o.only_ind <;> ext <;> simp <;> rfl
  rw [List.getD_eq_getElem?_getD, List.getElem?_eq_getElem (by omega)] at uv
  refine ⟨fromAxes (V3.cross vert w.e_shaft_g) vert w.e_shaft_g F + (if o.only_ind then 0 else w.U0_g), ?_, ?_, ⟨q, hYi, hρ.symm, by rw [hq]⟩⟩
  · rw [List.getElem?_eq_getElem (by omega)]
    exact congrArg some uv
  · have hz : V3.dot (p - w.r_hub) w.e_shaft_g = q.z := by rw [hq]
    have hcancel : ∀ x y : V3 ℝ, x + y - y = x := fun x y => by ext <;> simp
    rw [hcancel, hF, hz, swirl_of_parts w.r_hub vert w.e_shaft_g p ho.vert e5 e8 q hq hρ0]
    rfl

/-- far from the rotor plane -/
theorem longiSw_far (Y : List (V3 ℝ)) (γ R : ℝ) (hR : 0 < R) (i : ℕ) (q : V3 ℝ) (hi : Y[i]? = some q) (ρ : ℝ) (hρ : polarR q.x q.y = ρ) (hr : 0 < ρ) (hne : ρ ≠ R)
    (hz : 5*R ≤ |q.z|) :
    |longiSw Y γ R ρ q.z - (if 0 < q.z then (if R < ρ then 2*π*R*γ else 0)/(2*π*ρ) else 0)| ≤ |γ| * (R/ρ) * (6*((ρ+R)/|q.z|) + 3/100) := by
  subst hρ
  obtain ⟨v, hv, hb⟩ := C121_far Y γ R hR i q hi (polarR q.x q.y) rfl hr hne hz
  have h1 := longi_val Y γ R hR i q hi hr hne
  rw [List.getD_eq_getElem?_getD, hv, Option.getD_some] at h1
  have e : v = longiSw Y γ R (polarR q.x q.y) q.z := by
    have hx := congrArg V3.x h1
    have hy := congrArg V3.y h1
    simp only [V3.fin, V3.smul_x, V3.smul_y, eps, Num.fin.injEq] at hx hy
    have h2 := polarR_sq q.x q.y
    generalize polarR q.x q.y = ρ at *
    field_simp at hx hy
    have : (v - longiSw Y γ R ρ q.z) * ρ^2 = 0 := by
      rw [h2]
      linear_combination -q.y * hx + q.x * hy
    rcases mul_eq_zero.mp this with h | h
    · linarith
    · exact absurd h (by positivity)
  rw [← e]
  have e2 : (if 0 < q.z then (if R < polarR q.x q.y then 2*π*R*γ else 0)/(2*π*polarR q.x q.y) else 0) = (if 0 < q.z ∧ R < polarR q.x q.y then γ*(R/polarR q.x q.y) else 0) := by
    have hpi := pi_pos
    by_cases h1 : 0 < q.z <;> by_cases h2 : R < polarR q.x q.y <;> simp [h1, h2]
    field_simp
  rw [e2]
  exact hb

theorem swTot_far (Y : List (V3 ℝ)) (Γr : ℝ) (sheets : List (ℝ × ℝ)) (i : ℕ) (q : V3 ℝ) (hi : Y[i]? = some q) (ρ : ℝ) (hρ : polarR q.x q.y = ρ) (hr : 0 < ρ)
    (hz0 : q.z ≠ 0) (hs : ∀ y ∈ sheets, 0 < y.2 ∧ ρ ≠ y.2 ∧ 5*y.2 ≤ |q.z|) :
    |swTot Y Γr sheets ρ q.z - (if 0 < q.z then enclosed Γr sheets ρ/(2*π*ρ) else 0)| ≤
      |Γr|/(4*π*|q.z|) + (sheets.map fun y => |y.1| * (y.2/ρ) * (6*((ρ+y.2)/|q.z|) + 3/100)).sum := by
  have hpi := pi_pos
  have hza := abs_pos.mpr hz0
  have hL : |(sheets.map fun y => longiSw Y y.1 y.2 ρ q.z).sum - (if 0 < q.z then (sheets.map fun y => if y.2 < ρ then 2*π*y.2*y.1 else 0).sum/(2*π*ρ) else 0)| ≤
      (sheets.map fun y => |y.1| * (y.2/ρ) * (6*((ρ+y.2)/|q.z|) + 3/100)).sum := by
    induction sheets with
    | nil => simp
    | cons y l ih =>
      have ih := ih fun y hy => hs y (List.mem_cons_of_mem _ hy)
      obtain ⟨h1, h2, h3⟩ := hs y List.mem_cons_self
      have h4 := longiSw_far Y y.1 y.2 h1 i q hi ρ hρ hr h2 h3
      simp only [List.map_cons, List.sum_cons]
      refine le_trans (le_of_eq (congrArg _ ?_)) ((abs_add_le _ _).trans (add_le_add h4 ih))
      split_ifs <;> ring
  have hq : |q.z/√(ρ^2+q.z^2)| = |q.z|/√(ρ^2+q.z^2) := by rw [abs_div, abs_of_nonneg (sqrt_nonneg _)]
  have hD : 0 < √(ρ^2+q.z^2) := sqrt_pos.mpr (by positivity)
  have hlo : |q.z| ≤ √(ρ^2+q.z^2) := abs_le_sqrt (by nlinarith [sq_nonneg ρ])
  have hhi : √(ρ^2+q.z^2) ≤ ρ + |q.z| := by
    rw [sqrt_le_left (by positivity)]
    nlinarith [sq_abs q.z]
  have hone : |1 - |q.z|/√(ρ^2+q.z^2)| ≤ ρ/|q.z| := by
    have e : 1 - |q.z|/√(ρ^2+q.z^2) = (√(ρ^2+q.z^2) - |q.z|)/√(ρ^2+q.z^2) := by field_simp
    rw [e, abs_of_nonneg (by apply div_nonneg; linarith; exact hD.le)]
    calc (√(ρ^2+q.z^2) - |q.z|)/√(ρ^2+q.z^2) ≤ ρ/√(ρ^2+q.z^2) := by gcongr; linarith
      _ ≤ ρ/|q.z| := by gcongr
  have hR : |Γr/(4*π*ρ) * (1 + q.z/√(ρ^2 + q.z^2)) - (if 0 < q.z then Γr/(2*π*ρ) else 0)| ≤ |Γr|/(4*π*|q.z|) := by
    have e : Γr/(4*π*ρ) * (1 + q.z/√(ρ^2 + q.z^2)) - (if 0 < q.z then Γr/(2*π*ρ) else 0) =
        (if 0 < q.z then -1 else 1) * (Γr/(4*π*ρ) * (1 - |q.z|/√(ρ^2+q.z^2))) := by
      split_ifs with h
      · rw [abs_of_pos h]; field_simp; ring
      · rw [abs_of_nonpos (not_lt.mp h)]; ring
    have e2 : |(if 0 < q.z then (-1:ℝ) else 1)| = 1 := by split_ifs <;> simp
    rw [e, abs_mul, e2, one_mul, abs_mul, abs_div, abs_of_pos (by positivity : 0 < 4*π*ρ)]
    calc |Γr|/(4*π*ρ) * |1 - |q.z|/√(ρ^2+q.z^2)| ≤ |Γr|/(4*π*ρ) * (ρ/|q.z|) := by gcongr
      _ = _ := by field_simp
  refine le_trans (le_of_eq (congrArg _ ?_)) ((abs_add_le _ _).trans (add_le_add hR hL))
  unfold swTot enclosed
  split_ifs <;> ring

/-- the induced velocity of a straight wake of one cylinder, its swirl -/
theorem swirl_one (mini : (ℝ → Num) → ℝ) (R : ℝ) (hub shaft vert U0 : V3 ℝ) (L : Option Num) (G : Bool)
    (M : String) (ho : Orthonormal shaft vert) (h : List Op) (pts : List (V3 ℝ)) (hp : pts ≠ []) (o : Opts) (hnw : o.no_wake = false)
    (hlo : o.longi = true) (hro : o.root = true) (w : WT) (hw : w = (WT.new R hub shaft vert U0 L G M).run mini h)
    (g γl Γr : ℝ) (chi : Num) (hgt : w.gamma_t = some [.fin g]) (hgl : w.gamma_l = some [.fin γl]) (hGr : w.Gamma_r = some (.fin Γr)) (hR : 0 < R)
    (hg : o.ground.getD w.Ground = false) (hM : o.Model.getD w.Model = "VC") (hchi : (w.computeU pts o).2.chi = some chi) (hsk : ¬ (Num.fin 1e-7 < Num.abs chi)) :
    ∃ (u : List (V3 Num)) (Y : List (V3 ℝ)), (w.computeU pts o).1 = .ok u ∧ u.length = pts.length ∧ ∀ (i : ℕ) (p : V3 ℝ), pts[i]? = some p → ∀ ρ, ρ = axisDist w.e_shaft_g w.r_hub p → 0 < ρ → ρ ≠ R →
      ∃ v, u[i]? = some (V3.fin v) ∧ swirlAbout w.e_shaft_g w.r_hub p (v - if o.only_ind then 0 else w.U0_g) = swTot Y Γr [(γl, R)] ρ (V3.dot (p - w.r_hub) w.e_shaft_g) ∧
        ∃ q, Y[i]? = some q ∧ polarR q.x q.y = ρ ∧ q.z = V3.dot (p - w.r_hub) w.e_shaft_g := by
  obtain ⟨u, hu⟩ := (C16_single w _ hgt (Or.inr ⟨_, hgl⟩) pts hp o chi hchi).mpr ⟨fun _ => Or.inl hM, fun _ _ _ _ => hM⟩
  have hi := frame_run mini shaft vert R h _ (frame_new R hub shaft vert U0 L G M)
  rw [← hw] at hi
  obtain ⟨a', s', -, -, e3, e4, e5, e6, e7, e8, e9⟩ := frame_cols shaft vert R ho w hi
  have hs' : s' = w.e_shaft_g := by
    have := hi.e_shaft_g
    rw [turn_eq] at this
    rw [e3]; exact this.symm
  rw [hs'] at e5 e8
  have hfield := C16_field mini R hub shaft vert U0 L G M ho h pts o hnw
  simp only [← hw] at hfield
  obtain ⟨ul, uv⟩ := hfield _ chi u hgt hchi hu
  clear hfield
  refine ⟨u, rotorAxes (V3.cross vert w.e_shaft_g) vert w.e_shaft_g w.r_hub pts, hu, ul, fun i p hpi ρ hρ hρ0 hρr => ?_⟩
  have hil : i < pts.length := by
    by_contra h
    rw [List.getElem?_eq_none (by omega)] at hpi; exact nomatch hpi
  have uv := uv i hil
  rw [hg, hgl, hGr, hlo, hro, hM] at uv
  simp only [Bool.false_eq_true, if_false, List.map_cons, List.map_nil, List.sum_cons, List.sum_nil, add_zero, true_and] at uv
  generalize hY : rotorAxes (V3.cross vert w.e_shaft_g) vert w.e_shaft_g w.r_hub pts = Y at *
  obtain ⟨q, hq⟩ : ∃ q : V3 ℝ, q = ⟨V3.dot (p - w.r_hub) (V3.cross vert w.e_shaft_g), V3.dot (p - w.r_hub) vert, V3.dot (p - w.r_hub) w.e_shaft_g⟩ := ⟨_, rfl⟩
  have hYi : Y[i]? = some q := by
    rw [← hY, hq]
    simp only [rotorAxes, List.getElem?_map, hpi, Option.map_some]
  obtain ⟨d1, -⟩ := swirl_axes w.r_hub vert w.e_shaft_g p ho.vert e5 e8 q hq
  rw [d1] at hρ
  rw [hρ] at hρ0 hρr
  have hsk' : ¬ skewed chi := hsk
  have E1 : (if ¬ Num.Eqv (Num.fin Γr) 0 then (wakeRoot chi (.fin Γr) Y).getD i 0 else 0) =
      V3.fin (V3.smul (Γr/(4*π*ρ) * (1 + q.z/√(ρ^2 + q.z^2))) (eps q)) := by
    by_cases h0 : Γr = 0
    · rw [if_neg (by simp [h0]), h0]
      ext <;> simp
    · rw [if_pos (by simpa using h0)]
      unfold wakeRoot
      rw [if_neg hsk', hρ]
      exact root_val Y Γr i q hYi hρ0
  have E3 : (if ¬ Num.Eqv (Num.fin γl) 0 then (wakeLongi chi (.fin γl) R Y).getD i 0 else 0) = V3.fin (V3.smul (longiSw Y γl R ρ q.z) (eps q)) := by
    by_cases h0 : γl = 0
    · rw [if_neg (by simp [h0]), h0, longi_zero]
      ext <;> simp
    · rw [if_pos (by simpa using h0)]
      unfold wakeLongi
      rw [if_neg hsk', hρ]
      exact longi_val Y γl R hR i q hYi hρ0 hρr
  have E2 : ∃ t z : ℝ, (if o.tang = true ∧ ¬ Num.Eqv (Num.fin g) 0 then (wakeTang chi "VC" (.fin g) R o.R_far_field Y).getD i 0 else 0) = V3.fin ⟨t * q.x, t * q.y, z⟩ := by
    split_ifs
    · obtain ⟨t, z, e⟩ := tang_val Y g R hR i q hYi
      refine ⟨t, z, ?_⟩
      unfold wakeTang
      rw [if_neg hsk', if_pos rfl, e]
    · exact ⟨0, 0, by ext <;> simp⟩
  obtain ⟨t, z, E2⟩ := E2
  obtain ⟨F, hF⟩ : ∃ F : V3 ℝ, F = V3.smul (Γr/(4*π*ρ) * (1 + q.z/√(ρ^2 + q.z^2))) (eps q) + ⟨t * q.x, t * q.y, z⟩ +
    V3.smul (longiSw Y γl R ρ q.z) (eps q) := ⟨_, rfl⟩
  have uv : u.getD i 0 = V3.fin (fromAxes (V3.cross vert w.e_shaft_g) vert w.e_shaft_g F + if o.only_ind then 0 else w.U0_g) := by
    refine uv.trans ?_
    refine (congrArg (fun z => transform (M3.fin (M3.ofCols (V3.cross vert w.e_shaft_g) vert w.e_shaft_g)) z + _) (congrArg₂ (· + ·) (congrArg₂ (· + ·) E1 E2) E3)).trans ?_
    have e4 : ∀ x y : V3 ℝ, V3.fin x + V3.fin y = V3.fin (x + y) := fun x y => by ext <;> simp
    rw [e4, e4, ← hF, transform_fin, mulVec_fromAxes]
    cases o.only_ind <;> ext <;> simp <;> rfl
  rw [List.getD_eq_getElem?_getD, List.getElem?_eq_getElem (by omega)] at uv
  refine ⟨fromAxes (V3.cross vert w.e_shaft_g) vert w.e_shaft_g F + (if o.only_ind then 0 else w.U0_g), ?_, ?_, ⟨q, hYi, hρ.symm, by rw [hq]⟩⟩
  · rw [List.getElem?_eq_getElem (by omega)]
    exact congrArg some uv
  · have hz : V3.dot (p - w.r_hub) w.e_shaft_g = q.z := by rw [hq]
    have hcancel : ∀ x y : V3 ℝ, x + y - y = x := fun x y => by ext <;> simp
    rw [hcancel, hF, hz, swirl_of_parts w.r_hub vert w.e_shaft_g p ho.vert e5 e8 q hq hρ0]
    simp [swTot]

theorem swirl_value (mini : (ℝ → Num) → ℝ) (R : ℝ) (hub shaft vert U0 : V3 ℝ) (L : Option Num) (G : Bool)
    (M : String) (ho : Orthonormal shaft vert) (hR : 0 < R) (h : List Op) (pts : List (V3 ℝ)) (hp : pts ≠ []) (o : Opts) (hnw : o.no_wake = false)
    (hlo : o.longi = true) (hro : o.root = true) (w : WT) (hw : w = (WT.new R hub shaft vert U0 L G M).run mini h)
    (gt : List ℝ) (sheets : List (ℝ × ℝ)) (Γr : ℝ) (chi : Num) (hst : StoredWake w gt sheets Γr)
    (hg : o.ground.getD w.Ground = false) (hM : o.Model.getD w.Model = "VC") (hchi : (w.computeU pts o).2.chi = some chi) (hsk : ¬ (Num.fin 1e-7 < Num.abs chi)) :
    ∃ (u : List (V3 Num)) (Y : List (V3 ℝ)), (w.computeU pts o).1 = .ok u ∧ u.length = pts.length ∧ ∀ (i : ℕ) (p : V3 ℝ), pts[i]? = some p → ∀ ρ, ρ = axisDist w.e_shaft_g w.r_hub p → 0 < ρ →
      (∀ y ∈ sheets, ρ ≠ y.2) →
      ∃ v, u[i]? = some (V3.fin v) ∧ swirlAbout w.e_shaft_g w.r_hub p (v - if o.only_ind then 0 else w.U0_g) = swTot Y Γr sheets ρ (V3.dot (p - w.r_hub) w.e_shaft_g) ∧
        ∃ q, Y[i]? = some q ∧ polarR q.x q.y = ρ ∧ q.z = V3.dot (p - w.r_hub) w.e_shaft_g := by
  obtain ⟨h1, h2, h3, h4, h5, h6⟩ := hst
  rcases h6 with ⟨h6, h7⟩ | ⟨h6, h7⟩
  · have hz : (sheets.map Prod.fst).zip (sheets.map Prod.snd) = sheets := by rw [List.zip_map', List.map_id'']; intro x; rfl
    obtain ⟨u, Y, a, b, c⟩ := swirl_multi mini R hub shaft vert U0 L G M ho h pts hp o hnw hlo hro w hw gt (sheets.map Prod.fst) (sheets.map Prod.snd) Γr chi h1
      (by rw [h3, List.map_map]; rfl) h2 h7 (by simpa using h4) (by simp) (by rw [h4]; exact h6) (by
        intro x hx
        obtain ⟨y, hy, rfl⟩ := List.mem_map.mp hx
        exact h5 y hy) hg hM hchi hsk
    refine ⟨u, Y, a, b, fun i p hi ρ hρ h0 hne => ?_⟩
    have := c i p hi ρ hρ h0 (by
      intro hx
      obtain ⟨y, hy, e⟩ := List.mem_map.mp hx
      exact hne y hy e.symm)
    rwa [hz] at this
  · have hwR : w.R = R := by rw [hw]; exact (frame_run mini shaft vert R h _ (frame_new R hub shaft vert U0 L G M)).R
    match sheets, h6 with
    | [(γl, R')], _ =>
      have hR' : R' = R := by simpa [hwR] using h7
      subst hR'
      match gt, h4 with
      | [g], _ =>
        obtain ⟨u, Y, a, b, c⟩ := swirl_one mini R' hub shaft vert U0 L G M ho h pts hp o hnw hlo hro w hw g γl Γr chi h1 h3 h2 hR hg hM hchi hsk
        exact ⟨u, Y, a, b, fun i p hi ρ hρ h0 hne => c i p hi ρ hρ h0 (hne (γl, R') (by simp))⟩

/-- C138 (rotor plane): after any history, with root vortex and longitudinal vorticity switched on and a straight wake, the velocity `compute_u` returns at every point
of the rotor plane off the shaft and off the radii of the cylinders swirls about the shaft at exactly `Γ(ρ)/(4πρ)`, where `Γ(ρ)` is the circulation of the
root vortex and of the cylinders inside the radius `ρ` of the point; the tangential vorticity, on or off, does not change it. -/
theorem C138_rotor_plane (mini : (ℝ → Num) → ℝ) (R : ℝ) (hub shaft vert U0 : V3 ℝ) (L : Option Num) (G : Bool)
    (M : String) (ho : Orthonormal shaft vert) (hR : 0 < R) (h : List Op) (pts : List (V3 ℝ)) (hp : pts ≠ []) (o : Opts) (hnw : o.no_wake = false)
    (hlo : o.longi = true) (hro : o.root = true) :
    let w := (WT.new R hub shaft vert U0 L G M).run mini h
    let s := w.e_shaft_g
    ∀ (gt : List ℝ) (sheets : List (ℝ × ℝ)) (Γr : ℝ) (chi : Num), StoredWake w gt sheets Γr → o.ground.getD w.Ground = false → o.Model.getD w.Model = "VC" →
      (w.computeU pts o).2.chi = some chi → ¬ (Num.fin 1e-7 < Num.abs chi) →
    ∃ u, (w.computeU pts o).1 = .ok u ∧ ∀ (i : ℕ) (p : V3 ℝ) (ρ : ℝ), pts[i]? = some p → V3.dot (p - w.r_hub) s = 0 → ρ = axisDist s w.r_hub p → 0 < ρ → (∀ y ∈ sheets, ρ ≠ y.2) →
      ∃ v, u[i]? = some (V3.fin v) ∧
        swirlAbout s w.r_hub p (v - if o.only_ind then 0 else w.U0_g) = enclosed Γr sheets ρ / (4*π*ρ) := by
  intro w s gt sheets Γr chi hst hg hM hchi hsk
  obtain ⟨u, Y, a, -, c⟩ := swirl_value mini R hub shaft vert U0 L G M ho hR h pts hp o hnw hlo hro w rfl gt sheets Γr chi hst hg hM hchi hsk
  refine ⟨u, a, fun i p ρ hi hz hρ h0 hne => ?_⟩
  obtain ⟨v, v1, v2, -⟩ := c i p hi ρ hρ h0 hne
  refine ⟨v, v1, v2.trans ?_⟩
  rw [hz, swTot_plane Y Γr sheets ρ h0 hne]

/-- C138 (either side of the rotor): at two points of the same call that are mirror images in the rotor plane, the swirls add up to exactly twice the swirl of the rotor plane
at that radius: what the swirl gains downstream it loses upstream, with no numerical error. -/
theorem C138_mirror (mini : (ℝ → Num) → ℝ) (R : ℝ) (hub shaft vert U0 : V3 ℝ) (L : Option Num) (G : Bool)
    (M : String) (ho : Orthonormal shaft vert) (hR : 0 < R) (h : List Op) (pts : List (V3 ℝ)) (hp : pts ≠ []) (o : Opts) (hnw : o.no_wake = false)
    (hlo : o.longi = true) (hro : o.root = true) :
    let w := (WT.new R hub shaft vert U0 L G M).run mini h
    let s := w.e_shaft_g
    ∀ (gt : List ℝ) (sheets : List (ℝ × ℝ)) (Γr : ℝ) (chi : Num), StoredWake w gt sheets Γr → o.ground.getD w.Ground = false → o.Model.getD w.Model = "VC" →
      (w.computeU pts o).2.chi = some chi → ¬ (Num.fin 1e-7 < Num.abs chi) →
    ∃ u, (w.computeU pts o).1 = .ok u ∧ ∀ (i j : ℕ) (p p' : V3 ℝ) (ρ : ℝ), pts[i]? = some p → pts[j]? = some p' → V3.dot (p' - w.r_hub) s = -V3.dot (p - w.r_hub) s →
      ρ = axisDist s w.r_hub p → ρ = axisDist s w.r_hub p' → 0 < ρ → (∀ y ∈ sheets, ρ ≠ y.2) →
      ∃ v v', u[i]? = some (V3.fin v) ∧ u[j]? = some (V3.fin v') ∧
        swirlAbout s w.r_hub p (v - if o.only_ind then 0 else w.U0_g) + swirlAbout s w.r_hub p' (v' - if o.only_ind then 0 else w.U0_g) = enclosed Γr sheets ρ / (2*π*ρ) := by
  intro w s gt sheets Γr chi hst hg hM hchi hsk
  obtain ⟨u, Y, a, -, c⟩ := swirl_value mini R hub shaft vert U0 L G M ho hR h pts hp o hnw hlo hro w rfl gt sheets Γr chi hst hg hM hchi hsk
  refine ⟨u, a, fun i j p p' ρ hi hj hz hρ hρ' h0 hne => ?_⟩
  obtain ⟨v, v1, v2, -⟩ := c i p hi ρ hρ h0 hne
  obtain ⟨v', v1', v2', -⟩ := c j p' hj ρ hρ' h0 hne
  refine ⟨v, v', v1, v1', ?_⟩
  refine (congrArg₂ (· + ·) v2 v2').trans ?_
  have hpi := pi_pos
  rw [hz, swTot_odd, swTot_plane Y Γr sheets ρ h0 hne]
  field_simp
  ring

/-- C138 (far wake): at least five cylinder radii downstream of the rotor the swirl is the enclosed circulation over `2πρ` (twice the swirl of the rotor plane), at
least five radii upstream it is zero, within `|Γr|/(4π|z|)` for the root vortex and `|γ|(R/ρ)(6(ρ+R)/|z|+3%)` for each sheet. -/
theorem C138_far (mini : (ℝ → Num) → ℝ) (R : ℝ) (hub shaft vert U0 : V3 ℝ) (L : Option Num) (G : Bool)
    (M : String) (ho : Orthonormal shaft vert) (hR : 0 < R) (h : List Op) (pts : List (V3 ℝ)) (hp : pts ≠ []) (o : Opts) (hnw : o.no_wake = false)
    (hlo : o.longi = true) (hro : o.root = true) :
    let w := (WT.new R hub shaft vert U0 L G M).run mini h
    let s := w.e_shaft_g
    ∀ (gt : List ℝ) (sheets : List (ℝ × ℝ)) (Γr : ℝ) (chi : Num), StoredWake w gt sheets Γr → o.ground.getD w.Ground = false → o.Model.getD w.Model = "VC" →
      (w.computeU pts o).2.chi = some chi → ¬ (Num.fin 1e-7 < Num.abs chi) →
    ∃ u, (w.computeU pts o).1 = .ok u ∧ ∀ (i : ℕ) (p : V3 ℝ) (ρ z : ℝ), pts[i]? = some p → z = V3.dot (p - w.r_hub) s → z ≠ 0 → ρ = axisDist s w.r_hub p → 0 < ρ →
      (∀ y ∈ sheets, ρ ≠ y.2 ∧ 5 * y.2 ≤ |z|) →
      ∃ v, u[i]? = some (V3.fin v) ∧
        |swirlAbout s w.r_hub p (v - if o.only_ind then 0 else w.U0_g) - (if 0 < z then enclosed Γr sheets ρ / (2*π*ρ) else 0)| ≤
          |Γr|/(4*π*|z|) + (sheets.map fun y => |y.1| * (y.2/ρ) * (6*((ρ+y.2)/|z|) + 3/100)).sum := by
  intro w s gt sheets Γr chi hst hg hM hchi hsk
  obtain ⟨u, Y, a, -, c⟩ := swirl_value mini R hub shaft vert U0 L G M ho hR h pts hp o hnw hlo hro w rfl gt sheets Γr chi hst hg hM hchi hsk
  refine ⟨u, a, fun i p ρ z hi hz hz0 hρ h0 hne => ?_⟩
  obtain ⟨v, v1, v2, q, q1, q2, q3⟩ := c i p hi ρ hρ h0 fun y hy => (hne y hy).1
  refine ⟨v, v1, ?_⟩
  have e : z = q.z := hz.trans q3.symm
  rw [v2, ← q3, e]
  rw [e] at hne hz0
  exact swTot_far Y Γr sheets i q q1 ρ q2 h0 hz0 fun y hy => ⟨hst.2.2.2.2.1 y hy, hne y hy⟩

end
end Wiz
