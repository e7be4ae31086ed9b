import Verif.Props.ThrustSwirl
import Verif.Props.Momentum
import Verif.Props.BlockageError
/-! # C143: the axial flow of a turbine with several stations, from its loading -/
set_option autoImplicit false
namespace Wiz
open Spec Classical Real
noncomputable section

/-- the velocity of a straight cylinder in its rotor plane -/
theorem tang_plane (Y : List (V3 ℝ)) (γ R : ℝ) (hR : 0 < R) (i : ℕ) (q : V3 ℝ) (hi : Y[i]? = some q) (hz : q.z = 0) (hb : 1e-8 * R ≤ |polarR q.x q.y - R|) :
    ∃ x y : ℝ, (vcTang Y (.fin γ) R 0).getD i 0 = V3.fin ⟨x, y, if polarR q.x q.y < R then γ/2 else 0⟩ := by
  obtain ⟨ur, hur⟩ := C43_rotor_plane Y γ R hR i q hi hz
  change _ = some (Num.fin ur, Num.fin (if |polarR q.x q.y - R| < 1e-8 * R then γ/4 else if polarR q.x q.y < R then γ/2 else 0)) at hur
  rw [if_neg (not_lt.mpr hb)] at hur
  have hdir := C42_direction Y γ R hR
  rw [hdir, List.getD_eq_getElem?_getD, List.getElem?_zipWith, hi, hur]
  refine ⟨ur * (q.x / √(q.x^2 + q.y^2)), ur * (q.y / √(q.x^2 + q.y^2)), ?_⟩
  simp only [Option.getD_some]
  ext <;> simp

/-- `axisDist` of a point, from its rotor axes -/
theorem plane_polar (c v s p : V3 ℝ) (hv : V3.dot v v = 1) (hs : V3.dot s s = 1) (ho : V3.dot s v = 0) :
    axisDist s c p = polarR (V3.dot (p - c) (V3.cross v s)) (V3.dot (p - c) v) :=
  (swirl_axes c v s p hv hs ho _ rfl).1

theorem sum_z {α : Type} (l : List α) (f : α → V3 ℝ) (g : α → ℝ) (h : ∀ y ∈ l, (f y).z = g y) : (l.map f).sum.z = (l.map g).sum := by
  induction l with
  | nil => rfl
  | cons y l ih =>
    rw [List.map_cons, List.sum_cons, List.map_cons, List.sum_cons, V3.add_z, ih fun y hy => h y (List.mem_cons_of_mem _ hy), h y List.mem_cons_self]

/-- the rings of several straight cylinders seen from a point of the rotor plane and of the shaft -/
theorem axial_multi (mini : (ℝ → Num) → ℝ) (R : ℝ) (hub shaft vert U0 : V3 ℝ) (L : Option Num) (G : Bool)
    (M : String) (ho : Orthonormal shaft vert) (h : List Op) (pts : List (V3 ℝ)) (hp : pts ≠ []) (o : Opts) (hnw : o.no_wake = false)
    (hlo : o.longi = false) (hro : o.root = false) (hta : o.tang = true) (w : WT) (hw : w = (WT.new R hub shaft vert U0 L G M).run mini h)
    (gt r : List ℝ) (chi : Num) (hgt : w.gamma_t = some (gt.map .fin))
    (hgl : w.gamma_l = none ∨ ∃ gl, w.gamma_l = some gl ∧ gl.length = r.length)
    (hr : w.r = some r) (hl1 : gt.length = r.length) (hl3 : gt.length ≠ 1) (hpos : ∀ x ∈ r, 0 < x)
    (hg : o.ground.getD w.Ground = false) (hM : o.Model.getD w.Model = "VC") (hchi : (w.computeU pts o).2.chi = some chi) (hsk : ¬ (Num.fin 1e-7 < Num.abs chi)) :
    ∃ u, (w.computeU pts o).1 = .ok u ∧ ∀ (i : ℕ) (p : V3 ℝ), pts[i]? = some p → ∃ v, u[i]? = some (V3.fin v) ∧
      (V3.dot (p - w.r_hub) w.e_shaft_g = 0 → (∀ x ∈ r, 1e-8 * x ≤ |axisDist w.e_shaft_g w.r_hub p - x|) →
        V3.dot (v - if o.only_ind then 0 else w.U0_g) w.e_shaft_g = ((gt.zip r).map fun y => if axisDist w.e_shaft_g w.r_hub p < y.2 then y.1/2 else 0).sum) ∧
      (∀ z, p = w.r_hub + V3.smul z w.e_shaft_g →
        v - (if o.only_ind then 0 else w.U0_g) = V3.smul ((gt.zip r).map fun y => y.1/2 * (1 + z/√(z^2 + y.2^2))).sum w.e_shaft_g) := by
  obtain ⟨u, hu⟩ := (C16_multi w _ r hgt (by simpa using hl3) hr (by simpa using hl1) hgl pts hp o).mpr hM
  have hi := frame_run mini shaft vert R h _ (frame_new R hub shaft vert U0 L G M)
  rw [← hw] at hi
  obtain ⟨a', s', -, -, e3, e4, e5, e6, e7, e8, e9⟩ := frame_cols shaft vert R ho w hi
  have hs' : s' = w.e_shaft_g := by
    have := hi.e_shaft_g
    rw [turn_eq] at this
    rw [e3]; exact this.symm
  rw [e9] at e7
  rw [hs'] at e5 e7 e8
  have hfield := C16_field_multi mini R hub shaft vert U0 L G M ho h pts o hnw hlo hro
  simp only [← hw] at hfield
  obtain ⟨ul, uv⟩ := hfield _ r chi u hgt (by simpa using hl3) hr hchi hu
  clear hfield
  refine ⟨u, hu, fun i p hpi => ?_⟩
  have hil : i < pts.length := by
    by_contra h
    rw [List.getElem?_eq_none (by omega)] at hpi; exact nomatch hpi
  have uv := uv i hil
  rw [hg, hta] at uv
  simp only [Bool.false_eq_true, if_false, List.map_cons, List.map_nil, List.sum_cons, List.sum_nil, add_zero, if_true] at uv
  have hsk' : ¬ skewed chi := hsk
  generalize hY : rotorAxes (V3.cross vert w.e_shaft_g) vert w.e_shaft_g w.r_hub pts = Y at *
  obtain ⟨q, hq⟩ : ∃ q : V3 ℝ, q = ⟨V3.dot (p - w.r_hub) (V3.cross vert w.e_shaft_g), V3.dot (p - w.r_hub) vert, V3.dot (p - w.r_hub) w.e_shaft_g⟩ := ⟨_, rfl⟩
  have hYi : Y[i]? = some q := by
    rw [← hY, hq]
    simp only [rotorAxes, List.getElem?_map, hpi, Option.map_some]
  -- values of the cylinders
  have hT : ∀ y : ℝ × ℝ, ∃ g : V3 ℝ, y ∈ gt.zip r → (vcTang Y (.fin y.1) y.2 0).getD i 0 = V3.fin g := by
    intro y
    by_cases hy : y ∈ gt.zip r
    · obtain ⟨t, z, e⟩ := tang_val Y y.1 y.2 (hpos _ (List.of_mem_zip hy).2) i q hYi
      exact ⟨_, fun _ => e⟩
    · exact ⟨0, fun h => absurd h hy⟩
  choose g hg1 using hT
  obtain ⟨F, hF⟩ : ∃ F : V3 ℝ, F = ((gt.zip r).map fun y => if y.1 = 0 then 0 else g y).sum := ⟨_, rfl⟩
  have E : ((((gt.map Num.fin).zip r).filter fun y => decide (0 < Num.abs y.1)).map fun y => (wakeTang chi "VC" y.1 y.2 o.R_far_field Y).getD i 0).sum = V3.fin F := by
    rw [hF]
    refine filter_zip_fin gt r _ _ (fun y hy h0 => ?_) (fun y _ h0 => if_pos h0)
    rw [if_neg h0, ← hg1 y hy]
    unfold wakeTang
    rw [if_neg hsk', if_pos rfl]
  have uv : u.getD i 0 = V3.fin (fromAxes (V3.cross vert w.e_shaft_g) vert w.e_shaft_g F + if o.only_ind then 0 else w.U0_g) := by
    refine uv.trans ?_
    refine (congrArg (fun z => transform (M3.fin (M3.ofCols (V3.cross vert w.e_shaft_g) vert w.e_shaft_g)) z + _) E).trans ?_
    rw [transform_fin, mulVec_fromAxes]
    cases o.only_ind <;> ext <;> simp <;> rfl
  rw [List.getD_eq_getElem?_getD, List.getElem?_eq_getElem (by omega)] at uv
  have hcancel : ∀ x y : V3 ℝ, x + y - y = x := fun x y => by ext <;> simp
  refine ⟨fromAxes (V3.cross vert w.e_shaft_g) vert w.e_shaft_g F + (if o.only_ind then 0 else w.U0_g), ?_, ?_, ?_⟩
  · rw [List.getElem?_eq_getElem (by omega)]
    exact congrArg some uv
  · intro hpl hband
    have hqz : q.z = 0 := by rw [hq]; exact hpl
    have hpol : axisDist w.e_shaft_g w.r_hub p = polarR q.x q.y := by rw [hq]; exact plane_polar _ _ _ _ ho.vert e5 e8
    rw [hpol] at hband ⊢
    have hdot : V3.dot (fromAxes (V3.cross vert w.e_shaft_g) vert w.e_shaft_g F) w.e_shaft_g = F.z := by
      have h1 : V3.dot (fromAxes (V3.cross vert w.e_shaft_g) vert w.e_shaft_g F) w.e_shaft_g =
          F.x * V3.dot (V3.cross vert w.e_shaft_g) w.e_shaft_g + F.y * V3.dot w.e_shaft_g vert + F.z * V3.dot w.e_shaft_g w.e_shaft_g := by
        simp [fromAxes, V3.dot]; ring
      rw [h1, e5, e7, e8]; ring
    rw [hcancel, hdot, hF]
    apply sum_z
    intro y hy
    by_cases h0 : y.1 = 0
    · rw [if_pos h0, h0]; simp
    · rw [if_neg h0]
      have hm := (List.of_mem_zip hy).2
      obtain ⟨x1, y1, e⟩ := tang_plane Y y.1 y.2 (hpos _ hm) i q hYi hqz (hband _ hm)
      rw [hg1 y hy] at e
      rw [fin_inj3 _ _ e]
  · intro z hz
    have hd : ∀ x, V3.dot (p - w.r_hub) x = z * V3.dot w.e_shaft_g x := by
      intro x; rw [hz]; simp [V3.dot]; ring
    have hq0 : q = ⟨0, 0, z⟩ := by
      rw [hq, hd, hd, hd, e8, e5, dot_comm, e7]
      simp
    have hF' : F = V3.smul ((gt.zip r).map fun y => y.1/2 * (1 + z/√(z^2 + y.2^2))).sum ⟨0, 0, 1⟩ := by
      rw [hF, ← smul_sum]
      congr 1
      apply List.map_congr_left
      intro y hy
      by_cases h0 : y.1 = 0
      · rw [if_pos h0, h0]; ext <;> simp
      · rw [if_neg h0]
        have hm := (List.of_mem_zip hy).2
        have := vcTang_axis Y y.1 y.2 (hpos _ hm) i q hYi (by rw [hq0]; have := hpos _ hm; simp; positivity)
        have e := hg1 y hy
        rw [List.getD_eq_getElem?_getD, this, Option.getD_some] at e
        rw [← fin_inj3 _ _ e, hq0]
        ext <;> simp
    rw [hcancel, hF']
    ext <;> simp [fromAxes]

/-- `WakeVorticityFromGamma` below tip-speed ratio 20: the ring intensities -/
theorem fromGamma_axial (n : ℕ) (r G : ℕ → ℝ) (R U0 Ω : ℝ) (hn : 0 < n) (h0 : 0 < r 0) (hinc : ∀ i j, i < j → j < n → r i < r j) (hnR : n = 1 → r 0 ≤ R)
    (hU : 0 < U0) (hΩ : 0 < Ω) (hL : Ω*R/U0 < 20) (A : ℕ → ℝ)
    (hA : ∀ i < n, A i = aOfCt (ctEff n (fun j => G j * Ω / (π * U0^2)) (fun j => Ω * rcyl n r R j / U0) i)) :
    ∃ v : WakeVort, wakeVorticityFromGamma (farr n r) (farr n G) (.fin R) (.fin U0) (.fin Ω) = .ok v ∧
      v.gamma_t = farr n (fun i => -2 * U0 * (A i - (if i = n - 1 then 0 else A (i+1)))) ∧ ∃ l : List Num, v.gamma_l = some l ∧ l.length = n := by
  obtain ⟨h1, h2, h3⟩ := rcyl_ok n r R hn h0 hinc hnR
  obtain ⟨h, e, -⟩ := discr_eval_swirl n r G (rcyl n r R) (.fin R) U0 Ω 1 true true hn hU.ne' hΩ.ne' (fun i hi => (h1 i hi).ne')
    (fun i hi => (h2 i hi).ne') h3 (by simp)
  have e := (discr_default n r _ R _ _ _ true true true hn).trans e
  unfold wakeVorticityFromGamma
  have c1 : capOmega (.fin Ω) = .fin Ω := by
    unfold capOmega; rw [if_neg (by intro h; exact h)]
  have c2 : decide ((Num.fin Ω * Num.fin R / Num.fin U0 : Num) < 20) = true := by
    rw [decide_eq_true_iff, Num.fin_mul, Num.fin_div hU.ne', Num.ofNat_def, Num.lt_fin]
    exact_mod_cast hL
  simp only [c1, c2]
  refine ⟨_, e, ?_, _, rfl, by simp [farr, arr]⟩
  refine arr_congr n _ _ fun i hi => congrArg Num.fin ?_
  have hA' : ∀ i < n, aOfCt (ctEff n (fun i => kOf (1 * G i) U0 Ω) (fun i => Ω * rcyl n r R i / U0) i) = A i := by
    intro i hi
    rw [hA i hi]
    simp only [one_mul, kOf]
  beta_reduce
  rw [hA' i hi]
  split_ifs with hl
  · rfl
  · rw [hA' (i+1) (by omega)]

/-- the ring intensities stored by `update_loading`, given the vorticity of the solver -/
theorem loading_rings (mini : (ℝ → Num) → ℝ) (w : WT) (hR : 0 < w.R) (n : ℕ) (r : ℕ → ℝ) (lam : ℝ)
    (a : LoadArgs) (C G0 : Option (List Num)) (v : WakeVort) (hre : reinterp w.R a = .ok (some ((List.range n).map r), C, G0))
    (hla : a.Lambda = some (.fin lam)) (hf : a.gamma_t_Ct = none)
    (hv : (C = none ∧ ∃ g, G0 = some g ∧ wakeVorticityFromGamma (farr n r) g (.fin w.R) (.fin (V3.norm w.U0_g)) (.fin (lam * V3.norm w.U0_g / w.R)) = .ok v) ∨
      ∃ c, C = some c ∧ wakeVorticityFromCt mini (farr n r) c (.fin w.R) (.fin (V3.norm w.U0_g)) (.fin (lam * V3.norm w.U0_g / w.R)) = .ok v) :
    (w.updateLoading mini a).2.gamma_t = some v.gamma_t ∧ (w.updateLoading mini a).2.gamma_l = v.gamma_l ∧
      (w.updateLoading mini a).2.r = some ((List.range n).map r) := by
  have e' : (Num.fin lam * .fin (V3.norm w.U0_g) / .fin w.R : Num) = .fin (lam * V3.norm w.U0_g / w.R) := by
    rw [Num.fin_mul, Num.fin_div hR.ne']
  have e4 : loadingSolve mini w.R (.fin (V3.norm w.U0_g)) (Num.fin lam * .fin (V3.norm w.U0_g) / .fin w.R) (some ((List.range n).map r))
      C G0 none = .ok (v.gamma_t, v.gamma_l, v.Gamma_r) := by
    rw [e']
    unfold loadingSolve
    rcases hv with ⟨rfl, g, rfl, hv⟩ | ⟨c, rfl, hv⟩
    · simp only
      rw [farr_map, hv]
    · simp only
      rw [farr_map, hv]
  unfold WT.updateLoading
  simp only [hre, hla, hf, e4, and_self]

/-- the thrust route stores what the circulation route stores -/
theorem fromCt_fromGamma (mini : (ℝ → Num) → ℝ) (n : ℕ) (r c G : ℕ → ℝ) (R U0 Ω lam : ℝ) (hR : 0 < R) (hU : 0 < U0) (hl : 0 < lam) (hl20 : lam < 20) (hO : Ω = lam * U0 / R)
    (hpos : ∀ i < n, 0 < r i) (hc : ∀ i < n, 0 < c i)
    (hG : ∀ i, G i = (mini fun k => .fin |k * (1 + k / (4 * (lam * r i / R)^2)) - c i|) * π * U0^2 / Ω) :
    wakeVorticityFromCt mini (farr n r) (farr n c) (.fin R) (.fin U0) (.fin Ω) = wakeVorticityFromGamma (farr n r) (farr n G) (.fin R) (.fin U0) (.fin Ω) := by
  have hΩ : 0 < Ω := by rw [hO]; positivity
  unfold wakeVorticityFromCt wakeVorticityFromGamma
  have c1 : capOmega (.fin Ω) = .fin Ω := by
    unfold capOmega; rw [if_neg (by intro h; exact h)]
  have c3 : (Num.fin Ω * Num.fin R / Num.fin U0 : Num) = .fin lam := by
    rw [Num.fin_mul, Num.fin_div hU.ne', hO]
    congr 1
    field_simp
  have c2 : decide ((Num.fin lam : Num) < 20) = true := by
    rw [decide_eq_true_iff, Num.ofNat_def, Num.lt_fin]
    exact_mod_cast hl20
  simp only [c1, c3, c2]
  rw [circulation_swirl mini n r c R lam hR hl hpos hc]
  congr 1
  unfold farr arr
  rw [List.map_map]
  apply List.map_congr_left
  intro i _
  simp only [Function.comp_apply, Num.fin_mul, Num.fin_pow, Num.fin_div hΩ.ne']
  rw [hG i]

theorem telescope (B : ℕ → ℝ) (k m : ℕ) : ((List.range m).map fun j => if k ≤ j then B j - B (j+1) else 0).sum = if k ≤ m then B k - B m else 0 := by
  induction m with
  | zero => by_cases h : k ≤ 0 <;> simp_all
  | succ m ih =>
    rw [List.range_succ, List.map_append, List.sum_append, ih]
    simp only [List.map_cons, List.map_nil, List.sum_cons, List.sum_nil, add_zero]
    rcases lt_trichotomy k (m+1) with h | h | h
    · rw [if_pos (by omega), if_pos (by omega), if_pos (by omega)]; ring
    · rw [if_neg (by omega), if_neg (by omega), if_pos (by omega), h]; ring
    · rw [if_neg (by omega), if_neg (by omega), if_neg (by omega)]; ring

theorem zip_range {α β : Type} (n : ℕ) (f : ℕ → α) (g : ℕ → β) : ((List.range n).map f).zip ((List.range n).map g) = (List.range n).map fun i => (f i, g i) := by
  rw [List.zip_map, List.zip_eq_zipWith, List.zipWith_self, List.map_map]
  rfl

/-- half the intensities outside of a circle between the stations `k-1` and `k` -/
theorem outside_sum (n k : ℕ) (r A : ℕ → ℝ) (V ρ : ℝ) (hk : k ≤ n) (hk1 : ∀ j < k, r j < ρ) (hk2 : ∀ j < n, k ≤ j → ρ < r j) :
    ((((List.range n).map fun i => -2 * V * (A i - (if i = n - 1 then 0 else A (i+1)))).zip ((List.range n).map r)).map fun y => if ρ < y.2 then y.1/2 else 0).sum =
      -(if k < n then V * A k else 0) := by
  rw [zip_range, List.map_map]
  have : ((List.range n).map ((fun y : ℝ × ℝ => if ρ < y.2 then y.1/2 else 0) ∘ fun i => (-2 * V * (A i - (if i = n - 1 then 0 else A (i+1))), r i))) =
      (List.range n).map fun j => if k ≤ j then (fun j => -(if j < n then V * A j else 0)) j - (fun j => -(if j < n then V * A j else 0)) (j+1) else 0 := by
    apply List.map_congr_left
    intro j hj
    have hj := List.mem_range.mp hj
    simp only [Function.comp_apply]
    by_cases h : k ≤ j
    · rw [if_pos (hk2 j hj h), if_pos h, if_pos hj]
      by_cases hl : j = n - 1
      · rw [if_pos hl, if_neg (by omega)]; ring
      · rw [if_neg hl, if_pos (by omega)]; ring
    · rw [if_neg (not_lt.mpr (hk1 j (by omega)).le), if_neg h]
  rw [this, telescope, if_pos hk, if_neg (lt_irrefl n)]
  simp

/-- axial flow of a turbine whose stored rings are those of the solver -/
theorem axial_loading (mini : (ℝ → Num) → ℝ) (R : ℝ) (hub shaft vert U0 : V3 ℝ) (L : Option Num) (gr : Bool)
    (M : String) (ho : Orthonormal shaft vert) (hR : 0 < R) (h hist : List Op) (pts : List (V3 ℝ)) (hp : pts ≠ []) (o : Opts) (hnw : o.no_wake = false)
    (hlo : o.longi = false) (hro : o.root = false) (hta : o.tang = true)
    (n : ℕ) (r G A : ℕ → ℝ) (lam : ℝ) (hl : 0 < lam) (hl20 : lam < 20) (hn : 2 ≤ n) (h0 : 0 < r 0) (hinc : ∀ i j, i < j → j < n → r i < r j)
    (a : LoadArgs) (C G0 : Option (List Num)) (hre : reinterp R a = .ok (some ((List.range n).map r), C, G0))
    (hla : a.Lambda = some (.fin lam)) (hf : a.gamma_t_Ct = none) (hh : hist = h ++ [.loading a]) :
    let w := (WT.new R hub shaft vert U0 L gr M).run mini hist
    let s := w.e_shaft_g
    ∀ V, V = V3.norm w.U0_g → 0 < V →
    ((C = none ∧ G0 = some (farr n G)) ∨ ∃ c, C = some c ∧ wakeVorticityFromCt mini (farr n r) c (.fin R) (.fin V) (.fin (lam * V / R)) =
      wakeVorticityFromGamma (farr n r) (farr n G) (.fin R) (.fin V) (.fin (lam * V / R))) →
    (∀ i < n, A i = aOfCt (ctEff n (fun j => G j * (lam * V / R) / (π * V^2)) (fun j => lam * V / R * rcyl n r R j / V) i)) →
    o.ground.getD w.Ground = false → o.Model.getD w.Model = "VC" →
    ∀ chi, (w.computeU pts o).2.chi = some chi → ¬ (Num.fin 1e-7 < Num.abs chi) →
    ∃ u, (w.computeU pts o).1 = .ok u ∧ ∀ (i : ℕ) (p : V3 ℝ), pts[i]? = some p → ∃ v, u[i]? = some (V3.fin v) ∧
      (∀ k ≤ n, V3.dot (p - w.r_hub) s = 0 → (∀ j < n, 1e-8 * r j ≤ |axisDist s w.r_hub p - r j|) → (∀ j < k, r j < axisDist s w.r_hub p) → (∀ j < n, k ≤ j → axisDist s w.r_hub p < r j) →
        V3.dot (v - if o.only_ind then 0 else w.U0_g) s = -(if k < n then V * A k else 0)) ∧
      (∀ z, p = w.r_hub + V3.smul z s →
        v - (if o.only_ind then 0 else w.U0_g) = V3.smul (-V * ∑ j ∈ Finset.range n, (A j - (if j = n - 1 then 0 else A (j+1))) * (1 + z/√(z^2 + r j^2))) s) := by
  intro w s V hV hV0 hgc hA hg hM chi hchi hsk
  obtain ⟨w0, hw0⟩ : ∃ w0, w0 = (WT.new R hub shaft vert U0 L gr M).run mini h := ⟨_, rfl⟩
  have hw : w = (w0.updateLoading mini a).2 := by
    simp only [w]; rw [hh, run_append, ← hw0]; rfl
  have hfr := frame_run mini shaft vert R h _ (frame_new R hub shaft vert U0 L gr M)
  rw [← hw0] at hfr
  have hU0 : w.U0_g = w0.U0_g := by
    rw [hw]
    unfold WT.updateLoading
    simp only
    repeat' split
    all_goals rfl
  have hRw : w0.R = R := hfr.R
  have hVw : V3.norm w0.U0_g = V := by rw [← hU0, ← hV]
  obtain ⟨v, v1, v2, l, v3, v4⟩ := fromGamma_axial n r G R V (lam * V / R) (by omega) h0 hinc (by omega) hV0 (by positivity) (by
    rw [div_mul_cancel₀ _ hR.ne', mul_div_assoc, div_self hV0.ne', mul_one]; exact hl20) A hA
  obtain ⟨g1, g2, g3⟩ := loading_rings mini w0 (by rw [hRw]; exact hR) n r lam a C G0 v (by rw [hRw]; exact hre) hla hf (by
    rw [hRw, hVw]
    rcases hgc with ⟨c1, c2⟩ | ⟨c, c1, c2⟩
    · exact Or.inl ⟨c1, _, c2, v1⟩
    · exact Or.inr ⟨c, c1, c2.trans v1⟩)
  rw [← hw] at g1 g2 g3
  have hpos : ∀ i < n, 0 < r i := by
    intro i hi
    rcases Nat.eq_zero_or_pos i with rfl | h
    · exact h0
    · exact h0.trans (hinc 0 i h hi)
  rw [v2, ← farr_map] at g1
  obtain ⟨u, hu, H⟩ := axial_multi mini R hub shaft vert U0 L gr M ho hist pts hp o hnw hlo hro hta w rfl _ _ chi g1 (Or.inr ⟨l, by rw [g2, v3], by simpa using v4⟩) g3
    (by simp) (by simp; omega) (by
      intro x hx
      obtain ⟨j, hj, rfl⟩ := List.mem_map.mp hx
      exact hpos j (List.mem_range.mp hj)) hg hM hchi hsk
  refine ⟨u, hu, fun i p hpi => ?_⟩
  obtain ⟨x, x1, x2, x3⟩ := H i p hpi
  refine ⟨x, x1, ?_, ?_⟩
  · intro k hk hpl hb hk1 hk2
    rw [x2 hpl (by
      intro x hx
      obtain ⟨j, hj, rfl⟩ := List.mem_map.mp hx
      exact hb j (List.mem_range.mp hj))]
    exact outside_sum n k r A V _ hk hk1 hk2
  · intro z hz
    rw [x3 z hz, zip_range, List.map_map, sum_range_list, Finset.mul_sum]
    congr 1
    apply Finset.sum_congr rfl
    intro j _
    simp only [Function.comp_apply]
    ring

/-- C143: a turbine loaded with the circulations `G` of `n≥2` stations at a tip-speed ratio below 20 (any earlier history, straight wake). Between the stations `k-1` and `k` of the
rotor plane the air is slowed down along the shaft by exactly `|U0| a_k`, `a_k` being the momentum-theory (Spera beyond the critical thrust) induction of the effective thrust
coefficient of cylinder `k`; outside of all stations the rotor plane is not slowed down. On the shaft, `z` downstream of the hub, the velocity is along the shaft with the stated profile. -/
theorem C143_circulation (mini : (ℝ → Num) → ℝ) (R : ℝ) (hub shaft vert U0 : V3 ℝ) (L : Option Num) (gr : Bool)
    (M : String) (ho : Orthonormal shaft vert) (hR : 0 < R) (h : List Op) (pts : List (V3 ℝ)) (hp : pts ≠ []) (o : Opts) (hnw : o.no_wake = false)
    (hlo : o.longi = false) (hro : o.root = false) (hta : o.tang = true)
    (n : ℕ) (r G A : ℕ → ℝ) (lam : ℝ) (hl : 0 < lam) (hl20 : lam < 20) (hn : 2 ≤ n) (h0 : 0 < r 0) (hinc : ∀ i j, i < j → j < n → r i < r j) :
    let a : LoadArgs := { r := some ((List.range n).map r), Gamma := some ((List.range n).map fun i => .fin (G i)), Lambda := some (.fin lam), nCyl := none }
    let w := (WT.new R hub shaft vert U0 L gr M).run mini (h ++ [.loading a])
    let s := w.e_shaft_g
    ∀ V, V = V3.norm w.U0_g → 0 < V →
    (∀ i < n, A i = aOfCt (ctEff n (fun j => G j * (lam * V / R) / (π * V^2)) (fun j => lam * V / R * rcyl n r R j / V) i)) →
    o.ground.getD w.Ground = false → o.Model.getD w.Model = "VC" →
    ∀ chi, (w.computeU pts o).2.chi = some chi → ¬ (Num.fin 1e-7 < Num.abs chi) →
    ∃ u, (w.computeU pts o).1 = .ok u ∧ ∀ (i : ℕ) (p : V3 ℝ), pts[i]? = some p → ∃ v, u[i]? = some (V3.fin v) ∧
      (∀ k ≤ n, V3.dot (p - w.r_hub) s = 0 → (∀ j < n, 1e-8 * r j ≤ |axisDist s w.r_hub p - r j|) → (∀ j < k, r j < axisDist s w.r_hub p) → (∀ j < n, k ≤ j → axisDist s w.r_hub p < r j) →
        V3.dot (v - if o.only_ind then 0 else w.U0_g) s = -(if k < n then V * A k else 0)) ∧
      (∀ z, p = w.r_hub + V3.smul z s →
        v - (if o.only_ind then 0 else w.U0_g) = V3.smul (-V * ∑ j ∈ Finset.range n, (A j - (if j = n - 1 then 0 else A (j+1))) * (1 + z/√(z^2 + r j^2))) s) := by
  intro a w s V hV hV0 hA hg hM chi hchi hsk
  exact axial_loading mini R hub shaft vert U0 L gr M ho hR h _ pts hp o hnw hlo hro hta n r G A lam hl hl20 hn h0 hinc a none _ rfl rfl rfl rfl V hV hV0 (Or.inl ⟨rfl, rfl⟩) hA hg hM chi hchi hsk

/-- C143: the profile on the shaft rises from 0 far upstream to `a_0` at the hub and `2 a_0` far downstream. -/
theorem C143_profile (n : ℕ) (hn : 0 < n) (r A : ℕ → ℝ) (hr : ∀ i < n, 0 < r i) :
    let g := fun z : ℝ => ∑ j ∈ Finset.range n, (A j - (if j = n - 1 then 0 else A (j+1))) * (1 + z/√(z^2 + r j^2))
    Filter.Tendsto g Filter.atBot (nhds 0) ∧ g 0 = A 0 ∧ Filter.Tendsto g Filter.atTop (nhds (2 * A 0)) := by
  intro g
  have hsum : ∑ j ∈ Finset.range n, (A j - (if j = n - 1 then 0 else A (j+1))) = A 0 := by
    have h1 : ∑ j ∈ Finset.range n, (A j - (if j = n - 1 then 0 else A (j+1))) =
        ∑ j ∈ Finset.range n, ((fun j => if j < n then A j else 0) j - (fun j => if j < n then A j else 0) (j+1)) := by
      apply Finset.sum_congr rfl
      intro j hj
      have hj := Finset.mem_range.mp hj
      beta_reduce
      rw [if_pos hj]
      by_cases hl : j = n - 1
      · rw [if_pos hl, if_neg (by omega)]
      · rw [if_neg hl, if_pos (by omega)]
    rw [h1, Finset.sum_range_sub', if_pos hn, if_neg (lt_irrefl n), sub_zero]
  have hp : ∀ j ∈ Finset.range n, ∃ g : ℝ → ℝ, (g = fun z => 1 + z/√(z^2 + r j^2)) ∧ Filter.Tendsto g Filter.atBot (nhds 0) ∧ Filter.Tendsto g Filter.atTop (nhds 2) := by
    intro j hj
    have hrj := hr j (Finset.mem_range.mp hj)
    obtain ⟨f, -, f2, -, f4, f5⟩ := C48_profile (r j) hrj
    have hf : ∀ z, 2 * f z = 1 + z/√(z^2 + r j^2) := by
      intro z
      have e := f5 [⟨0,0,z⟩] 1 0 ⟨0,0,z⟩ rfl (by simp; positivity)
      rw [vcTang_axis [⟨0,0,z⟩] 1 (r j) hrj 0 ⟨0,0,z⟩ rfl (by simp; positivity)] at e
      have := congrArg V3.z (fin_inj3 _ _ (Option.some.inj e))
      simp only at this
      linarith
    refine ⟨_, rfl, ?_, ?_⟩
    · have := f2.const_mul 2
      rw [mul_zero] at this
      exact this.congr hf
    · have := f4.const_mul 2
      rw [mul_one] at this
      exact this.congr hf
  refine ⟨?_, ?_, ?_⟩
  · have : Filter.Tendsto g Filter.atBot (nhds (∑ j ∈ Finset.range n, (A j - (if j = n - 1 then 0 else A (j+1))) * 0)) := by
      apply tendsto_finsetSum
      intro j hj
      obtain ⟨f, rfl, f1, -⟩ := hp j hj
      exact f1.const_mul _
    simpa using this
  · simp only [g, zero_div, add_zero, mul_one]
    exact hsum
  · have : Filter.Tendsto g Filter.atTop (nhds (∑ j ∈ Finset.range n, (A j - (if j = n - 1 then 0 else A (j+1))) * 2)) := by
      apply tendsto_finsetSum
      intro j hj
      obtain ⟨f, rfl, -, f1⟩ := hp j hj
      exact f1.const_mul _
    rw [← Finset.sum_mul, hsum, mul_comm] at this
    exact this

/-- the default cylinders are outside of their stations and increase -/
theorem rcyl_outside (n : ℕ) (r : ℕ → ℝ) (R : ℝ) (hn : 2 ≤ n) (hinc : ∀ i j, i < j → j < n → r i < r j) :
    (∀ i < n, r i < rcyl n r R i) ∧ ∀ i, i + 1 < n → rcyl n r R i < rcyl n r R (i+1) := by
  have hlast := hinc (n-2) (n-1) (by omega) (by omega)
  refine ⟨?_, ?_⟩
  · intro i hi
    unfold rcyl
    rw [if_neg (by omega)]
    split_ifs with h
    · rw [h]; linarith
    · have := hinc i (i+1) (by omega) (by omega)
      linarith
  · intro i hi
    have h1 := hinc i (i+1) (by omega) hi
    unfold rcyl
    rw [if_neg (by omega), if_neg (by omega), if_neg (by omega)]
    split_ifs with h
    · rw [← h, show n - 2 = i by omega]; linarith
    · have := hinc (i+1) (i+1+1) (by omega) (by omega)
      linarith

/-- the effective thrust coefficient of the program when the circulations reproduce the thrust `c` at the stations -/
theorem ctEff_of_thrust (n : ℕ) (r K c : ℕ → ℝ) (R lam : ℝ) (k : ℕ) (e : K k * (1 + K k / (4 * (lam * r k / R)^2)) = c k) :
    ctEff n K (fun j => lam * rcyl n r R j / R) k = c k - (K k)^2/4 * (1/(lam * r k / R)^2 - 1/(lam * rcyl n r R k / R)^2) -
      ∑ j ∈ Finset.Ico (k+1) (n-1), (K (j+1)/2)^2 * (1/(lam * rcyl n r R j / R)^2 - 1/(lam * rcyl n r R (j+1) / R)^2) := by
  unfold ctEff ctRot ctKJ
  beta_reduce
  rw [← e]
  generalize (∑ j ∈ Finset.Ico (k+1) (n-1), (K (j+1)/2)^2 * (1/(lam * rcyl n r R j / R)^2 - 1/(lam * rcyl n r R (j+1) / R)^2)) = S
  generalize lam * r k / R = x
  generalize lam * rcyl n r R k / R = y
  ring

/-- C143, whatever way the thrust coefficients reach the solver -/
theorem thrust_axial (mini : (ℝ → Num) → ℝ) (R : ℝ) (hub shaft vert U0 : V3 ℝ) (L : Option Num) (gr : Bool)
    (M : String) (ho : Orthonormal shaft vert) (hR : 0 < R) (h : List Op) (pts : List (V3 ℝ)) (hp : pts ≠ []) (o : Opts) (hnw : o.no_wake = false)
    (hlo : o.longi = false) (hro : o.root = false) (hta : o.tang = true)
    (n : ℕ) (r c K E : ℕ → ℝ) (lam : ℝ) (hl : 0 < lam) (hl20 : lam < 20) (hn : 2 ≤ n) (h0 : 0 < r 0) (hinc : ∀ i j, i < j → j < n → r i < r j)
    (hc : ∀ i < n, 0 < c i) (hK : ∀ i, K i = mini (fun k => .fin |k * (1 + k / (4 * (lam * r i / R)^2)) - c i|))
    (hmin : ∀ i < n, 0 ≤ K i ∧ K i * (1 + K i / (4 * (lam * r i / R)^2)) = c i)
    (hE : ∀ k < n, E k = c k - (K k)^2/4 * (1/(lam * r k / R)^2 - 1/(lam * rcyl n r R k / R)^2) -
      ∑ j ∈ Finset.Ico (k+1) (n-1), (K (j+1)/2)^2 * (1/(lam * rcyl n r R j / R)^2 - 1/(lam * rcyl n r R (j+1) / R)^2))
    (hist : List Op) (a : LoadArgs) (hre : reinterp R a = .ok (some ((List.range n).map r), some (farr n c), none)) (hla : a.Lambda = some (.fin lam)) (hf : a.gamma_t_Ct = none) (hh : hist = h ++ [.loading a]) :
    let w := (WT.new R hub shaft vert U0 L gr M).run mini hist
    let s := w.e_shaft_g
    ∀ V, V = V3.norm w.U0_g → 0 < V → o.ground.getD w.Ground = false → o.Model.getD w.Model = "VC" →
    ∀ chi, (w.computeU pts o).2.chi = some chi → ¬ (Num.fin 1e-7 < Num.abs chi) →
    ∃ u, (w.computeU pts o).1 = .ok u ∧ ∀ (i : ℕ) (p : V3 ℝ), pts[i]? = some p → ∃ v, u[i]? = some (V3.fin v) ∧
      ∀ k ≤ n, V3.dot (p - w.r_hub) s = 0 → (∀ j < n, 1e-8 * r j ≤ |axisDist s w.r_hub p - r j|) → (∀ j < k, r j < axisDist s w.r_hub p) → (∀ j < n, k ≤ j → axisDist s w.r_hub p < r j) →
        V3.dot (v - if o.only_ind then 0 else w.U0_g) s = -(if k < n then V * aOfCt (E k) else 0) ∧ (k < n → E k < c k ∧ aOfCt (E k) < aOfCt (c k)) := by
  intro w s V hV hV0 hg hM chi hchi hsk
  have hpos : ∀ i < n, 0 < r i := by
    intro i hi
    rcases Nat.eq_zero_or_pos i with rfl | h
    · exact h0
    · exact h0.trans (hinc 0 i h hi)
  obtain ⟨o1, o2⟩ := rcyl_outside n r R hn hinc
  have hsq : ∀ x y : ℝ, 0 < x → x < y → 1/(lam * y / R)^2 < 1/(lam * x / R)^2 := by
    intro x y hx hxy
    apply one_div_lt_one_div_of_lt
    · positivity
    · apply pow_lt_pow_left₀ _ (by positivity) two_ne_zero
      gcongr
  have hlt : ∀ k < n, E k < c k := by
    intro k hk
    rw [hE k hk]
    have t1 : 0 < (K k)^2/4 * (1/(lam * r k / R)^2 - 1/(lam * rcyl n r R k / R)^2) := by
      have hK0 : K k ≠ 0 := by
        intro h
        have := (hmin k hk).2
        rw [h, zero_mul] at this
        exact (hc k hk).ne this
      have := hsq _ _ (hpos k hk) (o1 k hk)
      apply mul_pos
      · positivity
      · linarith
    have t2 : 0 ≤ ∑ j ∈ Finset.Ico (k+1) (n-1), (K (j+1)/2)^2 * (1/(lam * rcyl n r R j / R)^2 - 1/(lam * rcyl n r R (j+1) / R)^2) := by
      apply Finset.sum_nonneg
      intro j hj
      have hj := Finset.mem_Ico.mp hj
      have := hsq _ _ ((hpos j (by omega)).trans (o1 j (by omega))) (o2 j (by omega))
      apply mul_nonneg
      · positivity
      · linarith
    linarith
  obtain ⟨G, hG⟩ : ∃ G : ℕ → ℝ, ∀ i, G i = K i * π * V^2 / (lam * V / R) := ⟨_, fun _ => rfl⟩
  have hGK : (fun j => G j * (lam * V / R) / (π * V^2)) = K := by
    funext j
    rw [hG]
    have := pi_pos
    field_simp
  have hlm : (fun j => lam * V / R * rcyl n r R j / V) = fun j => lam * rcyl n r R j / R := by
    funext j
    field_simp
  obtain ⟨u, hu, H⟩ := axial_loading mini R hub shaft vert U0 L gr M ho hR h _ pts hp o hnw hlo hro hta n r G (fun k => aOfCt (E k)) lam hl hl20 hn h0 hinc a _ none hre hla hf hh V hV hV0
    (Or.inr ⟨_, rfl, fromCt_fromGamma mini n r c G R V (lam * V / R) lam hR hV0 hl hl20 rfl hpos hc (fun i => by rw [hG, hK])⟩)
    (fun i hi => by rw [hGK, hlm, ctEff_of_thrust n r K c R lam i (hmin i hi).2, hE i hi]) hg hM chi hchi hsk
  refine ⟨u, hu, fun i p hpi => ?_⟩
  obtain ⟨v, v1, v2, -⟩ := H i p hpi
  refine ⟨v, v1, fun k hk hpl hb hk1 hk2 => ⟨v2 k hk hpl hb hk1 hk2, fun hkn => ⟨hlt k hkn, ?_⟩⟩⟩
  exact C29_monotone_continuous.2.1 (hlt k hkn)

/-- C143: a turbine loaded with positive thrust coefficients `c` of `n≥2` stations (tip-speed ratio below 20, exact minimiser). The air in the rotor plane between the stations `k-1` and `k`
is slowed down by `|U0| a` with the momentum-theory (Spera) induction `a` of `E_k`: the prescribed thrust coefficient minus the thrust lost by evaluating the circulation at the cylinder
(outside of the station) minus the thrust lost in the rotation of the wake outboard. `E_k` is strictly smaller than the prescribed thrust coefficient at every station, the
outermost included, so the slow-down is always strictly smaller than momentum theory gives for the prescribed thrust. -/
theorem C143_thrust (mini : (ℝ → Num) → ℝ) (R : ℝ) (hub shaft vert U0 : V3 ℝ) (L : Option Num) (gr : Bool)
    (M : String) (ho : Orthonormal shaft vert) (hR : 0 < R) (h : List Op) (pts : List (V3 ℝ)) (hp : pts ≠ []) (o : Opts) (hnw : o.no_wake = false)
    (hlo : o.longi = false) (hro : o.root = false) (hta : o.tang = true)
    (n : ℕ) (r c K E : ℕ → ℝ) (lam : ℝ) (hl : 0 < lam) (hl20 : lam < 20) (hn : 2 ≤ n) (h0 : 0 < r 0) (hinc : ∀ i j, i < j → j < n → r i < r j)
    (hc : ∀ i < n, 0 < c i) (hK : ∀ i, K i = mini (fun k => .fin |k * (1 + k / (4 * (lam * r i / R)^2)) - c i|))
    (hmin : ∀ i < n, 0 ≤ K i ∧ K i * (1 + K i / (4 * (lam * r i / R)^2)) = c i)
    (hE : ∀ k < n, E k = c k - (K k)^2/4 * (1/(lam * r k / R)^2 - 1/(lam * rcyl n r R k / R)^2) -
      ∑ j ∈ Finset.Ico (k+1) (n-1), (K (j+1)/2)^2 * (1/(lam * rcyl n r R j / R)^2 - 1/(lam * rcyl n r R (j+1) / R)^2)) :
    let a : LoadArgs := { r := some ((List.range n).map r), Ct := some ((List.range n).map fun i => .fin (c i)), Lambda := some (.fin lam), nCyl := none }
    let w := (WT.new R hub shaft vert U0 L gr M).run mini (h ++ [.loading a])
    let s := w.e_shaft_g
    ∀ V, V = V3.norm w.U0_g → 0 < V → o.ground.getD w.Ground = false → o.Model.getD w.Model = "VC" →
    ∀ chi, (w.computeU pts o).2.chi = some chi → ¬ (Num.fin 1e-7 < Num.abs chi) →
    ∃ u, (w.computeU pts o).1 = .ok u ∧ ∀ (i : ℕ) (p : V3 ℝ), pts[i]? = some p → ∃ v, u[i]? = some (V3.fin v) ∧
      ∀ k ≤ n, V3.dot (p - w.r_hub) s = 0 → (∀ j < n, 1e-8 * r j ≤ |axisDist s w.r_hub p - r j|) → (∀ j < k, r j < axisDist s w.r_hub p) → (∀ j < n, k ≤ j → axisDist s w.r_hub p < r j) →
        V3.dot (v - if o.only_ind then 0 else w.U0_g) s = -(if k < n then V * aOfCt (E k) else 0) ∧ (k < n → E k < c k ∧ aOfCt (E k) < aOfCt (c k)) :=
  thrust_axial mini R hub shaft vert U0 L gr M ho hR h pts hp o hnw hlo hro hta n r c K E lam hl hl20 hn h0 hinc hc hK hmin hE _ _ rfl rfl rfl rfl

/-- C143 with the thrust coefficients given at any radii and spread by the program over `nCyl=n≥2` stations between 0.5% and 99.5% of the radius: the same, the thrust coefficient of a
station being the value of the piecewise-linear function through the given samples. -/
theorem C143_spread (mini : (ℝ → Num) → ℝ) (R : ℝ) (hub shaft vert U0 : V3 ℝ) (L : Option Num) (gr : Bool)
    (M : String) (ho : Orthonormal shaft vert) (hR : 0 < R) (h : List Op) (pts : List (V3 ℝ)) (hp : pts ≠ []) (o : Opts) (hnw : o.no_wake = false)
    (hlo : o.longi = false) (hro : o.root = false) (hta : o.tang = true)
    (n : ℕ) (r Ct : List ℝ) (hr : r ≠ []) (hincr : r.Pairwise (· < ·)) (hlen : Ct.length = r.length) (T : ℝ → ℝ) (hT : Interpolates r Ct T)
    (x : ℕ → ℝ) (hx : ∀ i, x i = (0.005 + i * (0.99 / ((n:ℝ) - 1))) * R) (K E : ℕ → ℝ) (lam : ℝ) (hl : 0 < lam) (hl20 : lam < 20) (hn : 2 ≤ n)
    (hc : ∀ i < n, 0 < T (x i)) (hK : ∀ i, K i = mini (fun k => .fin |k * (1 + k / (4 * (lam * x i / R)^2)) - T (x i)|))
    (hmin : ∀ i < n, 0 ≤ K i ∧ K i * (1 + K i / (4 * (lam * x i / R)^2)) = T (x i))
    (hE : ∀ k < n, E k = T (x k) - (K k)^2/4 * (1/(lam * x k / R)^2 - 1/(lam * rcyl n x R k / R)^2) -
      ∑ j ∈ Finset.Ico (k+1) (n-1), (K (j+1)/2)^2 * (1/(lam * rcyl n x R j / R)^2 - 1/(lam * rcyl n x R (j+1) / R)^2)) :
    let a : LoadArgs := { r := some r, Ct := some (Ct.map .fin), Lambda := some (.fin lam), nCyl := some n }
    let w := (WT.new R hub shaft vert U0 L gr M).run mini (h ++ [.loading a])
    let s := w.e_shaft_g
    ∀ V, V = V3.norm w.U0_g → 0 < V → o.ground.getD w.Ground = false → o.Model.getD w.Model = "VC" →
    ∀ chi, (w.computeU pts o).2.chi = some chi → ¬ (Num.fin 1e-7 < Num.abs chi) →
    ∃ u, (w.computeU pts o).1 = .ok u ∧ ∀ (i : ℕ) (p : V3 ℝ), pts[i]? = some p → ∃ v, u[i]? = some (V3.fin v) ∧
      ∀ k ≤ n, V3.dot (p - w.r_hub) s = 0 → (∀ j < n, 1e-8 * x j ≤ |axisDist s w.r_hub p - x j|) → (∀ j < k, x j < axisDist s w.r_hub p) → (∀ j < n, k ≤ j → axisDist s w.r_hub p < x j) →
        V3.dot (v - if o.only_ind then 0 else w.U0_g) s = -(if k < n then V * aOfCt (E k) else 0) ∧ (k < n → E k < T (x k) ∧ aOfCt (E k) < aOfCt (T (x k))) := by
  obtain ⟨-, s2, s3⟩ := stations n hn R hR
  exact thrust_axial mini R hub shaft vert U0 L gr M ho hR h pts hp o hnw hlo hro hta n x (fun i => T (x i)) K E lam hl hl20 hn (by rw [hx]; exact s2)
    (fun i j hij hj => by rw [hx, hx]; exact s3 i j hij hj) hc hK hmin hE _ _ (spread_reinterp R hR n hn r Ct hr hincr hlen T hT _ x hx) rfl rfl rfl

/-- a concrete case: two stations at 20 m and 40 m of a 50 m rotor, tip-speed ratio 5, circulations giving `k=1/2` and `k=3/4`, any minimiser: outside of the stations the rotor plane is not
slowed down, 30 m from the shaft it is by the induction of the thrust `3/4(1+3/4/(4·5²))` of the outer cylinder (at 50 m) -/
example (mini : (ℝ → Num) → ℝ) :
    let w := (WT.new 50 ⟨1,2,3⟩ ⟨0,0,1⟩ ⟨0,1,0⟩ ⟨0,0,10⟩ none false "VC").run mini
      ([.chi (some 0)] ++ [.loading { r := some ((List.range 2).map fun i : ℕ => 20 * ((i:ℝ) + 1)), Gamma := some ((List.range 2).map fun i : ℕ => Num.fin (π * 100 * (1/2 + (i:ℝ)/4))), Lambda := some (.fin 5), nCyl := none }])
    ∃ u, (w.computeU [⟨31,2,3⟩, ⟨61,2,3⟩] {}).1 = .ok u ∧ ∃ v v', u[0]? = some (V3.fin v) ∧ u[1]? = some (V3.fin v') ∧
      V3.dot (v - ⟨0,0,10⟩) ⟨0,0,1⟩ = -(10 * aOfCt (3/4 * (1 + 3/4/(4*5^2)))) ∧ V3.dot (v' - ⟨0,0,10⟩) ⟨0,0,1⟩ = 0 := by
  intro w
  have hn : V3.norm (⟨0,0,10⟩ : V3 ℝ) = 10 := by unfold V3.norm; simp
  have hw : w = (WT.new 50 ⟨1,2,3⟩ ⟨0,0,1⟩ ⟨0,1,0⟩ ⟨0,0,10⟩ none false "VC").run mini
      ([.chi (some 0)] ++ [.loading { r := some ((List.range 2).map fun i : ℕ => 20 * ((i:ℝ) + 1)), Gamma := some ((List.range 2).map fun i : ℕ => Num.fin (π * 100 * (1/2 + (i:ℝ)/4))), Lambda := some (.fin 5), nCyl := none }]) := rfl
  clear_value w
  obtain ⟨e1, e2, -, -, e5, -, -, -, -, -, e11, e12, e13, e14⟩ := loading_frame mini
    ((WT.new 50 ⟨1,2,3⟩ ⟨0,0,1⟩ ⟨0,1,0⟩ ⟨0,0,10⟩ none false "VC").run mini [.chi (some 0)])
    { r := some ((List.range 2).map fun i : ℕ => 20 * ((i:ℝ) + 1)), Gamma := some ((List.range 2).map fun i : ℕ => Num.fin (π * 100 * (1/2 + (i:ℝ)/4))), Lambda := some (.fin 5), nCyl := none }
  have f2 : w.r_hub = ⟨1,2,3⟩ := by rw [hw]; exact e2
  have f5 : w.e_shaft_g = ⟨0,0,1⟩ := by
    rw [hw]
    refine e5.trans ?_
    have := (frame_run mini ⟨0,0,1⟩ ⟨0,1,0⟩ 50 [.chi (some 0)] _ (frame_new 50 ⟨1,2,3⟩ ⟨0,0,1⟩ ⟨0,1,0⟩ ⟨0,0,10⟩ none false "VC")).e_shaft_g
    rw [turn_eq] at this
    refine this.trans ?_
    change turn _ 0 _ = _
    unfold turn
    ext <;> simp
  have f11 : w.U0_g = ⟨0,0,10⟩ := by rw [hw]; exact e11
  have f12 : w.Ground = false := by rw [hw]; exact e12
  have f13 : w.chi = some 0 := by rw [hw]; exact e13
  have f14 : w.Model = "VC" := by rw [hw]; exact e14
  have H := C143_circulation mini 50 ⟨1,2,3⟩ ⟨0,0,1⟩ ⟨0,1,0⟩ ⟨0,0,10⟩ none false "VC" ⟨by simp [V3.dot], by simp [V3.dot], by simp [V3.dot]⟩ (by norm_num)
    [.chi (some 0)] [⟨31,2,3⟩, ⟨61,2,3⟩] (by simp) {} rfl rfl rfl rfl 2 (fun i => 20 * ((i:ℝ) + 1)) (fun i => π * 100 * (1/2 + (i:ℝ)/4))
    (fun i => aOfCt (ctEff 2 (fun j => (π*100*(1/2+(j:ℝ)/4)) * (5*10/50)/(π*10^2)) (fun j => 5*10/50 * rcyl 2 (fun i => 20*((i:ℝ)+1)) 50 j/10) i)) 5 (by norm_num) (by norm_num) le_rfl (by norm_num)
    (fun i j hij _ => by have : (i:ℝ) < j := by exact_mod_cast hij
                         linarith)
  simp only [← hw] at H
  obtain ⟨u, hu, H⟩ := H 10 (by rw [f11, hn]) (by norm_num) (fun i _ => rfl) (by rw [f12]; rfl) (by rw [f14]; rfl) 0
    (by rw [computeU_state]; change some (match w.chi with | some c => c | none => w.chiAuto) = _; rw [f13])
    (by simp [Num.abs_fin, Num.zero_def, Num.lt_fin]; norm_num)
  have hs : ∀ x : ℝ, 0 ≤ x → axisDist ⟨0,0,1⟩ ⟨1,2,3⟩ ⟨1+x,2,3⟩ = x := by
    intro x hx
    unfold axisDist V3.norm V3.cross
    simp [sqrt_sq hx]
  have h30 := hs 30 (by norm_num)
  have h60 := hs 60 (by norm_num)
  norm_num at h30 h60
  rw [f2, f5, f11] at H
  obtain ⟨v, v1, v2, -⟩ := H 0 ⟨31,2,3⟩ rfl
  obtain ⟨v', v1', v2', -⟩ := H 1 ⟨61,2,3⟩ rfl
  have k1 := v2 1 (by norm_num) (by simp [V3.dot]) (by
      intro j hj
      rw [h30]
      rcases (by omega : j = 0 ∨ j = 1) with h | h <;> subst h <;> norm_num) (by
      intro j hj
      have : j = 0 := by omega
      subst this; rw [h30]; norm_num) (by
      intro j h1 h2
      have : j = 1 := by omega
      subst this; rw [h30]; norm_num)
  have k2 := v2' 2 le_rfl (by simp [V3.dot]) (by
      intro j hj
      rw [h60]
      rcases (by omega : j = 0 ∨ j = 1) with h | h <;> subst h <;> norm_num) (by
      intro j hj
      rw [h60]
      rcases (by omega : j = 0 ∨ j = 1) with h | h <;> subst h <;> norm_num) (by intro j h1 h2; omega)
  refine ⟨u, hu, v, v', v1, v1', k1.trans ?_, k2.trans ?_⟩
  · rw [if_pos (by norm_num)]
    congr 2
    unfold ctEff ctRot ctKJ rcyl
    have := pi_pos
    simp
    field_simp
    norm_num
  · simp

end
end Wiz
