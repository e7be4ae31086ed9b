import Verif.Props.CylinderAccuracy2
import Verif.Lemmas.FlowTurbine
import Verif.Props.BlockageFarm
/-! # C119 for several cylinders, several rotors and ground effect -/
namespace Wiz
open Spec Classical
noncomputable section

/-- `v` is close to `F`: within `1e-7·g` transversally and `3%·g` axially -/
def Near3 (g : ℝ) (F v : V3 ℝ) : Prop :=
  |v.x - F.x| ≤ 1e-7*g ∧ |v.y - F.y| ≤ 1e-7*g ∧ |v.z - F.z| ≤ 3/100*g

theorem near3_zero : Near3 0 0 0 := by simp [Near3]

theorem near3_add {g g' : ℝ} {F F' v v' : V3 ℝ} (h : Near3 g F v) (h' : Near3 g' F' v') : Near3 (g + g') (F + F') (v + v') := by
  obtain ⟨a, b, c⟩ := h
  obtain ⟨a', b', c'⟩ := h'
  rw [abs_le] at *
  simp only [Near3, abs_le, V3.add_x, V3.add_y, V3.add_z]
  refine ⟨⟨?_, ?_⟩, ⟨?_, ?_⟩, ⟨?_, ?_⟩⟩ <;> linarith [a.1, a.2, b.1, b.2, c.1, c.2]

theorem near3_sum {α : Type} (l : List α) (X : α → V3 Num) (F : α → V3 ℝ) (g : α → ℝ)
    (h : ∀ c ∈ l, ∃ v, X c = V3.fin v ∧ Near3 (g c) (F c) v) :
    ∃ v, (l.map X).sum = V3.fin v ∧ Near3 (l.map g).sum (l.map F).sum v := by
  induction l with
  | nil => exact ⟨0, rfl, near3_zero⟩
  | cons a l ih =>
    obtain ⟨v, hv, n⟩ := ih fun c hc => h c (List.mem_cons_of_mem _ hc)
    obtain ⟨v', hv', n'⟩ := h a List.mem_cons_self
    refine ⟨v' + v, ?_, ?_⟩
    · simp only [List.map_cons, List.sum_cons, hv, hv']; ext <;> simp
    · simp only [List.map_cons, List.sum_cons]; exact near3_add n' n

theorem cylinderField_zero (R : ℝ) (p : V3 ℝ) : cylinderField 0 R p = 0 := by
  have h : ∀ q, ringField 0 R q = 0 := by
    intro q; have := ringField_smul 0 0 R q; simp only [zero_mul] at this; rw [this]; ext <;> simp [V3.smul]
  unfold cylinderField
  simp only [h]
  unfold vint
  ext <;> simp

/-- one bundle of cylinders centred at the same place -/
theorem near3_bundle (Y : List (V3 ℝ)) (i : ℕ) (q : V3 ℝ) (hi : Y[i]? = some q) (cy : List (ℝ × ℝ))
    (hcy : ∀ c ∈ cy, c.1 ≠ 0 → 0 < c.2 ∧ √(q.x^2 + q.y^2) ≠ c.2 ∧ ¬ (|√(q.x^2 + q.y^2) - c.2| < 1e-8 * c.2 ∧ |q.z| < 1e-8 * c.2)) :
    ∃ v, (((cy.map fun c => (Num.fin c.1, c.2)).filter fun c => 0 < Num.abs c.1).map fun c => (vcTang Y c.1 c.2 0).getD i 0).sum = V3.fin v ∧
      Near3 (cy.map fun c => |c.1|).sum (cy.map fun c => cylinderField c.1 c.2 q).sum v := by
  induction cy with
  | nil => exact ⟨0, rfl, near3_zero⟩
  | cons c cy ih =>
    obtain ⟨v, hv, n⟩ := ih fun c hc => hcy c (List.mem_cons_of_mem _ hc)
    simp only [List.map_cons, List.sum_cons, List.filter_cons]
    by_cases h0 : c.1 = 0
    · refine ⟨v, ?_, ?_⟩
      · rw [if_neg (by rw [h0]; simp)]; exact hv
      · rw [h0, cylinderField_zero, abs_zero, zero_add, zero_add3]; exact n
    · obtain ⟨h1, h2, h3⟩ := hcy c List.mem_cons_self h0
      obtain ⟨v', hv', a1, a2, a3⟩ := C119_batch Y c.1 c.2 h1 i q hi h2 h3
      refine ⟨v' + v, ?_, near3_add ⟨a1, a2, a3⟩ n⟩
      rw [if_pos (by simpa using h0)]
      simp only [List.map_cons, List.sum_cons]
      rw [hv, List.getD_eq_getElem?_getD, hv']
      ext <;> simp

/-- C119 for `vcs_tang_u`: for every number of rotors, every number of cylinders per rotor, with and without ground effect, the velocity
returned at a point off the edges and surfaces of the cylinders is within 3% of `Σ|γ|` (axially; `1e-7·Σ|γ|` transversally) of the sum of
the Biot–Savart fields of the cylinders and, with ground effect, of their images below the ground. -/
theorem C119_multi (pts : List (V3 ℝ)) (rotors : List (V3 ℝ × List (ℝ × ℝ))) (Ground : Bool) (i : ℕ) (p : V3 ℝ) (hi : pts[i]? = some p)
    (image : V3 ℝ → V3 ℝ) (himage : ∀ c, image c = ⟨c.x, -c.y, c.z⟩)
    (all : List (V3 ℝ × ℝ × ℝ))
    (hall : all = rotors.flatMap fun g => g.2.map (fun c => (g.1, c.1, c.2)) ++ if Ground then g.2.map (fun c => (image g.1, c.1, c.2)) else [])
    (hoff : ∀ c ∈ all, c.2.1 ≠ 0 → ∀ q, q = p - c.1 → 0 < c.2.2 ∧ √(q.x^2 + q.y^2) ≠ c.2.2 ∧
      ¬ (|√(q.x^2 + q.y^2) - c.2.2| < 1e-8 * c.2.2 ∧ |q.z| < 1e-8 * c.2.2)) :
    ∃ u F : V3 ℝ, (vcsTang pts (rotors.map fun g => ⟨g.1, g.2.map fun c => (Num.fin c.1, c.2)⟩) 0 Ground)[i]? = some (V3.fin u) ∧
      F = (all.map fun c => cylinderField c.2.1 c.2.2 (p - c.1)).sum ∧
      |u.x - F.x| ≤ 1e-7 * (all.map fun c => |c.2.1|).sum ∧ |u.y - F.y| ≤ 1e-7 * (all.map fun c => |c.2.1|).sum ∧
      |u.z - F.z| ≤ 3/100 * (all.map fun c => |c.2.1|).sum := by
  subst hall
  obtain ⟨hl, hs⟩ := C50_tang_sum pts (rotors.map fun g => ⟨g.1, g.2.map fun c => (Num.fin c.1, c.2)⟩) 0 Ground
  have key : ∃ v, ((rotors.map fun g => (⟨g.1, g.2.map fun c => (Num.fin c.1, c.2)⟩ : CylGroup)).map fun g =>
        ((g.cyls.filter fun c => 0 < Num.abs c.1).map fun c =>
          (vcTang (pts.map fun p => p - g.pos) c.1 c.2 0).getD i 0).sum +
        (if Ground then ((g.cyls.filter fun c => 0 < Num.abs c.1).map fun c =>
          (vcTang (pts.map fun p => p - ⟨g.pos.x, -g.pos.y, g.pos.z⟩) c.1 c.2 0).getD i 0).sum else 0)).sum = V3.fin v ∧
      Near3 ((rotors.flatMap fun g => g.2.map (fun c => (g.1, c.1, c.2)) ++ if Ground then g.2.map (fun c => (image g.1, c.1, c.2)) else []).map fun c => |c.2.1|).sum
        ((rotors.flatMap fun g => g.2.map (fun c => (g.1, c.1, c.2)) ++ if Ground then g.2.map (fun c => (image g.1, c.1, c.2)) else []).map fun c => cylinderField c.2.1 c.2.2 (p - c.1)).sum v := by
    clear hs hl
    induction rotors with
    | nil => exact ⟨0, rfl, near3_zero⟩
    | cons g rotors ih =>
      simp only [List.flatMap_cons, List.map_cons, List.sum_cons, List.map_append, List.sum_append] at ih hoff ⊢
      obtain ⟨v, hv, n⟩ := ih fun c hc => hoff c (List.mem_append_right _ hc)
      have hb : ∀ c0 : V3 ℝ, (∀ c ∈ g.2, (c0, c.1, c.2) ∈ g.2.map (fun c => (g.1, c.1, c.2)) ++ if Ground then g.2.map (fun c => (image g.1, c.1, c.2)) else []) →
          ∃ v, (((g.2.map fun c => (Num.fin c.1, c.2)).filter fun c => 0 < Num.abs c.1).map fun c => (vcTang (pts.map fun p => p - c0) c.1 c.2 0).getD i 0).sum = V3.fin v ∧
            Near3 (g.2.map fun c => |c.1|).sum (g.2.map fun c => cylinderField c.1 c.2 (p - c0)).sum v := fun c0 hm =>
        near3_bundle (pts.map fun p => p - c0) i (p - c0) (by rw [List.getElem?_map, hi]; rfl) g.2 fun c hc h0 =>
          hoff (c0, c.1, c.2) (List.mem_append_left _ (hm c hc)) h0 _ rfl
      obtain ⟨v1, hv1, n1⟩ := hb g.1 fun c hc => List.mem_append_left _ (List.mem_map_of_mem hc)
      rw [hv, hv1]
      cases hG : Ground
      · subst hG
        refine ⟨v1 + v, by ext <;> simp, ?_⟩
        simp only [Bool.false_eq_true, if_false, List.map_nil, List.sum_nil, add_zero, List.map_map] at n ⊢
        have h0 : ∀ x : V3 ℝ, x + 0 = x := fun x => by ext <;> simp
        refine near3_add ?_ n
        simpa [Function.comp_def, h0] using n1
      · subst hG
        obtain ⟨v2, hv2, n2⟩ := hb (image g.1) fun c hc => List.mem_append_right _ (by rw [if_pos rfl]; exact List.mem_map_of_mem (f := fun c : ℝ × ℝ => (image g.1, c.1, c.2)) hc)
        rw [himage] at hv2
        rw [if_pos rfl, hv2]
        refine ⟨v1 + v2 + v, by ext <;> simp, ?_⟩
        simp only [if_true, List.map_map] at n ⊢
        refine near3_add (near3_add ?_ ?_) n
        · exact n1
        · exact n2
  obtain ⟨v, hv, n1, n2, n3⟩ := key
  have hil : i < pts.length := by
    by_contra h
    rw [List.getElem?_eq_none (by omega)] at hi; exact nomatch hi
  have hget := hs i
  rw [hv, List.getD_eq_getElem?_getD, List.getElem?_eq_getElem (by omega)] at hget
  refine ⟨v, _, ?_, rfl, n1, n2, n3⟩
  rw [List.getElem?_eq_getElem (by omega)]
  exact congrArg some hget

/-- the hypotheses of `C119_multi` are met: two rotors, the first with two cylinders, ground effect, one point upstream -/
example : ∀ c ∈ ([((⟨0,10,0⟩ : V3 ℝ), [((-1:ℝ), (5:ℝ)), (-1/2, 3)]), (⟨20,10,0⟩, [(-1, 5)])] : List (V3 ℝ × List (ℝ × ℝ))).flatMap
      (fun g => g.2.map (fun c => (g.1, c.1, c.2)) ++ if true then g.2.map (fun c => ((⟨g.1.x, -g.1.y, g.1.z⟩ : V3 ℝ), c.1, c.2)) else []),
    c.2.1 ≠ 0 → ∀ q : V3 ℝ, q = ⟨0, 10, -7⟩ - c.1 → 0 < c.2.2 ∧ √(q.x^2 + q.y^2) ≠ c.2.2 ∧
      ¬ (|√(q.x^2 + q.y^2) - c.2.2| < 1e-8 * c.2.2 ∧ |q.z| < 1e-8 * c.2.2) := by
  have key : ∀ (a b R : ℝ), 0 < R → R < 6 → a^2 + b^2 ≠ R^2 → ∀ q : V3 ℝ, q = ⟨a, b, -7⟩ → 0 < R ∧ √(q.x^2 + q.y^2) ≠ R ∧
      ¬ (|√(q.x^2 + q.y^2) - R| < 1e-8 * R ∧ |q.z| < 1e-8 * R) := by
    intro a b R h1 h2 h3 q hq
    subst hq
    refine ⟨h1, fun h => h3 ?_, fun h => ?_⟩
    · rw [← h, Real.sq_sqrt (by positivity)]
    · have := h.2
      simp only [abs_neg] at this
      rw [abs_of_pos (by norm_num)] at this
      norm_num at this
      linarith
  intro c hc _ q hq
  simp at hc
  rcases hc with rfl | rfl | rfl | rfl | rfl | rfl <;> subst hq
  · exact key 0 0 5 (by norm_num) (by norm_num) (by norm_num) _ (by ext <;> simp)
  · exact key 0 0 3 (by norm_num) (by norm_num) (by norm_num) _ (by ext <;> simp)
  · exact key 0 20 5 (by norm_num) (by norm_num) (by norm_num) _ (by ext <;> simp <;> norm_num)
  · exact key 0 20 3 (by norm_num) (by norm_num) (by norm_num) _ (by ext <;> simp <;> norm_num)
  · exact key (-20) 0 5 (by norm_num) (by norm_num) (by norm_num) _ (by ext <;> simp)
  · exact key (-20) 20 5 (by norm_num) (by norm_num) (by norm_num) _ (by ext <;> simp <;> norm_num)

/-- C119 for a turbine with any number of cylinders, straight wake, with or without ground effect: `compute_u` is the free stream (unless
`only_ind`) plus, in rotor axes, the Biot–Savart fields of the cylinders centred at the hub and, with ground effect, at its image under the
ground, up to an error below 3% of `Σ|γ_j|` per centre along the shaft and `1e-7·Σ|γ_j|` across it. -/
theorem C119_turbine_multi (mini : (ℝ → Num) → ℝ) (R : ℝ) (hub shaft vert U0 : V3 ℝ) (L : Option Num) (G : Bool)
    (M : String) (ho : Orthonormal shaft vert) (h : List Op) (pts : List (V3 ℝ)) (hp : pts ≠ []) (o : Opts) (hnw : o.no_wake = false)
    (hta : o.tang = true) (hlo : o.longi = false) (hro : o.root = false) :
    let w := (WT.new R hub shaft vert U0 L G M).run mini h
    let s := w.e_shaft_g
    let a := V3.cross vert s
    let centres := if o.ground.getD w.Ground then [w.r_hub, groundImage vert w.r_hub] else [w.r_hub]
    ∀ (gt r : List ℝ) (chi : Num), w.gamma_t = some (gt.map Num.fin) → w.r = some r → gt.length ≠ 1 → gt.length = r.length →
      (∀ gl, w.gamma_l = some gl → gl.length = r.length) → o.Model.getD w.Model = "VC" →
      (w.computeU pts o).2.chi = some chi → ¬ (Num.fin 1e-7 < Num.abs chi) →
    ∃ u, (w.computeU pts o).1 = .ok u ∧ ∀ (i : ℕ) (p : V3 ℝ), pts[i]? = some p →
      ∀ q : V3 ℝ → V3 ℝ, (∀ c, q c = ⟨V3.dot (p - c) a, V3.dot (p - c) vert, V3.dot (p - c) s⟩) →
      (∀ c ∈ centres, ∀ k ∈ gt.zip r, k.1 ≠ 0 → 0 < k.2 ∧ √((q c).x^2 + (q c).y^2) ≠ k.2 ∧
        ¬ (|√((q c).x^2 + (q c).y^2) - k.2| < 1e-8 * k.2 ∧ |(q c).z| < 1e-8 * k.2)) →
      ∃ F e v : V3 ℝ, F = (centres.map fun c => ((gt.zip r).map fun k => cylinderField k.1 k.2 (q c)).sum).sum ∧ u[i]? = some (V3.fin v) ∧
        v = (if o.only_ind then 0 else w.U0_g) + V3.smul (F.x + e.x) a + V3.smul (F.y + e.y) vert + V3.smul (F.z + e.z) s ∧
        |e.x| ≤ 1e-7*(centres.length*(gt.map fun g => |g|).sum) ∧ |e.y| ≤ 1e-7*(centres.length*(gt.map fun g => |g|).sum) ∧
        |e.z| ≤ 3/100*(centres.length*(gt.map fun g => |g|).sum) := by
  intro w s a centres gt r chi hg hr hg1 hlen hgl hM hchi hsk
  obtain ⟨u, hu⟩ : ∃ u, (w.computeU pts o).1 = .ok u := by
    refine (C16_multi w (gt.map Num.fin) r hg (by simpa using hg1) hr (by simpa using hlen) ?_ pts hp o).mpr hM
    cases hl : w.gamma_l with
    | none => exact Or.inl rfl
    | some gl => exact Or.inr ⟨gl, rfl, hgl gl hl⟩
  obtain ⟨ul, uv⟩ := C16_field_multi mini R hub shaft vert U0 L G M ho h pts o hnw hlo hro (gt.map Num.fin) r chi u hg (by simpa using hg1) hr hchi hu
  refine ⟨u, hu, fun i p hpi q hq hoff => ?_⟩
  have hil : i < pts.length := by
    by_contra h
    rw [List.getElem?_eq_none (by omega)] at hpi; exact nomatch hpi
  have uv := uv i hil
  rw [if_pos hta] at uv
  have hsk' : ¬ skewed chi := hsk
  have hw : ∀ g R' Y, wakeTang chi "VC" g R' o.R_far_field Y = vcTang Y g R' 0 := by
    intro g R' Y; unfold wakeTang; rw [if_neg hsk', if_pos rfl]
  have hzip : (gt.map Num.fin).zip r = (gt.zip r).map fun c => (Num.fin c.1, c.2) := by
    rw [List.zip_map_left]; rfl
  have hsum : ((gt.zip r).map fun c => |c.1|).sum = (gt.map fun g => |g|).sum := by
    have : (gt.zip r).map Prod.fst = gt := List.map_fst_zip (by omega)
    conv_rhs => rw [← this, List.map_map]
    rfl
  obtain ⟨v, hv, n⟩ := near3_sum centres (fun c => ((((gt.map Num.fin).zip r).filter fun y => 0 < Num.abs y.1).map fun y =>
              (wakeTang chi "VC" y.1 y.2 o.R_far_field (rotorAxes a vert s c pts)).getD i 0).sum)
      (fun c => ((gt.zip r).map fun k => cylinderField k.1 k.2 (q c)).sum) (fun _ => (gt.map fun g => |g|).sum) (by
    intro c hc
    have hY : (rotorAxes a vert s c pts)[i]? = some (q c) := by
      simp only [rotorAxes, List.getElem?_map, hpi, Option.map_some, hq]
    have := near3_bundle (rotorAxes a vert s c pts) i (q c) hY (gt.zip r) (hoff c hc)
    simp only [hw, hzip]
    rw [hsum] at this
    exact this)
  have uv : u.getD i 0 = V3.fin (fromAxes a vert s v + if o.only_ind then 0 else w.U0_g) := by
    refine uv.trans ?_
    refine (congrArg (fun x => transform (M3.fin (M3.ofCols a vert s)) x + _) hv).trans ?_
    rw [transform_fin, mulVec_fromAxes]
    cases o.only_ind <;> ext <;> simp <;> rfl
  rw [List.getD_eq_getElem?_getD, List.getElem?_eq_getElem (by omega)] at uv
  have hn : (centres.map fun _ => (gt.map fun g => |g|).sum).sum = centres.length*(gt.map fun g => |g|).sum := by
    rw [List.map_const', List.sum_replicate, nsmul_eq_mul]
  rw [hn] at n
  refine ⟨_, v - (centres.map fun c => ((gt.zip r).map fun k => cylinderField k.1 k.2 (q c)).sum).sum,
    fromAxes a vert s v + (if o.only_ind then 0 else w.U0_g), rfl, ?_, ?_, n.1, n.2.1, n.2.2⟩
  · rw [List.getElem?_eq_getElem (by omega)]
    exact congrArg some uv
  · unfold fromAxes
    ext <;> simp <;> ring

/-- a turbine loaded with four cylinders and ground effect, seen from a point upstream, meets the hypotheses of `C119_turbine_multi` -/
example (mini : (ℝ → Num) → ℝ) :
    let w := (WT.new 1 ⟨0,2,0⟩ ⟨0,0,1⟩ ⟨0,1,0⟩ ⟨0,0,10⟩ (some .pinf) true "VC").run mini
      [.chi (some 0), .loading { r := some [0.2, 0.4, 0.6, 0.8], Ct := some [.fin 1,.fin 1,.fin 1,.fin 1], nCyl := none, gamma_t_Ct := some fun c => c }]
    w.gamma_t = some ([1,1,1,1].map Num.fin) ∧ w.r = some [0.2, 0.4, 0.6, 0.8] ∧ w.gamma_l = none ∧ w.Ground = true ∧ w.Model = "VC" ∧
    (w.computeU [⟨0, 2, -3⟩] {}).2.chi = some 0 ∧ ¬ (Num.fin 1e-7 < Num.abs 0) ∧
    ∀ c ∈ [w.r_hub, groundImage ⟨0,1,0⟩ w.r_hub], V3.dot (⟨0, 2, -3⟩ - c) w.e_shaft_g = -3 := by
  intro w
  have hw : w = (WT.new 1 ⟨0,2,0⟩ ⟨0,0,1⟩ ⟨0,1,0⟩ ⟨0,0,10⟩ (some .pinf) true "VC").run mini
      [.chi (some 0), .loading { r := some [0.2, 0.4, 0.6, 0.8], Ct := some [.fin 1,.fin 1,.fin 1,.fin 1], nCyl := none, gamma_t_Ct := some fun c => c }] := rfl
  have e1 : w.r_hub = ⟨0,2,0⟩ := by rw [hw]; simp [WT.run, WT.step, WT.updateLoading, reinterp, loadingSolve, WT.new, WT.updateYawPos, WT.setChi]
  have e2 : w.e_shaft_g = ⟨0,0,1⟩ := by
    rw [hw]; simp [WT.run, WT.step, WT.updateLoading, reinterp, loadingSolve, WT.new, WT.updateYawPos, WT.setChi]
    unfold rotMatAxisAngle M3.mulVec; ext <;> simp [V3.dot]
  have e3 : w.chi = some 0 := by rw [hw]; simp [WT.run, WT.step, WT.updateLoading, reinterp, loadingSolve, WT.new, WT.updateYawPos, WT.setChi]
  refine ⟨?_, ?_, ?_, ?_, ?_, ?_, ?_, ?_⟩
  · rw [hw]; simp [WT.run, WT.step, WT.updateLoading, reinterp, loadingSolve, WT.new, WT.updateYawPos, WT.setChi]
  · rw [hw]; simp [WT.run, WT.step, WT.updateLoading, reinterp, loadingSolve, WT.new, WT.updateYawPos, WT.setChi]
  · rw [hw]; simp [WT.run, WT.step, WT.updateLoading, reinterp, loadingSolve, WT.new, WT.updateYawPos, WT.setChi]
  · rw [hw]; simp [WT.run, WT.step, WT.updateLoading, reinterp, loadingSolve, WT.new, WT.updateYawPos, WT.setChi]
  · rw [hw]; simp [WT.run, WT.step, WT.updateLoading, reinterp, loadingSolve, WT.new, WT.updateYawPos, WT.setChi]
  · rw [computeU_state]
    change some (usedChi w) = _
    unfold usedChi
    rw [e3]
  · simp; norm_num
  · rw [e1, e2]
    simp [groundImage, V3.dot]

/-- C119 for a turbine with one cylinder over the ground: the Biot–Savart fields are those of the cylinder at the hub and of its image under
the ground, and the error is at most 3% of `|γ|` for each of the two. -/
theorem C119_turbine_ground (mini : (ℝ → Num) → ℝ) (R : ℝ) (hub shaft vert U0 : V3 ℝ) (L : Option Num) (G : Bool)
    (M : String) (ho : Orthonormal shaft vert) (hR : 0 < R) (h : List Op) (pts : List (V3 ℝ)) (o : Opts) (hnw : o.no_wake = false)
    (hta : o.tang = true) (hlo : o.longi = false) (hro : o.root = false) :
    let w := (WT.new R hub shaft vert U0 L G M).run mini h
    let s := w.e_shaft_g
    let a := V3.cross vert s
    let centres := if o.ground.getD w.Ground then [w.r_hub, groundImage vert w.r_hub] else [w.r_hub]
    ∀ (γ : ℝ) (chi : Num), w.gamma_t = some [.fin γ] → o.Model.getD w.Model = "VC" →
      (w.computeU pts o).2.chi = some chi → ¬ (Num.fin 1e-7 < Num.abs chi) →
    ∃ u, (w.computeU pts o).1 = .ok u ∧ ∀ (i : ℕ) (p : V3 ℝ), pts[i]? = some p →
      ∀ q : V3 ℝ → V3 ℝ, (∀ c, q c = ⟨V3.dot (p - c) a, V3.dot (p - c) vert, V3.dot (p - c) s⟩) →
      (∀ c ∈ centres, √((q c).x^2 + (q c).y^2) ≠ R ∧ ¬ (|√((q c).x^2 + (q c).y^2) - R| < 1e-8 * R ∧ |(q c).z| < 1e-8 * R)) →
      ∃ F e v : V3 ℝ, F = (centres.map fun c => cylinderField γ R (q c)).sum ∧ u[i]? = some (V3.fin v) ∧
        v = (if o.only_ind then 0 else w.U0_g) + V3.smul (F.x + e.x) a + V3.smul (F.y + e.y) vert + V3.smul (F.z + e.z) s ∧
        |e.x| ≤ 1e-7*(centres.length*|γ|) ∧ |e.y| ≤ 1e-7*(centres.length*|γ|) ∧ |e.z| ≤ 3/100*(centres.length*|γ|) := by
  intro w s a centres γ chi hg hM hchi hsk
  obtain ⟨u, hu⟩ : ∃ u, (w.computeU pts o).1 = .ok u := vc_ok w _ hg pts o hro hlo hM
  obtain ⟨ul, uv⟩ := C16_field mini R hub shaft vert U0 L G M ho h pts o hnw (.fin γ) chi u hg hchi hu
  refine ⟨u, hu, fun i p hpi q hq hoff => ?_⟩
  have hil : i < pts.length := by
    by_contra h
    rw [List.getElem?_eq_none (by omega)] at hpi; exact nomatch hpi
  have uv := uv i hil
  have hsk' : ¬ skewed chi := hsk
  have hw : ∀ g R' Y, wakeTang chi "VC" g R' o.R_far_field Y = vcTang Y g R' 0 := by
    intro g R' Y; unfold wakeTang; rw [if_neg hsk', if_pos rfl]
  have key : ∃ v, (if o.tang = true ∧ ¬ Num.Eqv (.fin γ) 0 then
              (centres.map fun c => (wakeTang chi (o.Model.getD w.Model) (.fin γ) R o.R_far_field (rotorAxes a vert s c pts)).getD i 0).sum else 0) = V3.fin v ∧
      Near3 (centres.length*|γ|) (centres.map fun c => cylinderField γ R (q c)).sum v := by
    by_cases h0 : γ = 0
    · refine ⟨0, ?_, ?_⟩
      · rw [if_neg (by rw [h0]; simp)]; rfl
      · simp only [h0, cylinderField_zero, sum_zero3, abs_zero, mul_zero]
        exact near3_zero
    · rw [if_pos ⟨hta, by simpa using h0⟩, hM]
      have := near3_sum centres (fun c => (wakeTang chi "VC" (.fin γ) R o.R_far_field (rotorAxes a vert s c pts)).getD i 0)
        (fun c => cylinderField γ R (q c)) (fun _ => |γ|) (by
          intro c hc
          have hY : (rotorAxes a vert s c pts)[i]? = some (q c) := by
            simp only [rotorAxes, List.getElem?_map, hpi, Option.map_some, hq]
          obtain ⟨v, hv, n⟩ := C119_batch (rotorAxes a vert s c pts) γ R hR i (q c) hY (hoff c hc).1 (hoff c hc).2
          refine ⟨v, ?_, n⟩
          rw [hw, List.getD_eq_getElem?_getD, hv]; rfl)
      rw [List.map_const', List.sum_replicate, nsmul_eq_mul] at this
      exact this
  obtain ⟨v, hv, n⟩ := key
  have e1 : (match w.Gamma_r with
      | some Gr => if o.root = true ∧ ¬ Num.Eqv Gr 0 then
          (centres.map fun c => (wakeRoot chi Gr (rotorAxes a vert s c pts)).getD i 0).sum else 0
      | none => 0) = V3.fin 0 := by
    rw [hro]
    split
    · rw [if_neg (fun h => Bool.false_ne_true h.1)]; rfl
    · rfl
  have e3 : (match w.gamma_l with
      | some [gl'] => if o.longi = true ∧ ¬ Num.Eqv gl' 0 then
          (centres.map fun c => (wakeLongi chi gl' R (rotorAxes a vert s c pts)).getD i 0).sum else 0
      | _ => 0) = V3.fin 0 := by
    rw [hlo]
    split
    · rw [if_neg (fun h => Bool.false_ne_true h.1)]; rfl
    · rfl
  have uv : u.getD i 0 = V3.fin (fromAxes a vert s v + if o.only_ind then 0 else w.U0_g) := by
    refine uv.trans ?_
    refine (congrArg (fun z => transform (M3.fin (M3.ofCols a vert s)) z + _) (congrArg₂ (· + ·) (congrArg₂ (· + ·) e1 hv) e3)).trans ?_
    have e4 : ∀ x y : V3 ℝ, V3.fin x + V3.fin y = V3.fin (x + y) := fun x y => by ext <;> simp
    have e5 : (0 : V3 ℝ) + v + 0 = v := by ext <;> simp
    rw [e4, e4, e5, transform_fin, mulVec_fromAxes]
    cases o.only_ind <;> ext <;> simp <;> rfl
  rw [List.getD_eq_getElem?_getD, List.getElem?_eq_getElem (by omega)] at uv
  refine ⟨_, v - (centres.map fun c => cylinderField γ R (q c)).sum,
    fromAxes a vert s v + (if o.only_ind then 0 else w.U0_g), rfl, ?_, ?_, n.1, n.2.1, n.2.2⟩
  · rw [List.getElem?_eq_getElem (by omega)]
    exact congrArg some uv
  · unfold fromAxes
    ext <;> simp <;> ring

/-- a loaded turbine over the ground, seen from a point upstream, meets the hypotheses of `C119_turbine_ground` -/
example (mini : (ℝ → Num) → ℝ) :
    let w := (WT.new 50 ⟨1,2,3⟩ ⟨0,0,1⟩ ⟨0,1,0⟩ ⟨0,0,10⟩ none true "VC").run mini
      [.chi (some 0), .loading { Ct := some [.fin 1], Lambda := some .pinf, gamma_t_Ct := some fun _ => [.fin (-1)] }]
    w.gamma_t = some [.fin (-1)] ∧ w.Ground = true ∧ w.Model = "VC" ∧ (w.computeU [⟨31, 2, -97⟩] {}).2.chi = some 0 := by
  intro w
  obtain ⟨b1, b2, b3, b4, b5, b6, b7, b8, b9, b10, b11, b12, b13, b14⟩ := loading_frame mini
    ((WT.new 50 ⟨1,2,3⟩ ⟨0,0,1⟩ ⟨0,1,0⟩ ⟨0,0,10⟩ none true "VC").run mini [.chi (some 0)])
    { Ct := some [.fin 1], Lambda := some .pinf, gamma_t_Ct := some fun _ => [.fin (-1)] }
  refine ⟨rfl, b12.trans rfl, b14.trans rfl, ?_⟩
  rw [computeU_state]
  have : w.chi = some 0 := b13.trans rfl
  change some (usedChi w) = _
  unfold usedChi
  rw [this]

end
end Wiz
