import Verif.Lemmas.TurbineScale

/-! # Induced velocities are proportional to the vorticity, for every model -/
namespace Wiz
open Classical

section
variable {m : ℝ} (hm : 0 < m)

theorem scP_one (p : V3 ℝ) : scP 1 p = p := by ext <;> simp [scP]
theorem map_scP_one (l : List (V3 ℝ)) : l.map (scP 1) = l := by
  conv_rhs => rw [← List.map_id l]
  apply List.map_congr_left; intro p _; exact scP_one p
theorem map_one_mul (l : List ℝ) : (l.map fun x => 1 * x) = l := by simp

include hm

theorem vcTang_strength (Y : List (V3 ℝ)) (g : Num) (R : ℝ) : vcTang Y (sc m g) R 0 = (vcTang Y g R 0).map (scV m) := by
  have := vcTang_scale one_pos hm Y g R
  rwa [map_scP_one, one_mul] at this
theorem svcTang_strength (Y : List (V3 ℝ)) (g : Num) (R : ℝ) (t : Num) (n : ℕ) : svcTang Y (sc m g) R t n false = (svcTang Y g R t n false).map (scV m) := by
  have := svcTang_scale one_pos hm Y g R t n
  rwa [map_scP_one, one_mul] at this
theorem ss_strength (p : V3 ℝ) (g : Num) (R : ℝ) : ssUDefault p (sc m g) R = sc m (ssUDefault p g R) := by
  have := ss_scale one_pos hm p g R
  rwa [scP_one, one_mul] at this

theorem doubletLine_strength (p : V3 ℝ) (d : Num) : doubletLineU p (sc m d) 0 none = scV m (doubletLineU p d 0 none) := by
  unfold doubletLineU
  simp only
  split
  · exact scV_zero.symm
  · simp only [scV, sc_mul hm, sc_div hm]

theorem doubletLinePolar_strength (r z : ℝ) (d : Num) : doubletLinePolarU r z (sc m d) = mapOk (Prod.map (sc m) (sc m)) (doubletLinePolarU r z d) := by
  unfold doubletLinePolarU
  simp only
  split
  · rfl
  · simp only [mapOk, Prod.map]
    congr 2
    · simp only [apply_ite (sc m), zero_sc, sc_mul hm, sc_div hm, sc_neg]
    · simp only [apply_ite (sc m), zero_sc, sc_mul hm, sc_div hm]

theorem vcPt_strength (P : Num → Num → Num) (g : Num) (R r z : ℝ) : vcPt P (sc m g) R 0 r z = Prod.map (sc m) (sc m) (vcPt P g R 0 r z) := by
  have := vcPt_scale one_pos hm P g R r z
  rwa [one_mul, one_mul, one_mul] at this

theorem vcTangDoublet_strength (Y : List (V3 ℝ)) (g : Num) (R rCut : ℝ) : vcTangDoublet Y (sc m g) R rCut = (vcTangDoublet Y g R rCut).map (scV m) := by
  rw [vcTangDoublet_map2, vcTangDoublet_map2, List.map_map]
  apply List.map_congr_left
  intro p _
  simp only [Function.comp]
  have h := polarToCart_scale (k := 1) (m := m) one_pos hm p
  rw [scP_one] at h
  rw [← h]
  congr 1
  split
  · exact vcPt_strength hm _ _ _ _ _
  · rw [← sc_mul hm, ← sc_mul hm, doubletLinePolar_strength hm]
    cases doubletLinePolarU (polarR p.x p.y) p.z (g * (.fin R)^2 * .fin Real.pi) <;> rfl

theorem tangPart_strength (chi t : Num) (M : String) (g : Num) (R Rff : ℝ) (Y : List (V3 ℝ)) :
    tangPart chi t M (sc m g) R Rff Y = mapOk (List.map (scV m)) (tangPart chi t M g R Rff Y) := by
  by_cases hM : M ≠ "VCFF" ∧ M ≠ "VD"
  · have := tangPart_scale one_pos hm chi t M hM g R Rff Y
    rwa [map_scP_one, one_mul] at this
  · have n1 : ¬ "VCFF" = "VC" := by decide
    have n2 : ¬ "VD" = "VC" := by decide
    have n3 : ¬ "VD" = "VCFF" := by decide
    unfold tangPart
    split
    · split
      · rw [svcTang_strength hm]; rfl
      · rfl
    · by_cases h1 : M = "VCFF"
      · subst h1
        rw [if_neg n1, if_neg n1, if_pos rfl, if_pos rfl, vcTangDoublet_strength hm]; rfl
      · have h2 : M = "VD" := by by_contra h; exact hM ⟨h1, h⟩
        subst h2
        rw [if_neg n2, if_neg n2, if_neg n3, if_neg n3, if_pos rfl, if_pos rfl]
        simp only [mapOk, List.map_map]
        congr 1
        apply List.map_congr_left
        intro p _
        rw [← sc_mul hm, ← sc_mul hm]
        exact doubletLine_strength hm p _

/-- the first turbine with `m` times the tangential vorticity; the swirl parts are absent or not asked for -/
structure StrRel (m : ℝ) (o : Opts) (w w' : WT) : Prop where
  R : w'.R = w.R
  T : w'.T_c2g = w.T_c2g
  hub : w'.r_hub = w.r_hub
  r : w'.r = w.r
  Ground : w'.Ground = w.Ground
  Model : w'.Model = w.Model
  chi : usedChi w' = usedChi w
  gt : w'.gamma_t = w.gamma_t.map fun l => l.map (sc m)
  gl : (w.gamma_l = none ∧ w'.gamma_l = none) ∨ (o.longi = false ∧ ∃ g, w.gamma_t = some [g])
  Gr : (w.Gamma_r = none ∧ w'.Gamma_r = none) ∨ o.root = false

theorem str_single (chi t : Num) (M : String) (g : Num) (gl gl' : Option (List Num)) (R : ℝ) (o : Opts) (h : (gl = none ∧ gl' = none) ∨ o.longi = false)
    (Y : List (V3 ℝ)) (u : List (V3 Num)) :
    singleBody chi t M (sc m g) gl' R o Y (u.map (scV m)) = mapOk (List.map (scV m)) (singleBody chi t M g gl R o Y u) := by
  have e1 : (if o.tang ∧ ¬ Num.Eqv (sc m g) 0 then accum (u.map (scV m)) (tangPart chi t M (sc m g) R o.R_far_field Y) else .ok (u.map (scV m))) =
      mapOk (List.map (scV m)) (if o.tang ∧ ¬ Num.Eqv g 0 then accum u (tangPart chi t M g R o.R_far_field Y) else .ok u) := by
    rw [eqv_zero_sc hm, tangPart_strength hm, accum_scale hm]
    split <;> rfl
  unfold singleBody
  rw [e1]
  generalize (if o.tang ∧ ¬ Num.Eqv g 0 then accum u (tangPart chi t M g R o.R_far_field Y) else .ok u) = x
  cases x with
  | error e => rfl
  | ok x =>
    simp only [mapOk]
    rcases h with ⟨h1, h2⟩ | h
    · subst h1; subst h2; cases o.longi <;> rfl
    · rw [h]

omit hm in
theorem str_overY (f f' : List (V3 ℝ) → List (V3 Num) → Except String (List (V3 Num)))
    (hf : ∀ Y u, f' Y (u.map (scV m)) = mapOk (List.map (scV m)) (f Y u)) (L : List (List (V3 ℝ))) :
    ∀ u, overY f' (u.map (scV m)) L = mapOk (List.map (scV m)) (overY f u L) := by
  induction L with
  | nil => intro u; rfl
  | cons Y L ih =>
    intro u
    simp only [overY, hf]
    cases f Y u with
    | error e => rfl
    | ok x => exact ih x

theorem str_multi (chi t : Num) (M : String) (gt : List Num) (r : Option (List ℝ)) (cyl : V3 ℝ) (G : Bool) (o : Opts) (pts : List (V3 ℝ)) (u : List (V3 Num)) :
    multiPart chi t M (gt.map (sc m)) none r cyl G o pts (u.map (scV m)) = mapOk (List.map (scV m)) (multiPart chi t M gt none r cyl G o pts u) := by
  have := multiPart_scale one_pos hm chi t M gt none r cyl G o pts u
  rw [map_scP_one, scP_one] at this
  have er : (r.map fun l => l.map fun x => 1 * x) = r := by cases r <;> simp
  rw [er] at this
  exact this

omit hm in
theorem inducedC_noroot (w : WT) (chi : Num) (gt : List Num) (pts : List (V3 ℝ)) (o : Opts) (h : w.Gamma_r = none ∨ o.root = false) :
    w.inducedC chi gt pts o = match gt with
      | [g] => overY (singleBody chi (Num.tan chi) (o.Model.getD w.Model) g w.gamma_l w.R o) (pts.map fun _ => 0)
          (if o.ground.getD w.Ground then [relPts (pts.map (transformT w.T_c2g)) (transformT w.T_c2g w.r_hub), mirrorPts (pts.map (transformT w.T_c2g)) (transformT w.T_c2g w.r_hub)]
            else [relPts (pts.map (transformT w.T_c2g)) (transformT w.T_c2g w.r_hub)])
      | gt => multiPart chi (Num.tan chi) (o.Model.getD w.Model) gt w.gamma_l w.r (transformT w.T_c2g w.r_hub) (o.ground.getD w.Ground) o (pts.map (transformT w.T_c2g)) (pts.map fun _ => 0) := by
  unfold WT.inducedC
  rcases h with h | h
  · rw [h]
    cases o.root <;> (rcases gt with _ | ⟨g, _ | ⟨g', gt⟩⟩ <;> rfl)
  · rw [h]
    rcases gt with _ | ⟨g, _ | ⟨g', gt⟩⟩ <;> rfl

theorem str_inducedC (w w' : WT) (o : Opts) (h : StrRel m o w w') (chi : Num) (gt : List Num) (hg : w.gamma_t = some gt) (pts : List (V3 ℝ)) :
    w'.inducedC chi (gt.map (sc m)) pts o = mapOk (List.map (scV m)) (w.inducedC chi gt pts o) := by
  have hz : (pts.map fun _ => (0 : V3 Num)) = (pts.map fun _ => (0 : V3 Num)).map (scV m) := by
    rw [List.map_map]; apply List.map_congr_left; intro p _; exact scV_zero.symm
  rw [inducedC_noroot w _ _ _ _ (h.Gr.imp (fun x => x.1) id), inducedC_noroot w' _ _ _ _ (h.Gr.imp (fun x => x.2) id)]
  simp only [h.Ground, h.Model, h.hub, h.T, h.r, h.R]
  have hgl : (w.gamma_l = none ∧ w'.gamma_l = none) ∨ o.longi = false := h.gl.imp id fun x => x.1
  rcases gt with _ | ⟨g, _ | ⟨g', gt⟩⟩
  · rcases h.gl with ⟨h1, h2⟩ | ⟨-, g, h2⟩
    · simp only [List.map_nil, h1, h2]
      conv_lhs => rw [hz]
      exact str_multi hm _ _ _ [] _ _ _ o _ _
    · rw [hg] at h2; simp at h2
  · simp only [List.map_cons, List.map_nil]
    conv_lhs => rw [hz]
    exact str_overY _ _ (str_single hm chi (Num.tan chi) (o.Model.getD w.Model) g w.gamma_l w'.gamma_l w.R o hgl) _ _
  · rcases h.gl with ⟨h1, h2⟩ | ⟨-, g, h2⟩
    · simp only [List.map_cons, h1, h2]
      conv_lhs => rw [hz]
      exact str_multi hm _ _ _ (g :: g' :: gt) _ _ _ o _ _
    · rw [hg] at h2; simp at h2

theorem str_computeU (w w' : WT) (o : Opts) (ho : o.only_ind = true) (h : StrRel m o w w') (pts : List (V3 ℝ)) :
    (w'.computeU pts o).1 = mapOk (List.map (scV m)) (w.computeU pts o).1 := by
  have hrel : relC w' pts = relC w pts := by unfold relC; rw [h.T, h.hub]
  rw [computeU_val, computeU_val, h.gt, h.chi, hrel, h.R]
  cases hg : w.gamma_t with
  | none => rfl
  | some gt =>
    simp only [Option.map_some, str_inducedC hm w w' o h (usedChi w) gt hg pts]
    cases w.inducedC (usedChi w) gt pts o with
    | error e => rfl
    | ok u =>
      simp only [mapOk]
      congr 1
      have hd : (if o.no_wake then zeroWake w.R (relC w pts) (u.map (scV m)) else u.map (scV m)) =
          (if o.no_wake then zeroWake w.R (relC w pts) u else u).map (scV m) := by
        split
        · have := zeroWake_scale (k := 1) (m := m) w.R one_pos (relC w pts) u
          rwa [map_scP_one, one_mul] at this
        · rfl
      rw [hd]
      simp only [WT.toGlobal, List.map_map, ho, if_true]
      apply List.map_congr_left
      intro x _
      simp only [Function.comp, h.T, transform_scale hm]

end
end Wiz
