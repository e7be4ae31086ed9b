import Verif.Lemmas.ScaleKernels
import Verif.Lemmas.ScaleSolver
import Verif.Lemmas.TurbineEval
import Verif.Spec.Units

namespace Wiz
open Classical

theorem scP_smul (k : ℝ) (p : V3 ℝ) : V3.smul k p = scP k p := rfl

section
variable {k m : ℝ} (hk : 0 < k) (hm : 0 < m)

theorem transformT_scale (T : M3 ℝ) (p : V3 ℝ) : transformT T (scP k p) = scP k (transformT T p) := by
  apply V3.ext <;> simp only [transformT, scP] <;> ring
theorem relPts_scale (pts : List (V3 ℝ)) (c : V3 ℝ) : relPts (pts.map (scP k)) (scP k c) = (relPts pts c).map (scP k) := by
  unfold relPts
  rw [List.map_map, List.map_map]; apply List.map_congr_left; intro p _; exact (scP_sub k p c).symm
theorem mirrorPts_scale (pts : List (V3 ℝ)) (c : V3 ℝ) : mirrorPts (pts.map (scP k)) (scP k c) = (mirrorPts pts c).map (scP k) := by
  unfold mirrorPts
  rw [List.map_map, List.map_map]; apply List.map_congr_left; intro p _
  apply V3.ext <;> simp only [Function.comp, scP, V3.sub_x, V3.sub_y, V3.sub_z] <;> ring
theorem norm_scale (hk : 0 < k) (p : V3 ℝ) : V3.norm (scP k p) = k * V3.norm p := by
  unfold V3.norm
  rw [show (scP k p).x^2 + (scP k p).y^2 + (scP k p).z^2 = k*k*(p.x^2 + p.y^2 + p.z^2) by simp only [scP]; ring,
    Real.sqrt_mul (by positivity), Real.sqrt_mul_self hk.le]

/-! ### Loading -/

theorem interp1_scale (hk : 0 < k) (hm : 0 < m) (x : ℝ) : ∀ l : List (ℝ × Num),
    interp1 (k * x) (l.map fun q => (k * q.1, sc m q.2)) = sc m (interp1 x l)
  | [] => rfl
  | [q] => rfl
  | p :: q :: t => by
    have ih := interp1_scale hk hm x (q :: t)
    simp only [List.map_cons] at ih ⊢
    simp only [interp1, mul_lt_mul_iff_right₀ hk]
    split
    · rfl
    · split
      · rw [← mul_sub, ← mul_sub, ← sc_fin, ← sc_fin, ← sc_sub hm, div_sc hk, ← sc_mul_right hk, ← sc_mul (inv_pos.2 hk), sc_sc hk (inv_pos.2 hk),
          mul_inv_cancel₀ hk.ne', sc_one, ← sc_div hm, ← sc_mul hm, ← sc_add hm]
      · exact ih

theorem interpArr_scale (hk : 0 < k) (hm : 0 < m) (v : List ℝ) (r : Option (List ℝ)) (y : Option (List Num)) :
    interpArr (v.map fun x => k * x) (r.map fun l => l.map fun x => k * x) (y.map fun l => l.map (sc m)) = mapOk (List.map (sc m)) (interpArr v r y) := by
  unfold interpArr
  cases r with
  | none => rfl
  | some r =>
    cases y with
    | none => rfl
    | some y =>
      simp only [Option.map_some, List.length_map, List.map_eq_nil_iff]
      split
      · rfl
      · simp only [mapOk, List.map_map]
        congr 1
        apply List.map_congr_left
        intro x _
        simp only [Function.comp]
        rw [← interp1_scale hk hm, List.zip_map]
        rfl

theorem npSum_scale (hm : 0 < m) (l : List Num) : npSum (l.map (sc m)) = sc m (npSum l) := by
  unfold npSum
  induction l with
  | nil => exact zero_sc.symm
  | cons b l ih => simp only [List.map_cons, List.foldr_cons, ih, ← sc_add hm]

theorem npMean_scale (hm : 0 < m) (l : List Num) : npMean (l.map (sc m)) = sc m (npMean l) := by
  unfold npMean; rw [npSum_scale hm, List.length_map, ← sc_div hm]

/-- the interpolated loading in other units -/
noncomputable def scR3 (k G : ℝ) (v : Option (List ℝ) × Option (List Num) × Option (List Num)) : Option (List ℝ) × Option (List Num) × Option (List Num) :=
  (v.1.map fun l => l.map fun x => k * x, v.2.1, v.2.2.map fun l => l.map (sc G))

theorem reinterp_scale (hk : 0 < k) (hm : 0 < m) (R : ℝ) (a : LoadArgs) :
    reinterp (k * R) (a.scaled k m) = mapOk (scR3 k (k*m)) (reinterp R a) := by
  have hkm := mul_pos hk hm
  unfold reinterp LoadArgs.scaled
  simp only
  cases a.nCyl with
  | none => rfl
  | some n =>
    have ev : ((linspace 0.005 0.995 n).map fun x => x * (k * R)) = ((linspace 0.005 0.995 n).map fun x => x * R).map fun x => k * x := by
      rw [List.map_map]; apply List.map_congr_left; intro x _; simp only [Function.comp]; ring
    simp only [ev]
    split
    · simp only [mapOk, scR3, Option.map_some, List.map_cons, List.map_nil, Option.map_map]
      congr 2
      · congr 2; ring
      · congr 1
        cases a.Gamma with
        | none => rfl
        | some g => simp only [Option.map_some, Function.comp, List.map_cons, List.map_nil]; rw [← npMean_scale hkm]; rfl
    · cases a.Ct with
      | some c =>
        have h1 := interpArr_scale hk one_pos ((linspace 0.005 0.995 n).map fun x => x * R) a.r (some c)
        have e1 : (some c).map (fun l => l.map (sc 1)) = some c := by
          simp only [Option.map_some]; congr 1; conv_rhs => rw [← List.map_id c]
          apply List.map_congr_left; intro x _; exact sc_one x
        rw [e1] at h1
        simp only [h1]
        cases interpArr ((linspace 0.005 0.995 n).map fun x => x * R) a.r (some c) with
        | error e => rfl
        | ok c' =>
          have e2 : c'.map (sc 1) = c' := by
            conv_rhs => rw [← List.map_id c']
            apply List.map_congr_left; intro x _; exact sc_one x
          simp only [mapOk, e2]; rfl
      | none =>
        have h1 := interpArr_scale hk hkm ((linspace 0.005 0.995 n).map fun x => x * R) a.r a.Gamma
        have e1 : (a.Gamma.map fun l => l.map fun g => Num.fin (k * m) * g) = a.Gamma.map fun l => l.map (sc (k*m)) := rfl
        simp only [e1, h1]
        cases interpArr ((linspace 0.005 0.995 n).map fun x => x * R) a.r a.Gamma <;> rfl

theorem solve_scale (mini : (ℝ → Num) → ℝ) (hk : 0 < k) (hm : 0 < m) (R U0 : ℝ) (Λ : Num) (r : Option (List ℝ)) (Ct Γ : Option (List Num))
    (f : Option (List Num → List Num)) (hf : f = none → k = m) :
    loadingSolve mini (k*R) (.fin (m*U0)) (Λ * .fin (m*U0) / .fin (k*R)) (r.map fun l => l.map fun x => k * x) Ct (Γ.map fun l => l.map (sc (k*m)))
        (f.map fun f c => (f c).map fun g => Num.fin m * g) =
      mapOk (scLoad m (k*m)) (loadingSolve mini R (.fin U0) (Λ * .fin U0 / .fin R) r Ct Γ f) := by
  unfold loadingSolve
  cases f with
  | some f => cases Ct <;> rfl
  | none =>
    obtain rfl := hf rfl
    have eO : Λ * .fin (k*U0) / .fin (k*R) = Λ * .fin U0 / .fin R := by
      rw [← sc_fin, ← sc_fin, ← sc_mul_right hk, sc_div_sc hk]
    have er : ∀ l : List ℝ, (l.map fun x => k * x).map Num.fin = (l.map Num.fin).map (sc k) := by
      intro l; rw [List.map_map, List.map_map]; rfl
    simp only [Option.map_none, eO]
    cases Ct with
    | some c =>
      cases r with
      | none => rfl
      | some r =>
        have := fromCt_scale hk mini (r.map Num.fin) c (.fin R) (.fin U0) (Λ * .fin U0 / .fin R)
        simp only [Option.map_some, er, ← sc_fin]
        revert this
        generalize wakeVorticityFromCt mini ((r.map Num.fin).map (sc k)) c (sc k (.fin R)) (sc k (.fin U0)) (Λ * .fin U0 / .fin R) = x
        generalize wakeVorticityFromCt mini (r.map Num.fin) c (.fin R) (.fin U0) (Λ * .fin U0 / .fin R) = y
        cases x <;> cases y <;> simp only [mapOk] <;> intro h <;> exact h
    | none =>
      cases Γ with
      | none => rfl
      | some g =>
        cases r with
        | none => rfl
        | some r =>
          have := fromGamma_scale hk (r.map Num.fin) g (.fin R) (.fin U0) (Λ * .fin U0 / .fin R)
          simp only [Option.map_some, er, ← sc_fin]
          revert this
          generalize wakeVorticityFromGamma ((r.map Num.fin).map (sc k)) (g.map (sc (k*k))) (sc k (.fin R)) (sc k (.fin U0)) (Λ * .fin U0 / .fin R) = x
          generalize wakeVorticityFromGamma (r.map Num.fin) g (.fin R) (.fin U0) (Λ * .fin U0 / .fin R) = y
          cases x <;> cases y <;> simp only [mapOk] <;> intro h <;> exact h

/-- the second turbine is the first in other units -/
structure ScRel (k m : ℝ) (shaft vert : V3 ℝ) (R : ℝ) (M : String) (w w' : WT) : Prop where
  f : FrameInv shaft vert R w
  f' : FrameInv shaft vert (k * R) w'
  yaw : w'.yaw_pos = w.yaw_pos
  hub : w'.r_hub = scP k w.r_hub
  wind : w'.U0_g = scP m w.U0_g
  r : w'.r = w.r.map fun l => l.map fun x => k * x
  gt : w'.gamma_t = w.gamma_t.map fun l => l.map (sc m)
  gl : w'.gamma_l = w.gamma_l.map fun l => l.map (sc m)
  Lambda : w'.Lambda = w.Lambda
  Ct : w'.Ct = w.Ct
  Ground : w'.Ground = w.Ground
  chi : w'.chi = w.chi
  Model : w.Model = M
  Model' : w'.Model = M

variable (s v : V3 ℝ) (R : ℝ) (M : String) (w w' : WT)

theorem sc_T (h : ScRel k m s v R M w w') : w'.T_c2g = w.T_c2g := by
  unfold WT.T_c2g
  rw [h.f.T_wt2g, h.f'.T_wt2g, h.f.T_c2wt, h.f'.T_c2wt, h.yaw]

theorem sc_yawWind (hm : 0 < m) (h : ScRel k m s v R M w w') : w'.yawWind = w.yawWind := by
  have e1 : scP m w.U0_g - V3.smul (V3.dot (scP m w.U0_g) w.e_vert_g) w.e_vert_g = scP m (w.U0_g - V3.smul (V3.dot w.U0_g w.e_vert_g) w.e_vert_g) := by
    apply V3.ext <;> simp only [scP, V3.dot, V3.sub_x, V3.sub_y, V3.sub_z, V3.smul_x, V3.smul_y, V3.smul_z] <;> ring
  have e2 : ∀ u : V3 ℝ, V3.sdiv (V3.fin (scP m u)) (.fin (m * V3.norm u)) = V3.sdiv (V3.fin u) (.fin (V3.norm u)) := by
    intro u
    rw [← scV_fin, ← sc_fin]
    apply V3.ext <;> simp only [V3.sdiv, scV, sc_div_sc hm]
  have e3 : V3.cross w.e_horz_g (V3.fin (scP m w.U0_g)) = scV m (V3.cross w.e_horz_g (V3.fin w.U0_g)) := by
    rw [← scV_fin]
    apply V3.ext <;> simp only [V3.cross, scV, ← sc_mul_right hm, ← sc_sub hm]
  have e4 : ∀ a b : V3 Num, V3.dot (scV m a) b = sc m (V3.dot a b) := by
    intro a b; simp only [V3.dot, scV, ← sc_mul hm, ← sc_add hm]
  unfold WT.yawWind
  simp only
  rw [h.wind, show w'.e_horz_g = w.e_horz_g from h.f'.e_horz_g.trans h.f.e_horz_g.symm, show w'.e_vert_g = w.e_vert_g from h.f'.e_vert_g.trans h.f.e_vert_g.symm,
    e1, norm_scale hm, e2, e3, e4, sign_sc hm]

theorem sc_chi (hm : 0 < m) (h : ScRel k m s v R M w w') : usedChi w' = usedChi w := by
  unfold usedChi
  rw [h.chi]
  cases w.chi with
  | some c => rfl
  | none =>
    simp only
    unfold WT.chiAuto
    simp only
    rw [sc_T s v R M w w' h, sc_yawWind s v R M w w' hm h, h.yaw, show w'.e_vert_g = w.e_vert_g from h.f'.e_vert_g.trans h.f.e_vert_g.symm]

theorem sc_new (hub U0 : V3 ℝ) (L : Option Num) (G : Bool) :
    ScRel k m s v R M (WT.new R hub s v U0 L G M) (WT.new (k * R) (scP k hub) s v (scP m U0) L G M) :=
  ⟨frame_new _ _ _ _ _ _ _ _, frame_new _ _ _ _ _ _ _ _, rfl, rfl, rfl, rfl, rfl, rfl, rfl, rfl, rfl, rfl, rfl, rfl⟩

theorem sc_loading (mini : (ℝ → Num) → ℝ) (hk : 0 < k) (hm : 0 < m) (h : ScRel k m s v R M w w') (a : LoadArgs) (ha : a.gamma_t_Ct = none → k = m) :
    (w'.updateLoading mini (a.scaled k m)).1 = (w.updateLoading mini a).1 ∧
    (w'.updateLoading mini (a.scaled k m)).2.r = (w.updateLoading mini a).2.r.map (fun l => l.map fun x => k * x) ∧
    (w'.updateLoading mini (a.scaled k m)).2.gamma_t = (w.updateLoading mini a).2.gamma_t.map (fun l => l.map (sc m)) ∧
    (w'.updateLoading mini (a.scaled k m)).2.gamma_l = (w.updateLoading mini a).2.gamma_l.map (fun l => l.map (sc m)) ∧
    (w'.updateLoading mini (a.scaled k m)).2.Lambda = (w.updateLoading mini a).2.Lambda ∧
    (w'.updateLoading mini (a.scaled k m)).2.Ct = (w.updateLoading mini a).2.Ct := by
  have hR : w'.R = k * w.R := by rw [h.f'.R, h.f.R]
  unfold WT.updateLoading
  simp only
  rw [hR, reinterp_scale hk hm, h.wind, norm_scale hm, h.Lambda]
  cases reinterp w.R a with
  | error e => exact ⟨rfl, h.r, h.gt, h.gl, h.Lambda, h.Ct⟩
  | ok v3 =>
    obtain ⟨r, Ct, Γ⟩ := v3
    simp only [mapOk, scR3]
    rw [show (a.scaled k m).Lambda = a.Lambda from rfl, show (a.scaled k m).gamma_t_Ct = a.gamma_t_Ct.map fun f c => (f c).map fun g => Num.fin m * g from rfl]
    split
    · exact ⟨rfl, h.r, h.gt, h.gl, h.Lambda, h.Ct⟩
    · rename_i Λ _
      rw [solve_scale mini hk hm _ _ _ _ _ _ _ ha]
      cases loadingSolve mini w.R (.fin (V3.norm w.U0_g)) (Λ * .fin (V3.norm w.U0_g) / .fin w.R) r Ct Γ a.gamma_t_Ct with
      | error e => exact ⟨rfl, h.r, h.gt, h.gl, h.Lambda, h.Ct⟩
      | ok l => exact ⟨rfl, rfl, rfl, rfl, rfl, rfl⟩

theorem sc_step (mini : (ℝ → Num) → ℝ) (hk : 0 < k) (hm : 0 < m) (h : ScRel k m s v R M w w') (op : Op) (hop : op.solves → k = m) :
    ScRel k m s v R M (w.step mini op) (w'.step mini (op.scaled k m)) := by
  have f := frame_step mini s v R w h.f op
  have f' := frame_step mini s v (k * R) w' h.f' (op.scaled k m)
  cases op with
  | yaw y => exact ⟨f, f', rfl, h.hub, h.wind, h.r, h.gt, h.gl, h.Lambda, h.Ct, h.Ground, h.chi, h.Model, h.Model'⟩
  | position p => exact ⟨f, f', h.yaw, rfl, h.wind, h.r, h.gt, h.gl, h.Lambda, h.Ct, h.Ground, h.chi, h.Model, h.Model'⟩
  | wind p => exact ⟨f, f', h.yaw, h.hub, rfl, h.r, h.gt, h.gl, h.Lambda, h.Ct, h.Ground, h.chi, h.Model, h.Model'⟩
  | chi p => exact ⟨f, f', h.yaw, h.hub, h.wind, h.r, h.gt, h.gl, h.Lambda, h.Ct, h.Ground, rfl, h.Model, h.Model'⟩
  | eval pts o =>
    have e : w.step mini (.eval pts o) = { w with chi := some (usedChi w) } := computeU_state w pts o
    have e' : w'.step mini (Op.scaled k m (.eval pts o)) = { w' with chi := some (usedChi w') } := computeU_state w' _ o
    rw [e] at f ⊢
    rw [e'] at f' ⊢
    exact ⟨f, f', h.yaw, h.hub, h.wind, h.r, h.gt, h.gl, h.Lambda, h.Ct, h.Ground, congrArg some (sc_chi s v R M w w' hm h), h.Model, h.Model'⟩
  | loading a =>
    obtain ⟨-, a2, -, -, -, -, -, -, -, a10, a11, a12, a13, a14⟩ := loading_frame mini w a
    obtain ⟨-, b2, -, -, -, -, -, -, -, b10, b11, b12, b13, b14⟩ := loading_frame mini w' (a.scaled k m)
    obtain ⟨-, k1, k2, k3, k4, k5⟩ := sc_loading s v R M w w' mini hk hm h a hop
    have c2 : (w.step mini (.loading a)).r_hub = w.r_hub := a2
    have c3 : (w.step mini (.loading a)).U0_g = w.U0_g := a11
    exact ⟨f, f', b10.trans (h.yaw.trans a10.symm), b2.trans (h.hub.trans (by rw [c2])), b11.trans (h.wind.trans (by rw [c3])),
      k1, k2, k3, k4, k5, b12.trans (h.Ground.trans a12.symm), b13.trans (h.chi.trans a13.symm), a14.trans h.Model, b14.trans h.Model'⟩

theorem sc_run (mini : (ℝ → Num) → ℝ) (hk : 0 < k) (hm : 0 < m) (h : List Op) : ∀ (w w' : WT), (∀ op ∈ h, op.solves → k = m) →
    ScRel k m s v R M w w' → ScRel k m s v R M (w.run mini h) (w'.run mini (h.map (Op.scaled k m))) := by
  induction h with
  | nil => intro w w' _ hr; exact hr
  | cons o h ih =>
    intro w w' hw hr
    exact ih _ _ (fun op hop => hw op (List.mem_cons_of_mem _ hop)) (sc_step s v R M w w' mini hk hm hr o (hw o (List.mem_cons_self ..)))

/-! ### Evaluation -/

theorem addCyls_scale (hm : 0 < m) (K : List (V3 ℝ) → Num → ℝ → List (V3 Num))
    (hK : ∀ Y g R, K (Y.map (scP k)) (sc m g) (k * R) = (K Y g R).map (scV m)) (Y : List (V3 ℝ)) (gs : List Num) :
    ∀ (rs : List ℝ) (u : List (V3 Num)), addCyls K (Y.map (scP k)) (List.zip (gs.map (sc m)) (rs.map fun x => k * x)) (u.map (scV m)) =
      (addCyls K Y (List.zip gs rs) u).map (scV m) := by
  induction gs with
  | nil => intro rs u; rfl
  | cons g gs ih =>
    intro rs u
    cases rs with
    | nil => rfl
    | cons r rs =>
      simp only [addCyls, List.map_cons, List.zip_cons_cons, List.foldl_cons] at ih ⊢
      rw [abs_sc hm]
      simp only [pos_sc hm]
      split
      · rw [hK, ← scV_addFields hm, ih]
      · exact ih _ _

theorem addSkewCyls_scale (hm : 0 < m) (K : List (V3 ℝ) → Num → ℝ → Num → List (V3 Num))
    (hK : ∀ Y g R t, K (Y.map (scP k)) (sc m g) (k * R) t = (K Y g R t).map (scV m)) (Y : List (V3 ℝ)) (t : Num) (gs : List Num) :
    ∀ (rs : List ℝ) (u : List (V3 Num)),
      addSkewCyls K (Y.map (scP k)) (List.zipWith (fun g R => (g, R, t)) (gs.map (sc m)) (rs.map fun x => k * x)) (u.map (scV m)) =
      (addSkewCyls K Y (List.zipWith (fun g R => (g, R, t)) gs rs) u).map (scV m) := by
  induction gs with
  | nil => intro rs u; rfl
  | cons g gs ih =>
    intro rs u
    cases rs with
    | nil => rfl
    | cons r rs =>
      simp only [addSkewCyls, List.map_cons, List.zipWith_cons_cons, List.foldl_cons] at ih ⊢
      rw [abs_sc hm]
      simp only [pos_sc hm]
      split
      · rw [hK, ← scV_addFields hm, ih]
      · exact ih _ _

theorem zeros_scale (pts : List (V3 ℝ)) : ((pts.map (scP k)).map fun _ => (0 : V3 Num)) = (pts.map fun _ => (0 : V3 Num)).map (scV m) := by
  rw [List.map_map, List.map_map]; apply List.map_congr_left; intro p _; exact scV_zero.symm

theorem multiPart_scale (hk : 0 < k) (hm : 0 < m) (chi t : Num) (M : String) (gt : List Num) (gl : Option (List Num)) (r : Option (List ℝ)) (cyl : V3 ℝ) (G : Bool)
    (o : Opts) (pts : List (V3 ℝ)) (u : List (V3 Num)) :
    multiPart chi t M (gt.map (sc m)) (gl.map fun l => l.map (sc m)) (r.map fun l => l.map fun x => k * x) (scP k cyl) G o (pts.map (scP k)) (u.map (scV m)) =
      mapOk (List.map (scV m)) (multiPart chi t M gt gl r cyl G o pts u) := by
  have hvt := addCyls_scale hm (fun q ga R => vcTang q ga R 0) (fun Y g R => vcTang_scale hk hm Y g R)
  have hvl := addCyls_scale hm (fun q ga R => vcLongi q ga R false) (fun Y g R => vcLongi_scale hk hm Y g R)
  have hst := addSkewCyls_scale hm (fun q ga R t => svcTang q ga R t 180 false) (fun Y g R t => svcTang_scale hk hm Y g R t 180)
  have hsl := addSkewCyls_scale hm (fun q ga R t => svcLongi q ga R t 180 false) (fun Y g R t => svcLongi_scale hk hm Y g R t 180)
  unfold multiPart
  split
  · cases r with
    | none => rfl
    | some r =>
      have hany : (gl.map fun l => l.map (sc m)).any (fun l => decide (l.length ≠ r.length)) = gl.any (fun l => decide (l.length ≠ r.length)) := by
        cases gl with
        | none => rfl
        | some l => simp
      simp only [Option.map_some, List.length_map, hany]
      split
      · rfl
      · split
        · rfl
        · have eT : (if o.tang then addFields (u.map (scV m)) (if yawed chi then
                svcsTang (pts.map (scP k)) [⟨scP k cyl, List.zipWith (fun g R => (g, R, t)) (gt.map (sc m)) (r.map fun x => k * x)⟩] 180 G
              else vcsTang (pts.map (scP k)) [⟨scP k cyl, List.zip (gt.map (sc m)) (r.map fun x => k * x)⟩] 0 G) else u.map (scV m)) =
              (if o.tang then addFields u (if yawed chi then svcsTang pts [⟨cyl, List.zipWith (fun g R => (g, R, t)) gt r⟩] 180 G
              else vcsTang pts [⟨cyl, List.zip gt r⟩] 0 G) else u).map (scV m) := by
            split
            · rw [scV_addFields hm]
              congr 1
              split
              · simp only [svcsTang, List.foldl_cons, List.foldl_nil, relPts_scale, mirrorPts_scale, zeros_scale (m := m), hst]
                split <;> rfl
              · simp only [vcsTang, List.foldl_cons, List.foldl_nil, relPts_scale, mirrorPts_scale, zeros_scale (m := m), hvt]
                split <;> rfl
            · rfl
          rw [eT]
          generalize (if o.tang then addFields u (if yawed chi then svcsTang pts [⟨cyl, List.zipWith (fun g R => (g, R, t)) gt r⟩] 180 G
              else vcsTang pts [⟨cyl, List.zip gt r⟩] 0 G) else u) = u1
          cases o.longi
          · rfl
          · cases gl with
            | none => rfl
            | some gl =>
              simp only [Option.map_some, mapOk, scV_addFields hm]
              congr 2
              split
              · simp only [svcsLongi, List.foldl_cons, List.foldl_nil, relPts_scale, zeros_scale (m := m), hsl]
                split <;> rfl
              · simp only [vcsLongi, List.foldl_cons, List.foldl_nil, relPts_scale, zeros_scale (m := m), hvl]
  · rfl

theorem tangPart_scale (hk : 0 < k) (hm : 0 < m) (chi t : Num) (M : String) (hM : M ≠ "VCFF" ∧ M ≠ "VD") (g : Num) (R Rff : ℝ) (Y : List (V3 ℝ)) :
    tangPart chi t M (sc m g) (k * R) Rff (Y.map (scP k)) = mapOk (List.map (scV m)) (tangPart chi t M g R Rff Y) := by
  unfold tangPart
  split
  · split
    · rw [svcTang_scale hk hm]; rfl
    · rfl
  · split
    · rw [vcTang_scale hk hm]; rfl
    · rw [if_neg hM.1, if_neg hM.1, if_neg hM.2, if_neg hM.2]
      split
      · simp only [mapOk, List.map_map]
        congr 1
        apply List.map_congr_left
        intro p _
        simp only [Function.comp, ss_scale hk hm, ← sc_mul hm]
        rfl
      · rfl

theorem longiPart_scale (hk : 0 < k) (hm : 0 < m) (chi t : Num) (M : String) (g : Num) (R : ℝ) (Y : List (V3 ℝ)) :
    longiPart chi t M (sc m g) (k * R) (Y.map (scP k)) = mapOk (List.map (scV m)) (longiPart chi t M g R Y) := by
  unfold longiPart
  split
  · split
    · rw [svcLongi_scale hk hm]; rfl
    · rw [vcLongi_scale hk hm]; rfl
  · rfl

theorem accum_scale (hm : 0 < m) (u : List (V3 Num)) (x : Except String (List (V3 Num))) :
    accum (u.map (scV m)) (mapOk (List.map (scV m)) x) = mapOk (List.map (scV m)) (accum u x) := by
  cases x with
  | error e => rfl
  | ok x => simp only [accum, mapOk, scV_addFields hm]

theorem singleBody_scale (hk : 0 < k) (hm : 0 < m) (chi t : Num) (M : String) (hM : M ≠ "VCFF" ∧ M ≠ "VD") (g : Num) (gl : Option (List Num)) (R : ℝ) (o : Opts)
    (Y : List (V3 ℝ)) (u : List (V3 Num)) :
    singleBody chi t M (sc m g) (gl.map fun l => l.map (sc m)) (k * R) o (Y.map (scP k)) (u.map (scV m)) =
      mapOk (List.map (scV m)) (singleBody chi t M g gl R o Y u) := by
  have e1 : (if o.tang ∧ ¬ Num.Eqv (sc m g) 0 then accum (u.map (scV m)) (tangPart chi t M (sc m g) (k * R) o.R_far_field (Y.map (scP k))) else .ok (u.map (scV m))) =
      mapOk (List.map (scV m)) (if o.tang ∧ ¬ Num.Eqv g 0 then accum u (tangPart chi t M g R o.R_far_field Y) else .ok u) := by
    rw [eqv_zero_sc hm, tangPart_scale hk hm chi t M hM, accum_scale hm]
    split <;> rfl
  unfold singleBody
  rw [e1]
  generalize (if o.tang ∧ ¬ Num.Eqv g 0 then accum u (tangPart chi t M g R o.R_far_field Y) else .ok u) = x
  cases x with
  | error e => rfl
  | ok x =>
    simp only [mapOk]
    cases o.longi
    · rfl
    · cases gl with
      | none => rfl
      | some l =>
        rcases l with _ | ⟨a, _ | ⟨b, l⟩⟩
        · rfl
        · simp only [Option.map_some, List.map_cons, List.map_nil, eqv_zero_sc hm, longiPart_scale hk hm]
          split
          · exact accum_scale hm _ _
          · rfl
        · rfl

theorem overY_scale (f f' : List (V3 ℝ) → List (V3 Num) → Except String (List (V3 Num)))
    (hf : ∀ Y u, f' (Y.map (scP k)) (u.map (scV m)) = mapOk (List.map (scV m)) (f Y u)) (L : List (List (V3 ℝ))) :
    ∀ u, overY f' (u.map (scV m)) (L.map (List.map (scP k))) = mapOk (List.map (scV m)) (overY f u L) := by
  induction L with
  | nil => intro u; rfl
  | cons Y L ih =>
    intro u
    simp only [List.map_cons, overY, hf]
    cases f Y u with
    | error e => rfl
    | ok x => exact ih x

theorem sc_map (h : ScRel k m s v R M w w') (pts : List (V3 ℝ)) :
    (pts.map (scP k)).map (transformT w'.T_c2g) = (pts.map (transformT w.T_c2g)).map (scP k) := by
  rw [sc_T s v R M w w' h, List.map_map, List.map_map]; apply List.map_congr_left; intro p _; exact transformT_scale _ p

theorem sc_inducedC (hk : 0 < k) (hm : 0 < m) (h : ScRel k m s v R M w w') (chi : Num) (gt : List Num) (pts : List (V3 ℝ)) (o : Opts)
    (hM : o.Model.getD M ≠ "VCFF" ∧ o.Model.getD M ≠ "VD") (hr : o.root = false) :
    w'.inducedC chi (gt.map (sc m)) (pts.map (scP k)) o = mapOk (List.map (scV m)) (w.inducedC chi gt pts o) := by
  unfold WT.inducedC
  rw [hr]
  simp only [h.Ground, h.Model, h.Model', sc_map s v R M w w' h, h.hub, zeros_scale (m := m), h.gl, h.r]
  rw [sc_T s v R M w w' h]
  simp only [transformT_scale, relPts_scale, mirrorPts_scale]
  rw [show w'.R = k * w.R by rw [h.f'.R, h.f.R]]
  rcases gt with _ | ⟨g, _ | ⟨g', gt⟩⟩
  · exact multiPart_scale hk hm _ _ _ [] _ _ _ _ o _ _
  · simp only [List.map_cons, List.map_nil]
    have := overY_scale (k := k) (m := m) _ _ (singleBody_scale hk hm chi (Num.tan chi) (o.Model.getD M) hM g w.gamma_l w.R o)
    split
    · exact this [_, _] _
    · exact this [_] _
  · exact multiPart_scale hk hm _ _ _ (g :: g' :: gt) _ _ _ _ o _ _

theorem zeroWake_scale (hk : 0 < k) (rel : List (V3 ℝ)) (u : List (V3 Num)) :
    zeroWake (k * R) (rel.map (scP k)) (u.map (scV m)) = (zeroWake R rel u).map (scV m) := by
  unfold zeroWake
  rw [List.map_zipWith, List.zipWith_map]
  congr 1
  funext p x
  have : inRotorTube (k * R) (scP k p) ↔ inRotorTube R p := by
    have := scP_polarR hk p
    unfold inRotorTube
    rw [show √((scP k p).x^2 + (scP k p).y^2) = k * √(p.x^2+p.y^2) from this, show k * R * 1.001 = k * (R * 1.001) by ring,
      show -0.60 * (k * R) = k * (-0.60 * R) by ring, show (scP k p).z = k * p.z from rfl, mul_lt_mul_iff_right₀ hk, mul_le_mul_iff_right₀ hk]
  simp only [this]
  split
  · exact scV_zero.symm
  · rfl

theorem transform_scale (hm : 0 < m) (T : M3 Num) (u : V3 Num) : transform T (scV m u) = scV m (transform T u) := by
  apply V3.ext <;> simp only [transform, scV, ← sc_mul_right hm, ← sc_add hm]

/-- an evaluation in other units, strengths and velocities included -/
theorem sc_computeU (hk : 0 < k) (hm : 0 < m) (h : ScRel k m s v R M w w') (pts : List (V3 ℝ)) (o : Opts)
    (hM : o.Model.getD M ≠ "VCFF" ∧ o.Model.getD M ≠ "VD") (hr : o.root = false) :
    (w'.computeU (pts.map (scP k)) o).1 = mapOk (List.map (scV m)) (w.computeU pts o).1 := by
  have hrel : relC w' (pts.map (scP k)) = (relC w pts).map (scP k) := by
    unfold relC; rw [sc_map s v R M w w' h, h.hub, sc_T s v R M w w' h, transformT_scale, relPts_scale]
  rw [computeU_val, computeU_val, h.gt, sc_chi s v R M w w' hm h, hrel, show w'.R = k * w.R by rw [h.f'.R, h.f.R]]
  cases w.gamma_t with
  | none => rfl
  | some gt =>
    simp only [Option.map_some, sc_inducedC s v R M w w' hk hm h (usedChi w) gt pts o hM hr]
    cases w.inducedC (usedChi w) gt pts o with
    | error e => rfl
    | ok u =>
      simp only [mapOk]
      congr 1
      have hd : (if o.no_wake then zeroWake (k * w.R) ((relC w pts).map (scP k)) (u.map (scV m)) else u.map (scV m)) =
          (if o.no_wake then zeroWake w.R (relC w pts) u else u).map (scV m) := by
        split
        · exact zeroWake_scale _ hk _ _
        · rfl
      rw [hd]
      simp only [WT.toGlobal, List.map_map]
      apply List.map_congr_left
      intro x _
      simp only [Function.comp, sc_T s v R M w w' h, transform_scale hm, h.wind]
      split
      · rfl
      · rw [scV_add hm, scV_fin]

end
end Wiz
