import Verif.Props.CylinderAccuracy
import Verif.Props.FarmBlockage
import Verif.Props.FarField
import Verif.Props.SkewAccuracy

/-! # C119 (continued): the axis region, bounds everywhere, turbines and grid farms -/
namespace Wiz
open Spec Real Classical

theorem axis_small {R r z a x : ℝ} (hR : 0 < R) (hr0 : 0 ≤ r) (hr : r < 1e-7*R) (ha : 0 < a) (ha2 : a^2 = R^2 + z^2) (hx : |x| ≤ r) :
    |x*R^2/a^3| ≤ 1e-7 ∧ R^3*r^2/a^5 ≤ 1e-14 ∧ |z| * R^2*r^2/a^5 ≤ 1e-14 := by
  have hRa : R ≤ a := by
    by_contra h; push Not at h; nlinarith [sq_nonneg z]
  have hza : |z| ≤ a := abs_le_of_sq_le_sq (by nlinarith [sq_nonneg R]) ha.le
  have hr' : r ≤ 1e-7*R := hr.le
  refine ⟨?_, ?_, ?_⟩
  · rw [abs_div, abs_mul, abs_of_pos (by positivity : 0 < R^2), abs_of_pos (by positivity : 0 < a^3), div_le_iff₀ (by positivity)]
    calc |x| * R^2 ≤ (1e-7*R)*R^2 := by gcongr; linarith
      _ = 1e-7*R^3 := by ring
      _ ≤ 1e-7*a^3 := by gcongr
  · rw [div_le_iff₀ (by positivity)]
    calc R^3*r^2 ≤ R^3*(1e-7*R)^2 := by gcongr
      _ = 1e-14*R^5 := by ring
      _ ≤ 1e-14*a^5 := by gcongr
  · rw [div_le_iff₀ (by positivity)]
    calc |z| * R^2*r^2 ≤ a*a^2*(1e-7*a)^2 := by gcongr; nlinarith
      _ = 1e-14*a^5 := by ring

/-- C119 at every point off the edge of the rotor and off the sheet's radius, the axis region included: each horizontal component
is within `1e-7 |γ|` of Biot–Savart, and the axial one within 3%. -/
theorem C119_batch (pts : List (V3 ℝ)) (γ R : ℝ) (hR : 0 < R) (i : ℕ) (p : V3 ℝ) (hi : pts[i]? = some p)
    (hne : √(p.x^2 + p.y^2) ≠ R) (hoff : ¬ (|√(p.x^2 + p.y^2) - R| < 1e-8 * R ∧ |p.z| < 1e-8 * R)) :
    ∃ u : V3 ℝ, (vcTang pts (.fin γ) R 0)[i]? = some (V3.fin u) ∧
      |u.x - (cylinderField γ R p).x| ≤ 1e-7*|γ| ∧ |u.y - (cylinderField γ R p).y| ≤ 1e-7*|γ| ∧
      |u.z - (cylinderField γ R p).z| ≤ 3/100*|γ| := by
  have hγ := abs_nonneg γ
  by_cases hax : 1e-7 * R ≤ √(p.x^2 + p.y^2)
  · obtain ⟨d, hd, h⟩ := C119_tang pts γ R hR i p hi hax hne hoff
    refine ⟨_, h, ?_, ?_, ?_⟩
    · simp only [V3.add_x, add_zero, sub_self, abs_zero]; positivity
    · simp only [V3.add_y, add_zero, sub_self, abs_zero]; positivity
    · simp only [V3.add_z, add_sub_cancel_left]; exact hd
  · push Not at hax
    have ha : 0 < √(R^2 + p.z^2) := sqrt_pos.mpr (by positivity)
    have ha2 : √(R^2 + p.z^2)^2 = R^2 + p.z^2 := sq_sqrt (by positivity)
    have hr2 : √(p.x^2 + p.y^2)^2 = p.x^2 + p.y^2 := sq_sqrt (by positivity)
    have h2 : √(p.x^2 + p.y^2) ≤ R/5 := by norm_num at hax; linarith
    have hoff' : OffWake R 0 ⟨p.x, p.y, p.z⟩ := offWake_axis' hR (sqrt_nonneg _) hr2 h2
    have hc := (C78_fields γ R hR p hoff').1
    obtain ⟨k1, k2⟩ := cyl_near_axis_xy (x := p.x) (y := p.y) (z := p.z) γ hR (sqrt_nonneg _) hr2 h2 ha ha2
    have k3 := cyl_near_axis_z (x := p.x) (y := p.y) (z := p.z) γ hR (sqrt_nonneg _) hr2 h2 ha ha2
    change skewTangField γ R 0 ⟨p.x, p.y, p.z⟩ = _ at hc
    rw [hc] at k1 k2 k3
    have hxr : |p.x| ≤ √(p.x^2 + p.y^2) := abs_le_sqrt (by nlinarith [sq_nonneg p.y])
    have hyr : |p.y| ≤ √(p.x^2 + p.y^2) := abs_le_sqrt (by nlinarith [sq_nonneg p.x])
    obtain ⟨a1, a2, a3⟩ := axis_small hR (sqrt_nonneg _) hax ha ha2 hxr
    obtain ⟨a4, -, -⟩ := axis_small hR (sqrt_nonneg _) hax ha ha2 hyr
    refine ⟨_, vcTang_axis pts γ R hR i p hi hax, ?_, ?_, ?_⟩
    · simp only [zero_sub, abs_neg]
      generalize p.x * R^2/√(R^2 + p.z^2)^3 = X at *
      generalize R^3 * √(p.x^2 + p.y^2)^2/√(R^2 + p.z^2)^5 = Y at *
      have h1 : |(cylinderField γ R p).x| ≤ |γ/4*X| + 5/2*|γ| * Y := by
        have := abs_sub_abs_le_abs_sub (cylinderField γ R p).x (-(γ/4*X))
        rw [abs_neg] at this; linarith
      rw [abs_mul, abs_div, abs_of_pos (by norm_num : (0:ℝ) < 4)] at h1
      have : |γ|/4*|X| ≤ |γ|/4*1e-7 := by gcongr
      have : 5/2*|γ| * Y ≤ 5/2*|γ| * 1e-14 := by gcongr
      norm_num at *; linarith [abs_nonneg γ]
    · simp only [zero_sub, abs_neg]
      generalize p.y * R^2/√(R^2 + p.z^2)^3 = X at *
      generalize R^3 * √(p.x^2 + p.y^2)^2/√(R^2 + p.z^2)^5 = Y at *
      have h1 : |(cylinderField γ R p).y| ≤ |γ/4*X| + 5/2*|γ| * Y := by
        have := abs_sub_abs_le_abs_sub (cylinderField γ R p).y (-(γ/4*X))
        rw [abs_neg] at this; linarith
      rw [abs_mul, abs_div, abs_of_pos (by norm_num : (0:ℝ) < 4)] at h1
      have : |γ|/4*|X| ≤ |γ|/4*1e-7 := by gcongr
      have : 5/2*|γ| * Y ≤ 5/2*|γ| * 1e-14 := by gcongr
      norm_num at *; linarith [abs_nonneg γ]
    · simp only
      rw [abs_sub_comm, add_comm (p.z^2)]
      have : 5/2*|γ| * (|p.z| * R^2 * √(p.x^2 + p.y^2)^2/√(R^2 + p.z^2)^5) ≤ 5/2*|γ| * 1e-14 := by gcongr
      norm_num at *; linarith [abs_nonneg γ]

/-- `√(1-m) K(m) ≤ π/2` -/
theorem ellK_weighted {m : ℝ} (h0 : 0 ≤ m) (hm : m < 1) : √(1-m) * ellK m ≤ π/2 := by
  unfold ellK
  rw [← intervalIntegral.integral_const_mul]
  have hc : ∀ t : ℝ, 0 < 1 - m * sin t^2 := by
    intro t
    have := sin_sq_le_one t
    nlinarith [sq_nonneg (sin t)]
  have hi : IntervalIntegrable (fun t => √(1-m) * (1/√(1 - m*sin t^2))) MeasureTheory.volume 0 (π/2) := by
    apply Continuous.intervalIntegrable
    refine continuous_const.mul (continuous_const.div (by fun_prop) fun t => (sqrt_pos.mpr (hc t)).ne')
  calc _ ≤ ∫ t in (0:ℝ)..(π/2), (1:ℝ) := by
        apply intervalIntegral.integral_mono_on (by positivity) hi (by simp)
        intro t _
        rw [mul_one_div, div_le_one (sqrt_pos.mpr (hc t))]
        apply sqrt_le_sqrt
        have := sin_sq_le_one t
        nlinarith
    _ = π/2 := by simp

/-- C119, everywhere: at every point of every batch (axis, edge, sheet and rotor plane included) the axial velocity returned is a
finite number of magnitude at most `1.03 |γ|`. -/
theorem C119_bounded (pts : List (V3 ℝ)) (γ R : ℝ) (hR : 0 < R) (i : ℕ) (p : V3 ℝ) (hi : pts[i]? = some p) :
    ∃ u : V3 ℝ, (vcTang pts (.fin γ) R 0)[i]? = some (V3.fin u) ∧ |u.z| ≤ 103/100*|γ| := by
  have hγ := abs_nonneg γ
  have ev := vcTang_eval pts γ R hR
  have hg := congrArg (fun l => l[i]?) ev
  simp only [List.getElem?_map, hi, Option.map_some] at hg
  refine ⟨_, hg, ?_⟩
  simp only
  by_cases h1 : |polarR p.x p.y - R| < 1e-8*R ∧ |p.z| < 1e-8*R
  · simp only [vcVal, if_pos h1]
    rw [abs_div, abs_of_pos (by norm_num : (0:ℝ) < 4)]; linarith
  by_cases h2 : polarR p.x p.y < 1e-7*R
  · simp only [vcVal, if_neg h1, if_pos h2]
    have hs : 0 < √(p.z^2 + R^2) := sqrt_pos.mpr (by positivity)
    have : |p.z/√(p.z^2 + R^2)| ≤ 1 := by
      rw [abs_div, abs_of_pos hs, div_le_one hs]
      exact abs_le_sqrt (by nlinarith [sq_nonneg R])
    have h3 : |1 + p.z/√(p.z^2 + R^2)| ≤ 2 := by
      rw [abs_le] at *; constructor <;> linarith [this.1, this.2]
    rw [abs_mul, abs_div, abs_of_pos (by norm_num : (0:ℝ) < 2)]
    nlinarith
  by_cases h3 : polarR p.x p.y = R
  · simp only [vcVal, if_neg h1, if_neg h2]
    simp only [vcUz, vcT, h3, lt_irrefl, if_false, if_true, sub_self, zero_div, zero_mul, add_zero]
    have hz : p.z ≠ 0 := by
      intro hz; apply h1; rw [h3, hz]; simp only [sub_self, abs_zero]; constructor <;> positivity
    have hm := vcM_lt (z := p.z) hR hR.le (fun h => hz h.2)
    have hm0 := vcM_pos hR hR p.z
    have hK := ellK_weighted hm0.le hm
    have hK0 := ellK_pos hm
    have e1 : 1 - vcM R R p.z = p.z^2/((R+R)^2+p.z^2) := by
      have : (R+R)^2+p.z^2 ≠ 0 := by positivity
      unfold vcM; field_simp; ring
    have e2 : √(vcM R R p.z) = 2*R/√((R+R)^2+p.z^2) := by
      unfold vcM
      rw [sqrt_div (by positivity), show 4*R*R = (2*R)^2 by ring, sqrt_sq (by positivity)]
    rw [e1, sqrt_div (sq_nonneg _), sqrt_sq_eq_abs] at hK
    rw [e2, show R*R = R^2 by ring, sqrt_sq hR.le]
    generalize ellK (vcM R R p.z) = K at *
    have hpi := pi_pos
    have hS : 0 < √((R+R)^2+p.z^2) := sqrt_pos.mpr (by positivity)
    generalize √((R+R)^2+p.z^2) = S at *
    have e3 : p.z * (2*R/S)/(2*π*R)*K = (p.z/S*K)/π := by field_simp
    have h4 : |p.z * (2*R/S)/(2*π*R)*K| ≤ 1/2 := by
      rw [e3, abs_div, abs_of_pos hpi, div_le_iff₀ hpi, abs_mul, abs_div, abs_of_pos hS, abs_of_pos hK0]
      linarith
    have h5 : |1/2 + p.z * (2*R/S)/(2*π*R)*K| ≤ 1 := by
      rw [abs_le] at *; constructor <;> linarith [h4.1, h4.2]
    rw [abs_mul, abs_div, abs_of_pos (by norm_num : (0:ℝ) < 2)]
    nlinarith
  by_cases h4 : p.z = 0
  · obtain ⟨ur, hur⟩ := C43_rotor_plane pts γ R hR i p hi h4
    rw [vcTangPolar_eval _ _ _ hR, List.getElem?_map, hi, Option.map_some] at hur
    have := Num.fin.inj (congrArg Prod.snd (Option.some.inj hur))
    rw [this]
    split_ifs
    · rw [abs_div, abs_of_pos (by norm_num : (0:ℝ) < 4)]; linarith
    · rw [abs_div, abs_of_pos (by norm_num : (0:ℝ) < 2)]; linarith
    · rw [abs_zero]; positivity
  · obtain ⟨u, hu, -, -, hz⟩ := C119_batch pts γ R hR i p hi h3 h1
    rw [hg] at hu
    have := congrArg V3.z (fin_inj3 _ _ (Option.some.inj hu))
    simp only at this
    rw [this]
    push Not at h2
    have hr : 0 < polarR p.x p.y := lt_of_lt_of_le (by positivity) h2
    obtain ⟨b1, b2, b3, b4, b5⟩ := C111_solid_angle γ R hR p h4
    have hpi := pi_pos
    have hx : |(cylinderField γ R p).z| ≤ |γ| := by
      have q : 0 ≤ diskSolidAngle R p/(4*π) ∧ diskSolidAngle R p/(4*π) ≤ 1 := by
        constructor
        · positivity
        · rw [div_le_one (by positivity)]; linarith
      have e : γ/(4*π)*diskSolidAngle R p = γ*(diskSolidAngle R p/(4*π)) := by ring
      rw [e] at b3 b4 b5
      generalize diskSolidAngle R p/(4*π) = t at *
      rcases lt_or_gt_of_ne h4 with h | h
      · rw [b3 h, abs_mul, abs_of_nonneg q.1]; nlinarith [q.2]
      · rcases lt_or_gt_of_ne h3 with h' | h'
        · rw [b4 h hr h', show γ - γ*t = γ*(1-t) by ring, abs_mul, abs_of_nonneg (sub_nonneg.mpr q.2)]; nlinarith [q.1]
        · rw [b5 h h', abs_neg, abs_mul, abs_of_nonneg q.1]; nlinarith [q.2]
    have := abs_sub_abs_le_abs_sub u.z (cylinderField γ R p).z
    linarith

/-- C119 for a turbine, after any history of calls: with one unskewed cylinder of strength `γ`, at every point off the edge of the
rotor and off the sheet's radius, the velocity is the free stream (if asked for) plus the Biot–Savart velocity of the sheet
placed on the turbine's rotor, up to 3% of `|γ|` along the shaft and `1e-7 |γ|` along the two other axes. -/
theorem C119_turbine (mini : (ℝ → Num) → ℝ) (R : ℝ) (hub shaft vert U0 : V3 ℝ) (L : Option Num) (G : Bool)
    (M : String) (ho : Orthonormal shaft vert) (hR : 0 < R) (h : List Op) (pts : List (V3 ℝ)) (o : Opts) (γ : ℝ) (chi : Num) :
    let w := (WT.new R hub shaft vert U0 L G M).run mini h
    let s := w.e_shaft_g
    let a := V3.cross vert s
    PlainEval w o → w.gamma_t = some [.fin γ] → (w.computeU pts o).2.chi = some chi → ¬ (Num.fin 1e-7 < Num.abs chi) →
    ∃ u, (w.computeU pts o).1 = .ok u ∧ ∀ (i : ℕ) (p : V3 ℝ), pts[i]? = some p → ∀ z r : ℝ,
      z = V3.dot (p - w.r_hub) s → r = V3.norm (p - w.r_hub - V3.smul z s) → r ≠ R → ¬ (|r - R| < 1e-8 * R ∧ |z| < 1e-8 * R) →
      ∃ F e v : V3 ℝ, F = cylinderField γ R ⟨V3.dot (p - w.r_hub) a, V3.dot (p - w.r_hub) vert, z⟩ ∧ u[i]? = some (V3.fin v) ∧
        v = (if o.only_ind then 0 else w.U0_g) + V3.smul (F.x + e.x) a + V3.smul (F.y + e.y) vert + V3.smul (F.z + e.z) s ∧
        |e.x| ≤ 1e-7*|γ| ∧ |e.y| ≤ 1e-7*|γ| ∧ |e.z| ≤ 3/100*|γ| := by
  intro w s a hp hg hchi hsk
  obtain ⟨u, hu, hall⟩ := plain_value mini R hub shaft vert U0 L G M ho hR h pts o γ chi hp hg hchi hsk
  refine ⟨u, hu, fun i p hpi z r hzd hrd hne hoff => ?_⟩
  obtain ⟨c, hc, huc⟩ := hall i p hpi
  obtain ⟨a1, a2, a3, a4, a5, a6⟩ := rotorAxes_run mini R hub shaft vert U0 L G M ho h
  change V3.dot a a = 1 at a1
  change V3.dot a vert = 0 at a2
  change V3.dot a s = 0 at a3
  change V3.dot vert s = 0 at a5
  change V3.dot s s = 1 at a6
  have hY : (rotorAxes a vert s w.r_hub pts)[i]? = some ⟨V3.dot (p - w.r_hub) a, V3.dot (p - w.r_hub) vert, z⟩ := by
    simp only [rotorAxes, List.getElem?_map, hpi, Option.map_some, hzd]
  have hexp := expand_frame vert s (p - w.r_hub) ho.vert a6 (by rw [← a5]; simp [V3.dot]; ring)
  have hn : √((V3.dot (p - w.r_hub) a)^2 + (V3.dot (p - w.r_hub) vert)^2) = r := by
    rw [hrd]
    have : V3.norm (p - w.r_hub - V3.smul z s) = √(V3.dot (p - w.r_hub) (p - w.r_hub) - 2*z*V3.dot (p - w.r_hub) s + z^2*V3.dot s s) := by
      unfold V3.norm V3.dot; congr 1; simp; ring
    rw [this, a6, hexp, ← hzd]
    congr 1; ring
  obtain ⟨u', b1, b2, b3, b4⟩ := C119_batch (rotorAxes a vert s w.r_hub pts) γ R hR i _ hY (by simp only; rw [hn]; exact hne)
    (by simp only; rw [hn]; exact hoff)
  rw [hc] at b1
  have hcu := fin_inj3 _ _ (Option.some.inj b1)
  subst hcu
  refine ⟨_, c - cylinderField γ R ⟨V3.dot (p - w.r_hub) a, V3.dot (p - w.r_hub) vert, z⟩, _, rfl, huc, ?_, b2, b3, b4⟩
  ext <;> simp <;> ring

/-- a loaded turbine, asked for the velocity 100 m upstream and 30 m off the shaft axis, meets the hypotheses (the same state as in
the example of C111) -/
example (mini : (ℝ → Num) → ℝ) :
    let w := (WT.new 50 ⟨1,2,3⟩ ⟨0,0,1⟩ ⟨0,1,0⟩ ⟨0,0,10⟩ none false "VC").run mini
      [.chi (some 0), .loading { Ct := some [.fin 1], Lambda := some .pinf, gamma_t_Ct := some fun _ => [.fin (-1)] }]
    PlainEval w { only_ind := true } ∧ w.gamma_t = some [.fin (-1)] ∧ (w.computeU [⟨31, 2, -97⟩] { only_ind := true }).2.chi = some 0 := by
  intro w
  obtain ⟨b1, b2, b3, b4, b5, b6, b7, b8, b9, b10, b11, b12, b13, b14⟩ := loading_frame mini
    ((WT.new 50 ⟨1,2,3⟩ ⟨0,0,1⟩ ⟨0,1,0⟩ ⟨0,0,10⟩ none false "VC").run mini [.chi (some 0)])
    { Ct := some [.fin 1], Lambda := some .pinf, gamma_t_Ct := some fun _ => [.fin (-1)] }
  refine ⟨⟨rfl, rfl, rfl, rfl, b14.trans rfl, b12.trans rfl⟩, rfl, ?_⟩
  rw [computeU_state]
  have : w.chi = some 0 := b13.trans rfl
  change some (usedChi w) = _
  unfold usedChi
  rw [this]

/-- C119 for a grid farm: upstream of every row the computed axial velocity differs from `-U0(1-√(1-CT))/4π · ΣΩ` by at most 3% of
`|U0(1-√(1-CT))|` per turbine (and per image). -/
theorem C119_grid (pts : List (V3 ℝ)) (R ct u0 : ℝ) (hR : 0 < R) (hct : ct ≤ 1) (nx nz : ℕ) (xS zS h : ℝ) (mirror : Bool)
    (k : ℕ) (p : V3 ℝ) (hk : pts[k]? = some p) (d : Bool → ℕ → ℕ → V3 ℝ) (r : Bool → ℕ → ℕ → ℝ)
    (hd : ∀ b i j, d b i j = p - ⟨((j:ℝ) - ((nx/2 : ℕ) : ℝ))*xS, if b then -h else h, (i:ℝ)*zS⟩)
    (hr : ∀ b i j, r b i j = √((d b i j).x^2 + (d b i j).y^2))
    (hup : ∀ b i j, (b = true → mirror = true) → i < nz → j < nx → (d b i j).z < 0 ∧ r b i j ≠ R ∧ ¬ (|r b i j - R| < 1e-8 * R ∧ |(d b i j).z| < 1e-8 * R)) :
    ∃ (u : List (V3 Num)) (w : ℝ), gridlayoutCTconst pts R (.fin ct) (.fin u0) nx xS nz (some zS) h mirror = .ok u ∧
      (u.getD k 0).z = .fin w ∧
      |w - ∑ b ∈ (if mirror then {false, true} else {false} : Finset Bool), ∑ i ∈ Finset.range nz, ∑ j ∈ Finset.range nx,
        -(u0 * (1 - √(1 - ct)))/(4*π) * diskSolidAngle R (if r b i j < 1e-7 * R then ⟨0, 0, (d b i j).z⟩ else d b i j)|
        ≤ (if mirror then 2 else 1)*nz*nx*(3/100*|u0 * (1 - √(1 - ct))|) := by
  obtain ⟨u, w, e, h1, h2, h3, h4⟩ := farm_core pts R ct u0 hR hct nx nz xS zS h mirror k p hk d r hd hr hup
  refine ⟨u, w, h1, h2, ?_⟩
  have he : ∀ b i j, (b = true → mirror = true) → i < nz → j < nx → |e b i j| ≤ 3/100*|u0 * (1 - √(1 - ct))| := by
    intro b i j hb hi hj
    obtain ⟨-, q1, q2, q3, -⟩ := h4 b i j hb hi hj
    by_cases h0 : u0 * (1 - √(1 - ct)) = 0
    · rw [q1 h0, h0]; simp
    by_cases hax : r b i j < 1e-7 * R
    · rw [q3 hax, abs_zero]; positivity
    obtain ⟨v, v1, v2⟩ := q2 h0
    rw [if_neg hax] at v2
    obtain ⟨z0, hne, hoff⟩ := hup b i j hb hi hj
    have hrel : (pts.map fun q => q - (⟨((j:ℝ) - ((nx/2 : ℕ) : ℝ))*xS, if b then -h else h, (i:ℝ)*zS⟩ : V3 ℝ))[k]? = some (d b i j) := by
      rw [List.getElem?_map, hk, Option.map_some, hd]
    rw [hr] at hne hoff
    obtain ⟨v', w1, -, -, w2⟩ := C119_batch _ (-(u0 * (1 - √(1 - ct)))) R hR k _ hrel hne hoff
    rw [v1] at w1
    have hv := fin_inj3 _ _ (Option.some.inj w1)
    subst hv
    have hz := (C111_solid_angle (-(u0 * (1 - √(1 - ct)))) R hR (d b i j) z0.ne).2.2.1 z0
    rw [v2, hz, abs_neg] at w2
    simpa using w2
  have hS : ∀ b, (b = true → mirror = true) → |∑ i ∈ Finset.range nz, ∑ j ∈ Finset.range nx, e b i j| ≤ nz*nx*(3/100*|u0 * (1 - √(1 - ct))|) := by
    intro b hb
    calc _ ≤ ∑ i ∈ Finset.range nz, |∑ j ∈ Finset.range nx, e b i j| := Finset.abs_sum_le_sum_abs _ _
      _ ≤ ∑ i ∈ Finset.range nz, ∑ j ∈ Finset.range nx, |e b i j| := Finset.sum_le_sum fun i _ => Finset.abs_sum_le_sum_abs _ _
      _ ≤ ∑ i ∈ Finset.range nz, ∑ j ∈ Finset.range nx, 3/100*|u0 * (1 - √(1 - ct))| :=
        Finset.sum_le_sum fun i hi => Finset.sum_le_sum fun j hj => he b i j hb (Finset.mem_range.mp hi) (Finset.mem_range.mp hj)
      _ = _ := by simp; ring
  rw [h3]
  simp only [Finset.sum_add_distrib, add_sub_cancel_left]
  cases mirror
  · simp only [Bool.false_eq_true, if_false, Finset.sum_singleton, one_mul]
    exact hS false (by simp)
  · simp only [if_true]
    rw [Finset.sum_pair (by decide)]
    have a1 := hS false (by simp)
    have a2 := hS true (fun _ => rfl)
    have := abs_add_le (∑ i ∈ Finset.range nz, ∑ j ∈ Finset.range nx, e false i j) (∑ i ∈ Finset.range nz, ∑ j ∈ Finset.range nx, e true i j)
    linarith

/-- points upstream of a 2 by 2 farm with images meet the hypotheses: the mid-height point of the first row's centre line -/
example : let d : Bool → ℕ → ℕ → V3 ℝ := fun b i j => (⟨0, 70, -100⟩ : V3 ℝ) - ⟨((j:ℝ) - ((2/2 : ℕ) : ℝ))*500, if b then -100 else 100, (i:ℝ)*700⟩
    ∀ b i j, i < 2 → j < 2 → (d b i j).z < 0 ∧ √((d b i j).x^2 + (d b i j).y^2) ≠ 50 ∧
      ¬ (|√((d b i j).x^2 + (d b i j).y^2) - 50| < 1e-8 * 50 ∧ |(d b i j).z| < 1e-8 * 50) := by
  intro d b i j hi hj
  have hz : (d b i j).z ≤ -100 := by
    simp only [d, V3.sub_z]
    have : (0:ℝ) ≤ i := by positivity
    linarith
  have hr : √((d b i j).x^2 + (d b i j).y^2) ≠ 50 := by
    intro h
    have h2 : (d b i j).x^2 + (d b i j).y^2 = 50^2 := by rw [← h, sq_sqrt (by positivity)]
    simp only [d, V3.sub_x, V3.sub_y] at h2
    interval_cases j <;> cases b <;> norm_num at h2
  refine ⟨by linarith, hr, fun h => ?_⟩
  have h2 := (abs_lt.mp h.2).1
  norm_num at h2
  linarith
end Wiz
