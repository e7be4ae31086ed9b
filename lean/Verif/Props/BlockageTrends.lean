import Verif.Lemmas.RadialDecay
import Verif.Props.CylinderAccuracy2

/-! # C129: how the blockage varies away from the axis and with the spacing -/
namespace Wiz
open Spec Real Classical
set_option autoImplicit false

/-- C129: the solid angle of the rotor decreases strictly with the distance from the axis, in every plane parallel to the rotor. -/
theorem C129_solid_angle (R : ℝ) (hR : 0 < R) (P Q : V3 ℝ) (hz : P.z ≠ 0) (h : |Q.z| = |P.z|) (hr : √(P.x^2 + P.y^2) < √(Q.x^2 + Q.y^2)) :
    0 < diskSolidAngle R Q ∧ diskSolidAngle R Q < diskSolidAngle R P ∧ diskSolidAngle R P ≤ 2*π*(1 - |P.z|/√(P.z^2 + R^2)) := by
  have hz' : Q.z ≠ 0 := by rw [← abs_pos, h]; exact abs_pos.2 hz
  refine ⟨(C111_solid_angle 1 R hR Q hz').1, solidAngle_decreases R hR P Q hz h hr, ?_⟩
  rw [← solidAngle_axis R P.z hR hz]
  rcases (sqrt_nonneg (P.x^2 + P.y^2)).eq_or_lt with e | e
  · have : P.x^2 + P.y^2 = 0 := by
      have := sqrt_eq_zero (by positivity : 0 ≤ P.x^2 + P.y^2)
      exact this.1 e.symm
    have hx : P.x = 0 := by nlinarith [sq_nonneg P.x, sq_nonneg P.y]
    have hy : P.y = 0 := by nlinarith [sq_nonneg P.x, sq_nonneg P.y]
    have : P = ⟨0, 0, P.z⟩ := V3.ext hx hy rfl
    rw [← this]
  · exact (solidAngle_decreases R hR ⟨0, 0, P.z⟩ P hz rfl (by simpa using e)).le

/-- C129: the Biot–Savart field of a wind turbine's wake (`γ<0`), in a plane parallel to the rotor: upstream the slow-down is largest on the
axis and decreases strictly away from it; in the wake the deficit increases strictly towards the boundary; around the wake the speed-up
decreases strictly with the distance. -/
theorem C129_field (γ R : ℝ) (hγ : γ < 0) (hR : 0 < R) (P Q : V3 ℝ) (h : Q.z = P.z) (hr : √(P.x^2 + P.y^2) < √(Q.x^2 + Q.y^2)) :
    (P.z < 0 → (cylinderField γ R P).z < (cylinderField γ R Q).z ∧ (cylinderField γ R Q).z < 0 ∧
      γ/2 * (1 + P.z/√(P.z^2 + R^2)) ≤ (cylinderField γ R P).z) ∧
    (0 < P.z → 0 < √(P.x^2 + P.y^2) → √(Q.x^2 + Q.y^2) < R → (cylinderField γ R Q).z < (cylinderField γ R P).z) ∧
    (0 < P.z → R < √(P.x^2 + P.y^2) → 0 < (cylinderField γ R Q).z ∧ (cylinderField γ R Q).z < (cylinderField γ R P).z) := by
  have hpi := pi_pos
  have hk : γ/(4*π) < 0 := div_neg_of_neg_of_pos hγ (by positivity)
  have main : P.z ≠ 0 → 0 < diskSolidAngle R Q ∧ diskSolidAngle R Q < diskSolidAngle R P ∧ diskSolidAngle R P ≤ 2*π*(1 - |P.z|/√(P.z^2 + R^2)) :=
    fun hz => C129_solid_angle R hR P Q hz (by rw [h]) hr
  have gP := fun hz => C111_solid_angle γ R hR P hz
  have gQ := fun hz : P.z ≠ 0 => C111_solid_angle γ R hR Q (by rw [h]; exact hz)
  rw [h] at gQ
  refine ⟨fun hz => ?_, fun hz h0 h1 => ?_, fun hz h1 => ?_⟩
  · obtain ⟨m1, m2, m3⟩ := main hz.ne
    rw [(gP hz.ne).2.2.1 hz, (gQ hz.ne).2.2.1 hz]
    refine ⟨by nlinarith, by nlinarith, ?_⟩
    have := mul_le_mul_of_nonpos_left m3 hk.le
    refine le_trans (le_of_eq ?_) this
    rw [abs_of_neg hz]
    field_simp
    ring
  · obtain ⟨m1, m2, -⟩ := main hz.ne'
    rw [(gP hz.ne').2.2.2.1 hz h0 (hr.trans h1), (gQ hz.ne').2.2.2.1 hz (h0.trans hr) h1]
    nlinarith
  · obtain ⟨m1, m2, -⟩ := main hz.ne'
    rw [(gP hz.ne').2.2.2.2 hz h1, (gQ hz.ne').2.2.2.2 hz (h1.trans hr)]
    constructor <;> nlinarith

/-- C129 for a turbine, after any history of calls, straight wake of strength `γ<0`, one cylinder: of two points in the same plane upstream of
the rotor, the one closer to the shaft axis is slowed down more, up to the 3% accuracy of each of the two values; no point is
slowed down by more than the value on the axis, `|γ|/2(1+z/√(z²+R²))`, plus 3% of `|γ|`. -/
theorem C129_turbine (mini : (ℝ → Num) → ℝ) (R : ℝ) (hub shaft vert U0 : V3 ℝ) (L : Option Num) (G : Bool)
    (M : String) (ho : Orthonormal shaft vert) (hR : 0 < R) (h : List Op) (pts : List (V3 ℝ)) (o : Opts) (γ : ℝ) (hγ : γ < 0) (chi : Num) :
    let w := (WT.new R hub shaft vert U0 L G M).run mini h
    PlainEval w o → o.only_ind = true → w.gamma_t = some [.fin γ] → (w.computeU pts o).2.chi = some chi → ¬ (Num.fin 1e-7 < Num.abs chi) →
    ∃ u, (w.computeU pts o).1 = .ok u ∧ ∀ (i j : ℕ) (p q : V3 ℝ), pts[i]? = some p → pts[j]? = some q →
      ∀ z rp rq : ℝ, z = V3.dot (p - w.r_hub) w.e_shaft_g → z = V3.dot (q - w.r_hub) w.e_shaft_g →
        rp = V3.norm (p - w.r_hub - V3.smul z w.e_shaft_g) → rq = V3.norm (q - w.r_hub - V3.smul z w.e_shaft_g) →
        z ≤ -(1e-8 * R) → rp < rq → rp ≠ R → rq ≠ R →
      ∃ vp vq : V3 ℝ, u[i]? = some (V3.fin vp) ∧ u[j]? = some (V3.fin vq) ∧
        V3.dot vp w.e_shaft_g ≤ V3.dot vq w.e_shaft_g + 6/100*|γ| ∧
        γ/2 * (1 + z/√(z^2 + R^2)) - 3/100*|γ| ≤ V3.dot vp w.e_shaft_g ∧ V3.dot vp w.e_shaft_g ≤ 3/100*|γ| := by
  intro w hp hoi hg hchi hsk
  obtain ⟨u, hu, hall⟩ := C119_turbine mini R hub shaft vert U0 L G M ho hR h pts o γ chi hp hg hchi hsk
  refine ⟨u, hu, fun i j p q hi hj z rp rq zp zq ep eq hz hlt np nq => ?_⟩
  have hz0 : z < 0 := by have : 0 < 1e-8*R := by positivity
                         linarith
  have hoff : ∀ r : ℝ, ¬ (|r - R| < 1e-8 * R ∧ |z| < 1e-8 * R) := by
    rintro r ⟨-, h2⟩
    rw [abs_of_neg hz0] at h2; linarith
  obtain ⟨a1, a2, a3, a4, a5, a6⟩ := rotorAxes_run mini R hub shaft vert U0 L G M ho h
  change V3.dot (V3.cross vert w.e_shaft_g) (V3.cross vert w.e_shaft_g) = 1 at a1
  change V3.dot (V3.cross vert w.e_shaft_g) vert = 0 at a2
  change V3.dot (V3.cross vert w.e_shaft_g) w.e_shaft_g = 0 at a3
  change V3.dot vert w.e_shaft_g = 0 at a5
  change V3.dot w.e_shaft_g w.e_shaft_g = 1 at a6
  have hpol : ∀ (x : V3 ℝ) (r : ℝ), z = V3.dot (x - w.r_hub) w.e_shaft_g → r = V3.norm (x - w.r_hub - V3.smul z w.e_shaft_g) →
      √((V3.dot (x - w.r_hub) (V3.cross vert w.e_shaft_g))^2 + (V3.dot (x - w.r_hub) vert)^2) = r := by
    intro x r hx hr
    have hexp := expand_frame vert w.e_shaft_g (x - w.r_hub) ho.vert a6 (by rw [← a5]; simp [V3.dot]; ring)
    rw [hr]
    have : V3.norm (x - w.r_hub - V3.smul z w.e_shaft_g) =
        √(V3.dot (x - w.r_hub) (x - w.r_hub) - 2*z*V3.dot (x - w.r_hub) w.e_shaft_g + z^2*V3.dot w.e_shaft_g w.e_shaft_g) := by
      unfold V3.norm V3.dot; congr 1; simp; ring
    rw [this, a6, hexp, ← hx]
    congr 1; ring
  obtain ⟨Fp, dp, vp, f1, f2, f3, -, -, f6⟩ := hall i p hi z rp zp ep np (hoff rp)
  obtain ⟨Fq, dq, vq, g1, g2, g3, -, -, g6⟩ := hall j q hj z rq zq eq nq (hoff rq)
  have hdot : ∀ A B C : ℝ, V3.dot ((0 : V3 ℝ) + V3.smul A (V3.cross vert w.e_shaft_g) + V3.smul B vert + V3.smul C w.e_shaft_g) w.e_shaft_g = C := by
    intro A B C
    have : V3.dot ((0 : V3 ℝ) + V3.smul A (V3.cross vert w.e_shaft_g) + V3.smul B vert + V3.smul C w.e_shaft_g) w.e_shaft_g =
        A*V3.dot (V3.cross vert w.e_shaft_g) w.e_shaft_g + B*V3.dot vert w.e_shaft_g + C*V3.dot w.e_shaft_g w.e_shaft_g := by
      simp [V3.dot]; ring
    rw [this, a3, a5, a6]; ring
  have ep' : V3.dot vp w.e_shaft_g = Fp.z + dp.z := by rw [f3, hoi, if_pos rfl]; exact hdot _ _ _
  have eq' : V3.dot vq w.e_shaft_g = Fq.z + dq.z := by rw [g3, hoi, if_pos rfl]; exact hdot _ _ _
  refine ⟨vp, vq, f2, g2, ?_⟩
  rw [ep', eq']
  obtain ⟨t, -, -⟩ := C129_field γ R hγ hR ⟨V3.dot (p - w.r_hub) (V3.cross vert w.e_shaft_g), V3.dot (p - w.r_hub) vert, z⟩
    ⟨V3.dot (q - w.r_hub) (V3.cross vert w.e_shaft_g), V3.dot (q - w.r_hub) vert, z⟩ rfl (by
      simp only; rw [hpol p rp zp ep, hpol q rq zq eq]; exact hlt)
  obtain ⟨t1, t2, t3⟩ := t hz0
  have hFp : Fp = cylinderField γ R ⟨V3.dot (p - w.r_hub) (V3.cross vert w.e_shaft_g), V3.dot (p - w.r_hub) vert, z⟩ := f1
  have hFq : Fq = cylinderField γ R ⟨V3.dot (q - w.r_hub) (V3.cross vert w.e_shaft_g), V3.dot (q - w.r_hub) vert, z⟩ := g1
  rw [← hFp] at t1 t3
  rw [← hFq] at t1 t2
  simp only at t3
  have b1 := abs_le.1 f6
  have b2 := abs_le.1 g6
  refine ⟨by linarith, by linarith, by linarith⟩

/-- C129 for a row of turbines: the blockage on the centre line of a row decreases with the spacing (at least one diameter).  The axial velocity
computed by `windfarm_gridlayout_CTconst` upstream of the row is `-U0(1-√(1-CT))·B(S)` within 3% of `|U0(1-√(1-CT))|` per turbine and
image, where `B` — the sum of the solid angles over `4π` — is positive and strictly decreasing in the spacing `S` for at least two turbines. -/
theorem C129_row (R ct u0 : ℝ) (hR : 0 < R) (hct : ct ≤ 1) (nx : ℕ) (hnx : 2 ≤ nx) (h : ℝ) (mirror : Bool) (hh : mirror = true → R ≤ h) (z : ℝ)
    (hz8 : z ≤ -(1e-8 * R)) (B : ℝ → ℝ)
    (hB : ∀ S, B S = ∑ b ∈ (if mirror then {false, true} else {false} : Finset Bool), ∑ j ∈ Finset.range nx,
      diskSolidAngle R ⟨-(((j:ℝ) - ((nx/2 : ℕ) : ℝ))*S), if b then 2*h else 0, z⟩/(4*π)) :
    (∀ S1 S2, 0 < S1 → S1 < S2 → 0 < B S2 ∧ B S2 < B S1) ∧
    ∀ S, 2*R ≤ S → ∀ (pts : List (V3 ℝ)) (k : ℕ) (zS : ℝ), pts[k]? = some ⟨0, h, z⟩ →
      ∃ (u : List (V3 Num)) (w : ℝ), gridlayoutCTconst pts R (.fin ct) (.fin u0) nx S 1 (some zS) h mirror = .ok u ∧ (u.getD k 0).z = .fin w ∧
        |w + u0 * (1 - √(1 - ct)) * B S| ≤ (if mirror then 2 else 1)*nx*(3/100*|u0 * (1 - √(1 - ct))|) := by
  have hpi := pi_pos
  have hz : z < 0 := by have : 0 < 1e-8*R := by positivity
                        linarith
  constructor
  · intro S1 S2 h1 h2
    have pos : ∀ (S : ℝ) (b : Bool) (j : ℕ), 0 < diskSolidAngle R ⟨-(((j:ℝ) - ((nx/2 : ℕ) : ℝ))*S), if b then 2*h else 0, z⟩/(4*π) := fun S b j =>
      div_pos (C111_solid_angle 1 R hR _ hz.ne).1 (by positivity)
    have hne : (if mirror then {false, true} else {false} : Finset Bool).Nonempty := by cases mirror <;> simp
    have hne2 : (Finset.range nx).Nonempty := Finset.nonempty_range_iff.2 (by omega)
    have step : ∀ (b : Bool) (j : ℕ), j ≠ nx/2 → diskSolidAngle R ⟨-(((j:ℝ) - ((nx/2 : ℕ) : ℝ))*S2), if b then 2*h else 0, z⟩/(4*π) <
        diskSolidAngle R ⟨-(((j:ℝ) - ((nx/2 : ℕ) : ℝ))*S1), if b then 2*h else 0, z⟩/(4*π) := by
      intro b j hj
      apply div_lt_div_of_pos_right _ (by positivity)
      refine solidAngle_decreases R hR ⟨-(((j:ℝ) - ((nx/2 : ℕ) : ℝ))*S1), if b then 2*h else 0, z⟩ ⟨-(((j:ℝ) - ((nx/2 : ℕ) : ℝ))*S2), if b then 2*h else 0, z⟩ hz.ne rfl ?_
      apply sqrt_lt_sqrt (by positivity)
      simp only
      have hd : (0:ℝ) < ((j:ℝ) - ((nx/2 : ℕ) : ℝ))^2 := by
        apply sq_pos_of_ne_zero
        intro e
        apply hj
        have : (j:ℝ) = ((nx/2 : ℕ) : ℝ) := by linarith
        exact_mod_cast this
      nlinarith [mul_pos hd (by nlinarith : 0 < S2^2 - S1^2)]
    rw [hB, hB]
    refine ⟨Finset.sum_pos (fun b _ => Finset.sum_pos (fun j _ => pos S2 b j) hne2) hne, ?_⟩
    refine Finset.sum_lt_sum_of_nonempty hne fun b _ => ?_
    refine Finset.sum_lt_sum (fun j _ => ?_) ⟨0, Finset.mem_range.2 (by omega), step b 0 (by omega)⟩
    by_cases hj : j = nx/2
    · rw [hj, sub_self, zero_mul, zero_mul]
    · exact (step b j hj).le
  · intro S hS pts k zS hk
    obtain ⟨d, hd⟩ : ∃ d : Bool → ℕ → ℕ → V3 ℝ, ∀ b i j, d b i j = (⟨0, h, z⟩ : V3 ℝ) - ⟨((j:ℝ) - ((nx/2 : ℕ) : ℝ))*S, if b then -h else h, (i:ℝ)*zS⟩ := ⟨_, fun _ _ _ => rfl⟩
    have hd0 : ∀ b j, d b 0 j = ⟨-(((j:ℝ) - ((nx/2 : ℕ) : ℝ))*S), if b then 2*h else 0, z⟩ := by
      intro b j
      rw [hd]
      ext <;> simp
      split_ifs <;> ring
    have hrad : ∀ b j, (b = true → mirror = true) → (d b 0 j = ⟨0, 0, z⟩ ∧ √((d b 0 j).x^2 + (d b 0 j).y^2) = 0) ∨ 2*R ≤ √((d b 0 j).x^2 + (d b 0 j).y^2) := by
      intro b j hb
      rw [hd0]
      simp only
      by_cases hb' : b = true
      · right
        rw [if_pos hb']
        apply le_sqrt_of_sq_le
        nlinarith [hh (hb hb'), sq_nonneg (-(((j:ℝ) - ((nx/2 : ℕ) : ℝ))*S))]
      · rw [if_neg hb']
        by_cases hj : j = nx/2
        · left
          rw [hj, sub_self, zero_mul, neg_zero]
          simp
        · right
          apply le_sqrt_of_sq_le
          have h1 : (1:ℝ) ≤ ((j:ℝ) - ((nx/2 : ℕ) : ℝ))^2 := by
            have h2 : (j:ℤ) - ((nx/2 : ℕ):ℤ) ≠ 0 := by omega
            have h3 : (1:ℤ) ≤ ((j:ℤ) - ((nx/2 : ℕ):ℤ))^2 := by
              have := sq_pos_of_ne_zero h2; omega
            exact_mod_cast h3
          nlinarith [mul_le_mul_of_nonneg_right h1 (sq_nonneg S)]
    have hup : ∀ b i j, (b = true → mirror = true) → i < 1 → j < nx → (d b i j).z < 0 ∧ √((d b i j).x^2 + (d b i j).y^2) ≠ R ∧
        ¬ (|√((d b i j).x^2 + (d b i j).y^2) - R| < 1e-8 * R ∧ |(d b i j).z| < 1e-8 * R) := by
      intro b i j hb hi hj
      obtain rfl : i = 0 := by omega
      have ez : (d b 0 j).z = z := by rw [hd0]
      refine ⟨by rw [ez]; exact hz, ?_, ?_⟩
      · rcases hrad b j hb with ⟨-, e⟩ | e
        · rw [e]; exact hR.ne
        · intro e'; linarith
      · rintro ⟨-, e⟩
        rw [ez, abs_of_neg hz] at e
        linarith
    obtain ⟨u, w, e1, e2, e3⟩ := C119_grid pts R ct u0 hR hct nx 1 S zS h mirror k _ hk d (fun b i j => √((d b i j).x^2 + (d b i j).y^2)) hd (fun _ _ _ => rfl) hup
    refine ⟨u, w, e1, e2, ?_⟩
    have hsum : (∑ b ∈ (if mirror then {false, true} else {false} : Finset Bool), ∑ i ∈ Finset.range 1, ∑ j ∈ Finset.range nx,
        -(u0 * (1 - √(1 - ct)))/(4*π) * diskSolidAngle R (if √((d b i j).x^2 + (d b i j).y^2) < 1e-7 * R then ⟨0, 0, (d b i j).z⟩ else d b i j)) =
        -(u0 * (1 - √(1 - ct))) * B S := by
      rw [hB, Finset.mul_sum]
      apply Finset.sum_congr rfl
      intro b hb
      rw [Finset.sum_range_one, Finset.mul_sum]
      apply Finset.sum_congr rfl
      intro j _
      have hb' : b = true → mirror = true := by
        cases mirror <;> cases b <;> simp_all
      have : (if √((d b 0 j).x^2 + (d b 0 j).y^2) < 1e-7 * R then (⟨0, 0, (d b 0 j).z⟩ : V3 ℝ) else d b 0 j) = d b 0 j := by
        rcases hrad b j hb' with ⟨e, -⟩ | e
        · rw [e]; simp
        · rw [if_neg]
          intro e'
          linarith
      rw [this, hd0]
      ring
    rw [hsum] at e3
    have : w - -(u0 * (1 - √(1 - ct))) * B S = w + u0 * (1 - √(1 - ct)) * B S := by ring
    rw [this] at e3
    simpa using e3

/-- `C129_turbine` one diameter upstream of a rotor of radius 50, on the axis and 30 m off it (the turbine of the example of C119) -/
example (mini : (ℝ → Num) → ℝ) :
    let w := (WT.new 50 ⟨1,2,3⟩ ⟨0,0,1⟩ ⟨0,1,0⟩ ⟨0,0,10⟩ none false "VC").run mini
      [.chi (some 0), .loading { Ct := some [.fin 1], Lambda := some .pinf, gamma_t_Ct := some fun _ => [.fin (-1)] }]
    ∃ (u : List (V3 Num)) (vp vq : V3 ℝ), (w.computeU [⟨1, 2, -97⟩, ⟨31, 2, -97⟩] { only_ind := true }).1 = .ok u ∧ u[0]? = some (V3.fin vp) ∧ u[1]? = some (V3.fin vq) ∧
      V3.dot vp w.e_shaft_g ≤ V3.dot vq w.e_shaft_g + 6/100 := by
  intro w
  have hsh : w.e_shaft_g = ⟨0,0,1⟩ := by
    have := (C05_last_yaw mini 50 ⟨1,2,3⟩ ⟨0,0,1⟩ ⟨0,1,0⟩ ⟨0,0,10⟩ none false "VC"
      [.chi (some 0), .loading { Ct := some [.fin 1], Lambda := some .pinf, gamma_t_Ct := some fun _ => [.fin (-1)] }]).2.1
    rw [show w.e_shaft_g = _ from this]
    ext <;> simp [turn, lastYaw, V3.cross, V3.dot]
  obtain ⟨b1, b2, b3, b4, b5, b6, b7, b8, b9, b10, b11, b12, b13, b14⟩ := loading_frame mini
    ((WT.new 50 ⟨1,2,3⟩ ⟨0,0,1⟩ ⟨0,1,0⟩ ⟨0,0,10⟩ none false "VC").run mini [.chi (some 0)])
    { Ct := some [.fin 1], Lambda := some .pinf, gamma_t_Ct := some fun _ => [.fin (-1)] }
  have hchi : (w.computeU [⟨1, 2, -97⟩, ⟨31, 2, -97⟩] { only_ind := true }).2.chi = some 0 := by
    rw [computeU_state]
    have : w.chi = some 0 := b13.trans rfl
    change some (usedChi w) = _
    unfold usedChi
    rw [this]
  have hhub : w.r_hub = ⟨1,2,3⟩ := rfl
  obtain ⟨u, hu, hall⟩ := C129_turbine mini 50 ⟨1,2,3⟩ ⟨0,0,1⟩ ⟨0,1,0⟩ ⟨0,0,10⟩ none false "VC" default_orthonormal (by norm_num)
    [.chi (some 0), .loading { Ct := some [.fin 1], Lambda := some .pinf, gamma_t_Ct := some fun _ => [.fin (-1)] }]
    [⟨1, 2, -97⟩, ⟨31, 2, -97⟩] { only_ind := true } (-1) (by norm_num) 0 ⟨rfl, rfl, rfl, rfl, b14.trans rfl, b12.trans rfl⟩ rfl rfl hchi
    (by rw [show (0 : Num) = .fin 0 from rfl, Num.abs_fin, Num.lt_fin]; norm_num)
  have e2 : V3.norm (⟨30, 0, 0⟩ : V3 ℝ) = 30 := by
    rw [V3.norm, show (30:ℝ)^2 + 0^2 + 0^2 = 30^2 by norm_num]; exact sqrt_sq (by norm_num)
  obtain ⟨vp, vq, h1, h2, h3, -, -⟩ := hall 0 1 _ _ rfl rfl (-100) 0 30 (by rw [hsh]; change (-100:ℝ) = V3.dot ((⟨1,2,-97⟩ : V3 ℝ) - ⟨1,2,3⟩) _; simp [V3.dot]; norm_num)
    (by rw [hsh]; change (-100:ℝ) = V3.dot ((⟨31,2,-97⟩ : V3 ℝ) - ⟨1,2,3⟩) _; simp [V3.dot]; norm_num)
    (by rw [hsh]; change (0:ℝ) = V3.norm ((⟨1,2,-97⟩ : V3 ℝ) - ⟨1,2,3⟩ - _); simp [V3.norm]; norm_num)
    (by rw [hsh]; change (30:ℝ) = V3.norm ((⟨31,2,-97⟩ : V3 ℝ) - ⟨1,2,3⟩ - _)
        rw [← e2]; congr 1; ext <;> simp <;> norm_num)
    (by norm_num) (by norm_num) (by norm_num) (by norm_num)
  rw [abs_neg, abs_one, mul_one] at h3
  exact ⟨u, vp, vq, hu, h1, h2, h3⟩

/-- `C129_row`: three turbines of radius 50 over the ground at hub height 100, 100 m upstream -/
example (B : ℝ → ℝ) (hB : ∀ S, B S = ∑ b ∈ (if true then {false, true} else {false} : Finset Bool), ∑ j ∈ Finset.range 3,
      diskSolidAngle 50 ⟨-(((j:ℝ) - ((3/2 : ℕ) : ℝ))*S), if b then 2*100 else 0, -100⟩/(4*π)) : B 500 < B 250 :=
  ((C129_row 50 (8/9) 10 (by norm_num) (by norm_num) 3 (by norm_num) 100 true (by norm_num) (-100) (by norm_num) B hB).1 250 500 (by norm_num) (by norm_num)).2

end Wiz
