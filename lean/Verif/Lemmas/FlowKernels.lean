import Verif.Lemmas.Flow
import Verif.Lemmas.Skewed
import Verif.Lemmas.Geometry
/-! # Divergence and curl of the elementary kernels -/
namespace Wiz
open Spec
noncomputable section

theorem hasGrad_norm (A P : V3 ℝ) (h : 0 < V3.norm (P - A)) :
    HasGrad (fun p => V3.norm (p - A)) P (V3.smul (1 / V3.norm (P - A)) (P - A)) := by
  have hx := (hasGrad_x P).sub_const A.x
  have hy := (hasGrad_y P).sub_const A.y
  have hz := (hasGrad_z P).sub_const A.z
  have hs := ((hx.mul hx).add (hy.mul hy)).add (hz.mul hz)
  have e : ∀ p : V3 ℝ, V3.norm (p - A) = Real.sqrt ((p.x - A.x) * (p.x - A.x) + (p.y - A.y) * (p.y - A.y) + (p.z - A.z) * (p.z - A.z)) := by
    intro p; unfold V3.norm; congr 1; simp only [V3.sub_x, V3.sub_y, V3.sub_z]; ring
  have h0 : (P.x - A.x) * (P.x - A.x) + (P.y - A.y) * (P.y - A.y) + (P.z - A.z) * (P.z - A.z) ≠ 0 := by
    intro h0; rw [e, h0, Real.sqrt_zero] at h; exact lt_irrefl _ h
  have := hs.sqrt h0
  simp only [← e] at this
  refine this.congr_grad ?_
  have hn : V3.norm (P - A) ≠ 0 := h.ne'
  ext <;> simp <;> field_simp <;> ring

/-- `grad log (|a| - a·d)`, `a = p - A` -/
def lineGrad (A d p : V3 ℝ) : V3 ℝ :=
  ⟨((p.x - A.x) / V3.norm (p - A) - d.x) / (V3.norm (p - A) - V3.dot (p - A) d),
   ((p.y - A.y) / V3.norm (p - A) - d.y) / (V3.norm (p - A) - V3.dot (p - A) d),
   ((p.z - A.z) / V3.norm (p - A) - d.z) / (V3.norm (p - A) - V3.dot (p - A) d)⟩

theorem hasGrad_dot (A d P : V3 ℝ) : HasGrad (fun p => V3.dot (p - A) d) P d := by
  have := (((hasGrad_x P).sub_const A.x).const_mul d.x).add (((hasGrad_y P).sub_const A.y).const_mul d.y) |>.add
    (((hasGrad_z P).sub_const A.z).const_mul d.z)
  have e : ∀ p : V3 ℝ, V3.dot (p - A) d = d.x * (p.x - A.x) + d.y * (p.y - A.y) + d.z * (p.z - A.z) := by
    intro p; simp only [V3.dot, V3.sub_x, V3.sub_y, V3.sub_z]; ring
  simp only [← e] at this
  refine this.congr_grad ?_
  ext <;> simp

/-- the gradients of the three components of `lineGrad`: a symmetric matrix -/
theorem lineGrad_hasGrad (A d P : V3 ℝ) (hn : 0 < V3.norm (P - A)) (hD : 0 < V3.norm (P - A) - V3.dot (P - A) d) :
    let n := V3.norm (P - A)
    let D := V3.norm (P - A) - V3.dot (P - A) d
    let a := P - A
    let g := fun (ai di ex ey ez : ℝ) => (⟨(ex / n - ai * a.x / n^3) / D - (ai / n - di) * (a.x / n - d.x) / D^2,
      (ey / n - ai * a.y / n^3) / D - (ai / n - di) * (a.y / n - d.y) / D^2,
      (ez / n - ai * a.z / n^3) / D - (ai / n - di) * (a.z / n - d.z) / D^2⟩ : V3 ℝ)
    HasGrad (fun p => (lineGrad A d p).x) P (g a.x d.x 1 0 0) ∧ HasGrad (fun p => (lineGrad A d p).y) P (g a.y d.y 0 1 0) ∧
      HasGrad (fun p => (lineGrad A d p).z) P (g a.z d.z 0 0 1) := by
  intro n D a g
  have hN := hasGrad_norm A P hn
  have hDg := hN.sub (hasGrad_dot A d P)
  have hn' : V3.norm (P - A) ≠ 0 := hn.ne'
  have hD' : V3.norm (P - A) - V3.dot (P - A) d ≠ 0 := hD.ne'
  have hx := ((((hasGrad_x P).sub_const A.x).div hN hn').sub_const d.x).div hDg hD'
  have hy := ((((hasGrad_y P).sub_const A.y).div hN hn').sub_const d.y).div hDg hD'
  have hz := ((((hasGrad_z P).sub_const A.z).div hN hn').sub_const d.z).div hDg hD'
  refine ⟨hx.congr_grad ?_, hy.congr_grad ?_, hz.congr_grad ?_⟩
  all_goals
    simp only [g, a, n, D]
    ext
    all_goals
      simp only [V3.sub_x, V3.sub_y, V3.sub_z, V3.smul_x, V3.smul_y, V3.smul_z]
      generalize V3.norm (P - A) - V3.dot (P - A) d = D' at *
      generalize V3.norm (P - A) = n' at *
      field_simp

theorem lineGrad_curlFree (A d P : V3 ℝ) (hn : 0 < V3.norm (P - A)) (hD : 0 < V3.norm (P - A) - V3.dot (P - A) d) :
    CurlFreeAt (lineGrad A d) P := by
  obtain ⟨hx, hy, hz⟩ := lineGrad_hasGrad A d P hn hD
  refine ⟨_, _, _, hx, hy, hz, ?_, ?_, ?_⟩ <;> ring

theorem lineGrad_divFree (A d P : V3 ℝ) (hd : V3.dot d d = 1) (hn : 0 < V3.norm (P - A)) (hD : 0 < V3.norm (P - A) - V3.dot (P - A) d) :
    DivFreeAt (lineGrad A d) P := by
  obtain ⟨hx, hy, hz⟩ := lineGrad_hasGrad A d P hn hD
  refine ⟨_, _, _, hx, hy, hz, ?_⟩
  have hs := norm_sq (P - A)
  have hdot : V3.dot (P - A) d = V3.norm (P - A) - (V3.norm (P - A) - V3.dot (P - A) d) := by ring
  generalize hDD : V3.norm (P - A) - V3.dot (P - A) d = D' at *
  generalize V3.norm (P - A) = n at *
  generalize P - A = a at *
  have key : ((1 / n - a.x * a.x / n ^ 3) / D' - (a.x / n - d.x) * (a.x / n - d.x) / D' ^ 2)
      + ((1 / n - a.y * a.y / n ^ 3) / D' - (a.y / n - d.y) * (a.y / n - d.y) / D' ^ 2)
      + ((1 / n - a.z * a.z / n ^ 3) / D' - (a.z / n - d.z) * (a.z / n - d.z) / D' ^ 2)
      = (3 / n - V3.dot a a / n ^ 3) / D' - (V3.dot a a / n ^ 2 - 2 * V3.dot a d / n + V3.dot d d) / D' ^ 2 := by
    simp only [V3.dot]; ring
  have hT : V3.dot a d = n - D' := by linarith
  refine key.trans ?_
  rw [← hs, hT, hd]
  have := hn.ne'; have := hD.ne'
  field_simp
  ring

/-- velocity of a half-line: direction crossed with `lineGrad` -/
theorem cross_lineGrad_self (A d p : V3 ℝ) (hn : 0 < V3.norm (p - A)) :
    V3.cross d (lineGrad A d p) = V3.smul (1 / (V3.norm (p - A) * (V3.norm (p - A) - V3.dot (p - A) d))) (V3.cross d (p - A)) := by
  have := hn.ne'
  generalize hDD : V3.norm (p - A) - V3.dot (p - A) d = D' at *
  unfold lineGrad
  rw [hDD]
  by_cases hD : D' = 0
  · ext <;> simp [V3.cross, hD]
  · ext <;> simp only [V3.cross, V3.smul_x, V3.smul_y, V3.smul_z, V3.sub_x, V3.sub_y, V3.sub_z] <;> field_simp <;> ring

theorem cross_lineGrad (A d T p : V3 ℝ) (hn : 0 < V3.norm (p - A)) (hD : 0 < V3.norm (p - A) - V3.dot (p - A) d) :
    V3.cross T (lineGrad A d p) = V3.smul (1 / (V3.norm (p - A) * (V3.norm (p - A) - V3.dot (p - A) d)))
      (V3.cross T (p - A) - V3.smul (V3.norm (p - A)) (V3.cross T d)) := by
  have := hn.ne'; have := hD.ne'
  generalize hDD : V3.norm (p - A) - V3.dot (p - A) d = D' at *
  unfold lineGrad
  rw [hDD]
  ext <;> simp only [V3.cross, V3.smul_x, V3.smul_y, V3.smul_z, V3.sub_x, V3.sub_y, V3.sub_z] <;> field_simp <;> ring

theorem tangGenerator_cross {γ R m : ℝ} {P : V3 ℝ} (h : OffWake R m P) (θ : ℝ) :
    tangGenerator γ R m P θ = V3.smul (γ/(4*Real.pi)) (V3.cross (rimTangent R θ) (lineGrad (rim R θ) (skewDir m) P)) := by
  obtain ⟨hn, hd⟩ := offWake_pos h θ
  rw [tangGenerator_eval hn hd, cross_lineGrad _ _ _ _ hn hd]
  ext <;> simp only [V3.smul_x, V3.smul_y, V3.smul_z] <;> ring

theorem longiGenerator_cross {γ R m : ℝ} {P : V3 ℝ} (h : OffWake R m P) (θ : ℝ) :
    longiGenerator γ R m P θ = V3.smul (γ*R/(4*Real.pi)) (V3.cross (skewDir m) (lineGrad (rim R θ) (skewDir m) P)) := by
  obtain ⟨hn, hd⟩ := offWake_pos h θ
  rw [longiGenerator_eval hn hd, cross_lineGrad_self _ _ _ hn]
  ext <;> simp only [V3.smul_x, V3.smul_y, V3.smul_z] <;> ring

/-- the wake surface is closed: off it means off its equation -/
theorem offWake_iff (R m : ℝ) (P : V3 ℝ) : OffWake R m P ↔ ¬ (0 ≤ P.z ∧ (P.x - m * P.z)^2 + P.y^2 = R^2) := by
  have hs : 0 < Real.sqrt (1 + m^2) := by positivity
  constructor
  · rintro h ⟨hz, he⟩
    obtain ⟨θ, h1, h2⟩ : ∃ θ, P.x - m * P.z = R * Real.cos θ ∧ P.y = R * Real.sin θ := by
      by_cases hR : R = 0
      · rw [hR] at he
        have h1 : P.x - m*P.z = 0 := by nlinarith [sq_nonneg (P.x - m*P.z), sq_nonneg P.y]
        have h2 : P.y = 0 := by nlinarith [sq_nonneg (P.x - m*P.z), sq_nonneg P.y]
        exact ⟨0, by rw [h1, hR]; ring, by rw [h2, hR]; ring⟩
      · have hx := r_cos ((P.x - m*P.z)/R) (P.y/R)
        have hy := r_sin ((P.x - m*P.z)/R) (P.y/R)
        have h1 : polarR ((P.x - m*P.z)/R) (P.y/R) = 1 := by
          unfold polarR
          rw [show ((P.x - m*P.z)/R)^2 + (P.y/R)^2 = ((P.x - m*P.z)^2 + P.y^2)/R^2 by ring, he, div_self (pow_ne_zero 2 hR), Real.sqrt_one]
        rw [h1, one_mul] at hx hy
        exact ⟨_, by rw [hx]; field_simp, by rw [hy]; field_simp⟩
    apply h θ (P.z * Real.sqrt (1 + m^2)) (by positivity)
    unfold wakePoint rim skewDir
    ext
    · simp only [V3.add_x, V3.smul_x]; rw [← h1]; field_simp; ring
    · simp only [V3.add_y, V3.smul_y]; rw [← h2]; ring
    · simp only [V3.add_z, V3.smul_z]; field_simp; ring
  · rintro h θ s hs0 he
    apply h
    have hx := congrArg V3.x he; have hy := congrArg V3.y he; have hz := congrArg V3.z he
    simp only [wakePoint, rim, skewDir, V3.add_x, V3.add_y, V3.add_z, V3.smul_x, V3.smul_y, V3.smul_z] at hx hy hz
    refine ⟨by rw [hz]; positivity, ?_⟩
    have h1 := Real.sin_sq_add_cos_sq θ
    rw [hx, hy, hz]
    have : R * Real.cos θ + s * (m / Real.sqrt (1 + m ^ 2)) - m * (0 + s * (1 / Real.sqrt (1 + m ^ 2))) = R * Real.cos θ := by
      field_simp; ring
    rw [this]; linear_combination R^2 * h1

theorem offWake_near {R m : ℝ} {P : V3 ℝ} (h : OffWake R m P) :
    ∀ᶠ q : ℝ × ℝ × ℝ in nhds (P.x, P.y, P.z), OffWake R m ⟨q.1, q.2.1, q.2.2⟩ := by
  simp only [offWake_iff] at *
  have hc : IsClosed {q : ℝ × ℝ × ℝ | 0 ≤ q.2.2 ∧ (q.1 - m * q.2.2)^2 + q.2.1^2 = R^2} :=
    IsClosed.and (isClosed_le continuous_const (by fun_prop : Continuous fun q : ℝ × ℝ × ℝ => q.2.2))
      (isClosed_eq (by fun_prop : Continuous fun q : ℝ × ℝ × ℝ => (q.1 - m * q.2.2)^2 + q.2.1^2) continuous_const)
  exact hc.isOpen_compl.mem_nhds h

theorem tangGenerator_divFree (γ : ℝ) {R m : ℝ} {P : V3 ℝ} (h : OffWake R m P) (θ : ℝ) :
    DivFreeAt (fun p => tangGenerator γ R m p θ) P := by
  obtain ⟨hn, hd⟩ := offWake_pos h θ
  refine ((divFree_cross (lineGrad_curlFree (rim R θ) (skewDir m) P hn hd) (rimTangent R θ)).smul (γ/(4*Real.pi))).congr ?_
  exact (offWake_near h).mono fun q hq => tangGenerator_cross hq θ

theorem longiGenerator_divFree (γ : ℝ) {R m : ℝ} {P : V3 ℝ} (h : OffWake R m P) (θ : ℝ) :
    DivFreeAt (fun p => longiGenerator γ R m p θ) P := by
  obtain ⟨hn, hd⟩ := offWake_pos h θ
  refine ((divFree_cross (lineGrad_curlFree (rim R θ) (skewDir m) P hn hd) (skewDir m)).smul (γ*R/(4*Real.pi))).congr ?_
  exact (offWake_near h).mono fun q hq => longiGenerator_cross hq θ

/-- a quadrature rule of divergence-free fields is divergence-free -/
theorem turnRule_divFree (θ₀ : ℝ) (n : ℕ) (f : V3 ℝ → ℝ → V3 ℝ) (P : V3 ℝ) (h : ∀ θ, DivFreeAt (fun p => f p θ) P) :
    DivFreeAt (fun p => turnRuleV θ₀ n (f p)) P := by
  choose gx gy gz hx hy hz hd using h
  unfold turnRuleV turnRule
  have hX := HasGrad.sum (Finset.range n) fun i _ => (((hx (θ₀ + i * (2*Real.pi/n))).add (hx (θ₀ + (i+1) * (2*Real.pi/n)))).const_mul (1/2)).const_mul (2*Real.pi/n)
  have hY := HasGrad.sum (Finset.range n) fun i _ => (((hy (θ₀ + i * (2*Real.pi/n))).add (hy (θ₀ + (i+1) * (2*Real.pi/n)))).const_mul (1/2)).const_mul (2*Real.pi/n)
  have hZ := HasGrad.sum (Finset.range n) fun i _ => (((hz (θ₀ + i * (2*Real.pi/n))).add (hz (θ₀ + (i+1) * (2*Real.pi/n)))).const_mul (1/2)).const_mul (2*Real.pi/n)
  simp only [one_div_mul_eq_div] at hX hY hZ
  refine ⟨_, _, _, hX, hY, hZ, ?_⟩
  simp only [← Finset.sum_add_distrib, V3.smul_x, V3.smul_y, V3.smul_z, V3.add_x, V3.add_y, V3.add_z]
  apply Finset.sum_eq_zero
  intro i _
  linear_combination (2*Real.pi/n) * (1/2) * (hd (θ₀ + i * (2*Real.pi/n)) + hd (θ₀ + (i+1) * (2*Real.pi/n)))

end
end Wiz
