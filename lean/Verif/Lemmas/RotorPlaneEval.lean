import Verif.Lemmas.RotorPlane2
import Verif.Lemmas.VortexCylinder

namespace Wiz
open Spec Real Classical intervalIntegral Filter Topology

theorem rpJ2_eval {r : ℝ} (hr : 0 ≤ r) : rpJ2 r = .fin (rJ r) := by
  have : (1 + r)^2 ≠ 0 := by positivity
  unfold rpJ2 rpK2 rJ
  simp only [Num.one_def, Num.fin_sub, Num.fin_add, Num.fin_pow]
  rw [Num.fin_div this, Num.fin_sub]

theorem rpB1_eval {r : ℝ} (hr : 0 ≤ r) (m : ℝ) : rpB1 r m = .fin (rB1 r m) := by
  have : 1 + r ≠ 0 := by linarith
  unfold rpB1 rpM1 rB1
  simp only [Num.one_def, Num.fin_add, Num.fin_pow]
  rw [Num.sqrt_fin (by positivity), Num.sqrt_fin (by positivity), Num.fin_add, Num.fin_div this, Num.fin_pow, Num.fin_sub]

theorem rpB2_eval {r : ℝ} (hr : 0 ≤ r) (m : ℝ) : rpB2 r m = .fin (rB2 r m) := by
  have : 1 + r ≠ 0 := by linarith
  unfold rpB2 rpM2 rB2
  simp only [Num.one_def, Num.fin_add, Num.fin_pow]
  rw [Num.sqrt_fin (by positivity), Num.sqrt_fin (by positivity), Num.fin_sub, Num.fin_div this, Num.fin_pow, Num.fin_sub]

theorem ellipk_sq {r : ℝ} (hr : 0 ≤ r) (hr1 : r < 1) : ellipk (.fin r ^ 2) = .fin (ellK (r^2)) := by
  rw [Num.fin_pow]
  unfold ellipk
  simp only []
  rw [if_pos (by nlinarith)]

theorem kztEntry_eval {r m : ℝ} (hr : 0 ≤ r) (hr1 : r < 1) (hm : m ≠ 0) (P1 P2 : ℝ) :
    kztEntry r m (.fin P1) (.fin P2) = .fin (2*√(1+m^2)*r/(m*π) * ellK (r^2) - r*(r+1)/(2*m*π*√(m^2+r^2)) *
      ((rB1 r m + rJ r) * P1 + (rB2 r m - rJ r) * P2)) := by
  have hpi := pi_ne_zero
  have hs : √(m^2+r^2) ≠ 0 := (sqrt_pos.mpr (by positivity)).ne'
  unfold kztEntry
  rw [ellipk_sq hr hr1, rpB1_eval hr, rpB2_eval hr, rpJ2_eval hr]
  simp only [Num.one_def, Num.ofNat_def, Num.fin_add, Num.fin_pow, Num.fin_mul, Num.fin_sub]
  rw [Num.sqrt_fin (by positivity), Num.sqrt_fin (by positivity)]
  simp only [Num.fin_mul]
  rw [Num.fin_div (by positivity), Num.fin_div (by positivity)]
  simp only [Num.fin_mul, Num.fin_sub]

theorem kxitEntry_eval {r m : ℝ} (hr : (1e-7:ℝ) < r) (hr1 : r < 1) (hm : m ≠ 0) (P1 P2 : ℝ) :
    kxitEntry r m (.fin P1) (.fin P2) = .fin (2*(1+m^2)*r/(m^2*π) * ellK (r^2) - r*(r+1)*√(m^2+1)/(2*m^2*π*√(m^2+r^2)) *
      ((1 + rJ r) * P1 + (rB2 r m - rJ r) * P2)) := by
  have h0 : 0 ≤ r := le_trans (by norm_num) hr.le
  have hpi := pi_ne_zero
  have hs : √(m^2+r^2) ≠ 0 := (sqrt_pos.mpr (by positivity)).ne'
  unfold kxitEntry
  rw [if_pos hr, ellipk_sq h0 hr1, rpB2_eval h0, rpJ2_eval h0]
  simp only [Num.one_def, Num.ofNat_def, Num.fin_add, Num.fin_pow, Num.fin_mul, Num.fin_sub]
  rw [Num.sqrt_fin (by positivity), Num.sqrt_fin (by positivity)]
  simp only [Num.fin_mul]
  rw [Num.fin_div (by positivity), Num.fin_div (by positivity)]
  simp only [Num.fin_mul, Num.fin_sub]

/-! ### quadratures -/

/-- trapezoidal rule with `n` equal panels of `[0,b]` -/
noncomputable def panels (b : ℝ) (n : ℕ) (g : ℝ → ℝ) : ℝ :=
  ∑ i ∈ Finset.range n, b/n * (g (i*(b/n)) + g ((i+1)*(b/n))) / 2

theorem trapzOf_panels (b : ℝ) (n : ℕ) (F : ℝ → Num) (g : ℝ → ℝ) (hF : ∀ t, F t = .fin (g t)) :
    trapzOf F (linspace 0 b (n+1)) = .fin (panels b n g) := by
  unfold trapzOf linspace
  rw [show F = fun t => Num.fin (g t) from funext hF]
  have := trapz_range g n (fun i : ℕ => 0 + (i:ℝ) * ((b - 0)/(((n+1:ℕ):ℝ) - 1)))
  rw [this]
  unfold panels
  congr 1
  apply Finset.sum_congr rfl
  intro i _
  push_cast
  simp only [zero_add, sub_zero, add_sub_cancel_right]
  ring

theorem panels_congr {b : ℝ} {n : ℕ} {f g : ℝ → ℝ} (h : ∀ t, f t = g t) : panels b n f = panels b n g := by
  rw [show f = g from funext h]

theorem panels_mul (b c : ℝ) (n : ℕ) (g : ℝ → ℝ) : panels b n (fun t => c * g t) = c * panels b n g := by
  unfold panels
  rw [Finset.mul_sum]
  apply Finset.sum_congr rfl
  intro i _; ring

theorem panels_scale (b c : ℝ) (n : ℕ) (g : ℝ → ℝ) : panels (c*b) n g = c * panels b n (fun t => g (c*t)) := by
  unfold panels
  rw [Finset.mul_sum]
  apply Finset.sum_congr rfl
  intro i _
  rw [show (i:ℝ)*(c*b/n) = c*(i*(b/n)) by ring, show ((i:ℝ)+1)*(c*b/n) = c*((i+1)*(b/n)) by ring]; ring

theorem panels_tendsto {b : ℝ} (hb : 0 < b) (g : ℝ → ℝ) (hg : Continuous g) :
    Tendsto (fun n : ℕ => panels b n g) atTop (𝓝 (∫ t in (0:ℝ)..b, g t)) := by
  have h := closed_sum_tendsto g 0 b hb hg.continuousOn
  simp only [sub_zero, zero_add] at h
  have hz : Tendsto (fun n : ℕ => b/(n:ℝ) * ((g 0 + g b)/2)) atTop (𝓝 0) := by
    have := (tendsto_const_div_atTop_nhds_zero_nat b).mul_const ((g 0 + g b)/2); rwa [zero_mul] at this
  have h2 := h.sub hz
  rw [sub_zero] at h2
  refine h2.congr' ?_
  filter_upwards [eventually_gt_atTop 0] with n hn
  have hn' : (n:ℝ) ≠ 0 := by exact_mod_cast hn.ne'
  have e1 : ∑ i ∈ Finset.range (n+1), b/n * g (i*(b/n)) = (∑ i ∈ Finset.range n, b/n * g (i*(b/n))) + b/n * g b := by
    rw [Finset.sum_range_succ, show (n:ℝ)*(b/n) = b by field_simp]
  have e2 : ∑ i ∈ Finset.range (n+1), b/n * g (i*(b/n)) = (∑ i ∈ Finset.range n, b/n * g ((i+1)*(b/n))) + b/n * g 0 := by
    rw [Finset.sum_range_succ', Nat.cast_zero, zero_mul]
    push_cast; rfl
  have e3 : panels b n g = ((∑ i ∈ Finset.range n, b/n * g (i*(b/n))) + ∑ i ∈ Finset.range n, b/n * g ((i+1)*(b/n)))/2 := by
    unfold panels
    rw [← Finset.sum_add_distrib, Finset.sum_div]
    apply Finset.sum_congr rfl
    intro i _; ring
  rw [e3]
  linarith

/-- integrand of `skewAmplitude` -/
noncomputable def ampl (r m θ : ℝ) : ℝ := sin θ ^ 2 / (√(1 + r^2 - 2*r*cos θ) * (1 + r^2 - 2*r*cos θ + m^2 * sin θ ^ 2))

theorem ampl_cont {r : ℝ} (h0 : -1 < r) (h1 : r < 1) (m : ℝ) : Continuous (ampl r m) :=
  Continuous.div (by fun_prop) (by fun_prop) fun θ => by
    have h := dist_pos (ρ := r) h1.ne h0.ne' θ
    have h2 := sqrt_pos.mpr h
    positivity

theorem dist_double (r t : ℝ) : (1+r)^2 - 4*r*cos t^2 = 1 + r^2 - 2*r*cos (2*t) := by
  rw [cos_two_mul]; ring

theorem rpDist_eval (r t : ℝ) : rpDist r t = .fin (1 + r^2 - 2*r*cos t) := by
  unfold rpDist
  simp only [Num.one_def, Num.ofNat_def, Num.fin_add, Num.fin_pow, Num.fin_mul, Num.fin_sub]

theorem rpDist2_eval (r t : ℝ) : rpDist2 r t = .fin (1 + r^2 - 2*r*cos (2*t)) := by
  rw [← dist_double]
  unfold rpDist2
  simp only [Num.one_def, Num.ofNat_def, Num.fin_add, Num.fin_pow, Num.fin_mul, Num.fin_sub]

theorem kztNum2_eval {r m : ℝ} (h0 : -1 < r) (h1 : r < 1) (n : ℕ) :
    kztNum2 (n+1) r m = .fin (r*m*√(1+m^2)/π * panels π n (ampl r m)) := by
  unfold kztNum2
  rw [trapzOf_panels π n _ (ampl r m)]
  · simp only [Num.one_def, Num.fin_add, Num.fin_pow, Num.fin_mul]
    rw [Num.sqrt_fin (by positivity), Num.fin_mul, Num.fin_div pi_ne_zero, Num.fin_mul]
  · intro t
    have h := dist_pos (ρ := r) h1.ne h0.ne' t
    have h2 := sqrt_pos.mpr h
    rw [rpDist_eval, Num.sqrt_fin h.le]
    simp only [Num.fin_add, Num.fin_pow, Num.fin_mul]
    rw [Num.fin_div (by positivity)]; rfl

theorem kztNum_eval {r m : ℝ} (h0 : -1 < r) (h1 : r < 1) (hm : m ≠ 0) (n : ℕ) :
    kztNum (n+1) r m = .fin (r*m*√(1+m^2)/π * panels π n (ampl r m)) := by
  unfold kztNum
  rw [trapzOf_panels π n _ (fun t => -m^2 * ampl r m t)]
  · rw [panels_mul]
    simp only [Num.one_def, Num.ofNat_def, Num.fin_neg, Num.fin_add, Num.fin_pow]
    rw [Num.sqrt_fin (by positivity), Num.fin_div pi_ne_zero, Num.fin_mul, Num.fin_mul, Num.fin_div hm, Num.fin_mul]
    congr 1
    have hpi := pi_ne_zero
    field_simp
  · intro t
    have h := dist_pos (ρ := r) h1.ne h0.ne' t
    have h2 := sqrt_pos.mpr h
    have hq := sq_sqrt h.le
    have hD : 0 < 1 + r^2 - 2*r*cos t + m^2 * sin t^2 := by positivity
    rw [rpDist_eval, Num.sqrt_fin h.le]
    simp only [Num.one_def, Num.ofNat_def, Num.fin_neg, Num.fin_add, Num.fin_sub, Num.fin_pow, Num.fin_mul]
    rw [show 1 - 2*r*cos t + r^2 = 1 + r^2 - 2*r*cos t by ring, Num.sqrt_fin h.le, Num.fin_div h2.ne', Num.fin_div hD.ne', Num.fin_add]
    congr 1
    unfold ampl
    generalize √(1 + r^2 - 2*r*cos t) = a at *
    rw [← hq] at hD ⊢
    have hD' := hD.ne'
    generalize hDD : a^2 + m^2 * sin t^2 = D at *
    have : m^2 * sin t^2 = D - a^2 := by linarith
    have e : -m^2 * (sin t^2/(a*D)) = -((m^2 * sin t^2)/(a*D)) := by ring
    rw [e, this]
    field_simp
    ring

theorem kztNum3_eval {r m : ℝ} (h0 : -1 < r) (h1 : r < 1) (n : ℕ) :
    kztNum3 (n+1) r m = .fin (r*m*√(1+m^2)/π * panels π n (ampl r m)) := by
  unfold kztNum3
  rw [trapzOf_panels (π/2) n _ (fun t => ampl r m (2*t))]
  · simp only [Num.one_def, Num.ofNat_def, Num.fin_add, Num.fin_pow, Num.fin_mul]
    rw [Num.sqrt_fin (by positivity), Num.fin_mul, Num.fin_mul, Num.fin_div pi_ne_zero, Num.fin_mul]
    have := panels_scale (π/2) 2 n (ampl r m)
    rw [show 2*(π/2) = π by ring] at this
    rw [this]
    congr 1; ring
  · intro t
    have h := dist_pos (ρ := r) h1.ne h0.ne' (2*t)
    have h2 := sqrt_pos.mpr h
    rw [rpDist2_eval, Num.sqrt_fin h.le]
    simp only [Num.fin_add, Num.fin_pow, Num.fin_mul]
    rw [Num.fin_div (by positivity)]; rfl

/-- integrand of `xiAmplitude` -/
noncomputable def xiAmpl (r χ t : ℝ) : ℝ :=
  sin (2*t) ^ 2 / (√((1 + r)^2 - 4*r*cos t ^ 2) * ((r - cos (2*t))^2 * cos χ ^ 2 + sin (2*t) ^ 2))

theorem cos_arctan_sq (m : ℝ) : cos (arctan m)^2 = 1/(1+m^2) := by
  rw [cos_arctan, div_pow, sq_sqrt (by positivity), one_pow]

theorem xi_den (r m t : ℝ) : (r - cos (2*t))^2 * cos (arctan m) ^ 2 + sin (2*t) ^ 2
    = (1 + r^2 - 2*r*cos (2*t) + m^2 * sin (2*t)^2)/(1+m^2) := by
  have := sin_sq_add_cos_sq (2*t)
  have hm : 1 + m^2 ≠ 0 := by positivity
  rw [cos_arctan_sq]
  field_simp
  linear_combination this

theorem xiAmpl_eq (r m t : ℝ) : xiAmpl r (arctan m) t = (1+m^2) * ampl r m (2*t) := by
  unfold xiAmpl ampl
  rw [xi_den, dist_double]
  have hm : 1 + m^2 ≠ 0 := by positivity
  rw [mul_div_assoc', mul_div_assoc', div_div_eq_mul_div, mul_comm (1+m^2)]

theorem kxitTrapz_eval {r m : ℝ} (h0 : -1 < r) (h1 : r < 1) (n : ℕ) :
    kxitTrapz (n+1) r (arctan m) = .fin ((1+m^2)/2 * panels π n (ampl r m)) := by
  unfold kxitTrapz
  rw [trapzOf_panels (π/2) n _ (xiAmpl r (arctan m))]
  · rw [panels_congr (xiAmpl_eq r m), panels_mul]
    have := panels_scale (π/2) 2 n (ampl r m)
    rw [show 2*(π/2) = π by ring] at this
    rw [this]
    congr 1; ring
  · intro t
    have h := dist_pos (ρ := r) h1.ne h0.ne' (2*t)
    have h2 := sqrt_pos.mpr h
    have h3 : 0 < (r - cos (2*t))^2 * cos (arctan m) ^ 2 + sin (2*t) ^ 2 := by
      rw [xi_den]; positivity
    rw [rpDist2_eval, Num.sqrt_fin h.le]
    simp only [Num.fin_add, Num.fin_sub, Num.fin_pow, Num.fin_mul]
    rw [Num.fin_div (by positivity)]
    unfold xiAmpl
    rw [dist_double]

theorem kztNum4_eval {r m : ℝ} (h0 : -1 < r) (h1 : r < 1) (n : ℕ) :
    kztNum4 (n+1) r (arctan m) = .fin (r*m*√(1+m^2)/π * panels π n (ampl r m)) := by
  have hk : 0 < √(1+m^2) := sqrt_pos.mpr (by positivity)
  have hk2 := sq_sqrt (show 0 ≤ 1+m^2 by positivity)
  unfold kztNum4
  rw [kxitTrapz_eval h0 h1]
  simp only [Num.one_def, Num.ofNat_def, Num.fin_mul]
  rw [Num.fin_div pi_ne_zero, Num.fin_mul, Num.fin_mul, Num.fin_mul, sin_arctan]
  congr 1
  have hpi := pi_ne_zero
  generalize √(1+m^2) = k at *
  rw [← hk2]
  field_simp

theorem kxitNum_eval {r m : ℝ} (h0 : -1 < r) (h1 : r < 1) (n : ℕ) :
    kxitNum (n+1) r m = .fin (r*(1+m^2)/π * panels π n (ampl r m)) := by
  unfold kxitNum
  rw [kxitTrapz_eval h0 h1]
  simp only [Num.ofNat_def, Num.fin_mul]
  rw [Num.fin_div pi_ne_zero, Num.fin_mul]
  congr 1; ring

theorem xiAmplitude_eq {r m : ℝ} : xiAmplitude r (arctan m) = r*(1+m^2)/π * ∫ θ in (0:ℝ)..π, ampl r m θ := by
  rw [show xiAmplitude r (arctan m) = 2*r/π * ∫ t in (0:ℝ)..(π/2), xiAmpl r (arctan m) t from rfl,
    integral_congr (g := fun t => (1+m^2) * ampl r m (2*t)) (fun t _ => xiAmpl_eq r m t), integral_const_mul,
    intervalIntegral.integral_comp_mul_left (fun t => ampl r m t) (by norm_num : (2:ℝ) ≠ 0)]
  rw [show 2*(π/2) = π by ring, mul_zero, smul_eq_mul]; ring

theorem xi_skew {r m : ℝ} : sin (arctan m) * xiAmplitude r (arctan m) = skewAmplitude r m := by
  have hk : 0 < √(1+m^2) := sqrt_pos.mpr (by positivity)
  have hk2 := sq_sqrt (show 0 ≤ 1+m^2 by positivity)
  rw [xiAmplitude_eq, sin_arctan, show skewAmplitude r m = r * m * √(1 + m^2) / π * ∫ θ in (0:ℝ)..π, ampl r m θ from rfl]
  generalize √(1+m^2) = k at *
  have hpi := pi_ne_zero
  rw [← hk2]
  field_simp

/-! ### no skew -/

theorem kxit_zero_int {q : ℝ} (hq : 0 < q) (hq1 : q < 1) :
    ∫ t in (0:ℝ)..(π/2), 4*sin t^2*(1-sin t^2)/√(1 - q*sin t^2)^3 = 4*((2-q)*ellK q - 2*ellE q)/q^2 := by
  have h1 := ellE_div q hq1
  have e : ∀ t : ℝ, 4*sin t^2*(1-sin t^2)/√(1 - q*sin t^2)^3
      = 4/q^2 * ((2-q) * (1/√(1 - q*sin t^2)) - √(1 - q*sin t^2) - (1-q) * (1/√(1 - q*sin t^2)^3)) := by
    intro t
    have hd := delta_pos hq1 t
    have hs := sqrt_pos.mpr hd
    have h2 := sq_sqrt hd.le
    generalize √(1 - q*sin t^2) = D at *
    have hs2 : sin t^2 = (1 - D^2)/q := by field_simp; linarith
    rw [hs2]
    field_simp
    ring
  have i1 : IntervalIntegrable (fun t => 1/√(1 - q*sin t^2)) MeasureTheory.volume 0 (π/2) := (cont_inv_sqrt hq1).intervalIntegrable _ _
  have i2 : IntervalIntegrable (fun t => √(1 - q*sin t^2)) MeasureTheory.volume 0 (π/2) := Continuous.intervalIntegrable (by fun_prop) _ _
  have i3 : IntervalIntegrable (fun t => 1/√(1 - q*sin t^2)^3) MeasureTheory.volume 0 (π/2) := (cont_inv_sqrt3 hq1).intervalIntegrable _ _
  rw [integral_congr (fun t _ => e t), integral_const_mul, integral_sub ((i1.const_mul _).sub i2) (i3.const_mul _),
    integral_sub (i1.const_mul _) i2, integral_const_mul, integral_const_mul, h1]
  rw [show ∫ t in (0:ℝ)..(π/2), 1/√(1 - q*sin t^2) = ellK q from rfl, show ∫ t in (0:ℝ)..(π/2), √(1 - q*sin t^2) = ellE q from rfl]
  have h1q : 1 - q ≠ 0 := by linarith
  field_simp
  ring

theorem kxit_zero_closed {r : ℝ} (hr : 0 < r) (hr1 : r < 1) :
    1/π * √(1/r) * ((2 - rJ r)/√(rJ r) * ellK (rJ r) - 2/√(rJ r) * ellE (rJ r)) = xiAmplitude r 0 := by
  have hJ := rJ_lt hr.le hr1.ne
  have hJe := rJ_eq hr.le
  have hJ0 : 0 < rJ r := by rw [hJe]; positivity
  have hjr : (1+r)^2 * rJ r = 4*r := by rw [hJe]; field_simp
  have hx := xiAmplitude_eq (r := r) (m := 0)
  rw [arctan_zero] at hx
  rw [hx]
  have e : ∀ θ : ℝ, ampl r 0 θ = (fun c => (1-c^2)/(√(1 + r^2 - 2*r*c) * (1 + r^2 - 2*r*c))) (cos θ) := by
    intro θ
    unfold ampl
    simp only [sin_sq]
    norm_num
  rw [integral_congr (fun θ _ => e θ), half_circle (fun c => (1-c^2)/(√(1 + r^2 - 2*r*c) * (1 + r^2 - 2*r*c)))]
  have e2 : ∀ t : ℝ, (1-(2*sin t^2-1)^2)/(√(1 + r^2 - 2*r*(2*sin t^2-1)) * (1 + r^2 - 2*r*(2*sin t^2-1)))
      = 1/(1+r)^3 * (4*sin t^2*(1-sin t^2)/√(1 - rJ r*sin t^2)^3) := by
    intro t
    have hD := delta_pos hJ t
    have h2 := sq_sqrt hD.le
    have hs := sqrt_pos.mpr hD
    have h1r : 1 + r ≠ 0 := by linarith
    rw [show 1 + r^2 - 2*r*(2 * sin t ^ 2 - 1) = (1+r)^2 * (1 - rJ r * sin t^2) by linear_combination (sin t^2)*hjr,
        sqrt_mul (by positivity), sqrt_sq (by linarith), show (1+r)^2 * (1 - rJ r * sin t^2) = (1+r)^2 * √(1 - rJ r * sin t^2)^2 by rw [h2]]
    generalize √(1 - rJ r * sin t^2) = D at *
    field_simp
    ring
  rw [integral_congr (fun t _ => e2 t), integral_const_mul, kxit_zero_int hJ0 hJ]
  have hsq : √(1/r) = 2/((1+r)*√(rJ r)) := by
    rw [hJe, sqrt_div (by norm_num), sqrt_div (by positivity), sqrt_sq (by linarith), sqrt_mul (by norm_num),
      show √(4:ℝ) = 2 by rw [show (4:ℝ) = 2^2 by norm_num]; exact sqrt_sq (by norm_num), sqrt_one]
    have : √r ≠ 0 := (sqrt_pos.mpr hr).ne'
    have h1r : 1 + r ≠ 0 := by linarith
    field_simp
  have hj2 := sq_sqrt hJ0.le
  have hjp := sqrt_pos.mpr hJ0
  rw [hsq]
  have hr' : r = (1+r)^2 * rJ r/4 := by rw [hjr]; ring
  have h1r : 1 + r ≠ 0 := by linarith
  generalize ellK (rJ r) = K at *
  generalize ellE (rJ r) = E' at *
  have hpi := pi_ne_zero
  generalize √(rJ r) = s at *
  rw [← hj2] at hr' ⊢
  have hr2 : r*(1+0^2)/π * (2*(1/(1+r)^3 * (4*((2-s^2)*K - 2*E')/(s^2)^2)))
      = (1+r)^2*s^2/4/π * (2*(1/(1+r)^3 * (4*((2-s^2)*K - 2*E')/(s^2)^2))) := by
    rw [← hr']; ring
  rw [hr2]
  field_simp

theorem kxitZero_eval {r : ℝ} (hr : (1e-7:ℝ) < r) (hr1 : r < 1) : kxitZero r = .fin (xiAmplitude r 0) := by
  have h0 : 0 < r := lt_trans (by norm_num) hr
  have hJ := rJ_lt h0.le hr1.ne
  have hJe := rJ_eq h0.le
  have hJ0 : 0 < rJ r := by rw [hJe]; positivity
  rw [← kxit_zero_closed h0 hr1]
  have hk2 : (4 * Num.fin r / (Num.fin r + 1)^2 : Num) = .fin (rJ r) := by
    simp only [Num.one_def, Num.ofNat_def, Num.fin_add, Num.fin_pow, Num.fin_mul]
    rw [Num.fin_div (by positivity), hJe, add_comm r 1]
  unfold kxitZero
  simp only [hk2, if_pos hr]
  rw [Num.sqrt_fin hJ0.le, show ellipk (.fin (rJ r)) = .fin (ellK (rJ r)) by unfold ellipk; simp only []; rw [if_pos hJ],
    show ellipe (.fin (rJ r)) = .fin (ellE (rJ r)) by unfold ellipe; simp only []; rw [if_pos hJ.le]]
  have hs := (sqrt_pos.mpr hJ0).ne'
  simp only [Num.one_def, Num.ofNat_def, Num.fin_sub]
  rw [Num.fin_div h0.ne', Num.sqrt_fin (by positivity), Num.fin_div pi_ne_zero, Num.fin_div hs, Num.fin_div hs]
  simp only [Num.fin_mul, Num.fin_sub]

end Wiz
