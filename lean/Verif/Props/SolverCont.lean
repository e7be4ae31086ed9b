import Verif.Props.Solver
/-! # The continuous wake solver (C104)

`WakeVorticityFromCirculation_Cont` for any number of stations: inductions, rotational thrust loss, pitch and intensities. -/
namespace Wiz
open Spec Real Classical Finset

/-- running trapezoidal sums of ordinary numbers -/
theorem cumtrapz_arr (x y : ℕ → ℝ) (n : ℕ) (acc : ℝ) :
    cumtrapzAux (.fin acc) (farr n y) (farr n x) =
      farr (n-1) fun i => acc + ∑ j ∈ range (i+1), (x (j+1) - x j) * (y j + y (j+1))/2 := by
  induction n generalizing x y acc with
  | zero => rfl
  | succ n ih =>
    cases n with
    | zero => rfl
    | succ n =>
      have e : ∀ (m : ℕ) (f : ℕ → ℝ), farr (m+1) f = .fin (f 0) :: farr m fun i => f (i+1) := by
        intro m f; simp [farr, arr, List.range_succ_eq_map, Function.comp_def]
      rw [e (n+1) y, e (n+1) x, e n, e n]
      simp only [cumtrapzAux]
      have e2 : Num.fin acc + (Num.fin (x 1) - .fin (x 0)) * (.fin (y 0) + .fin (y 1)) / 2 = .fin (acc + (x 1 - x 0) * (y 0 + y 1)/2) := by
        simp only [Num.ofNat_def, Num.fin_sub, Num.fin_add, Num.fin_mul, Num.fin_div (show (2:ℝ) ≠ 0 by norm_num)]
      rw [e2, ← e n (fun i => y (i+1)), ← e n (fun i => x (i+1)), ih]
      show _ = farr (n+1) _
      rw [e n]
      congr 1
      · simp
      · show farr n _ = farr n _
        congr 1
        funext i
        rw [sum_range_succ' _ (i+1)]
        ring

theorem farr_reverse (n : ℕ) (f : ℕ → ℝ) : (farr n f).reverse = farr n fun i => f (n-1-i) := by
  apply List.ext_getElem?
  intro i
  by_cases hi : i < n
  · rw [List.getElem?_reverse (by rw [farr_length]; exact hi), farr_length]
    simp [farr, arr, hi, show n-1-i < n by omega]
  · rw [List.getElem?_eq_none (by simp [farr_length]; omega), List.getElem?_eq_none (by simp [farr_length]; omega)]

/-- `8∫f dr̄` from station `i` to the last one by the trapezoidal rule -/
noncomputable def Spec.rotLoss (n : ℕ) (rb f : ℕ → ℝ) (i : ℕ) : ℝ :=
  8 * ∑ j ∈ Ico i (n-1), (rb (j+1) - rb j) * (f j + f (j+1))/2

theorem ctrot_cont (n : ℕ) (rb f : ℕ → ℝ) (hn : 0 < n) :
    ((0 : Num) :: (cumtrapzAux 0 (farr n f).reverse (farr n rb).reverse).map fun x => -8 * x).reverse =
      farr n (Spec.rotLoss n rb f) := by
  rw [farr_reverse, farr_reverse, Num.zero_def, cumtrapz_arr]
  have e1 : (farr (n-1) fun i => 0 + ∑ j ∈ range (i+1), (rb (n-1-(j+1)) - rb (n-1-j)) * (f (n-1-j) + f (n-1-(j+1)))/2).map (fun x => -8 * x) =
      farr (n-1) fun i => -8 * ∑ j ∈ range (i+1), (rb (n-1-(j+1)) - rb (n-1-j)) * (f (n-1-j) + f (n-1-(j+1)))/2 := by
    unfold farr arr
    rw [List.map_map]
    apply List.map_congr_left
    intro i _
    simp only [Function.comp_def, zero_add, Num.ofNat_def, Num.fin_neg, Num.fin_mul]
  rw [e1]
  have e2 : (Num.fin 0 :: farr (n-1) fun i => -8 * ∑ j ∈ range (i+1), (rb (n-1-(j+1)) - rb (n-1-j)) * (f (n-1-j) + f (n-1-(j+1)))/2) =
      farr n fun i => -8 * ∑ j ∈ range i, (rb (n-1-(j+1)) - rb (n-1-j)) * (f (n-1-j) + f (n-1-(j+1)))/2 := by
    obtain ⟨m, rfl⟩ : ∃ m, n = m + 1 := ⟨n-1, by omega⟩
    simp [farr, arr, List.range_succ_eq_map, Function.comp_def]
  rw [e2, farr_reverse]
  apply arr_congr
  intro i hi
  congr 1
  unfold Spec.rotLoss
  beta_reduce
  rw [Finset.sum_Ico_eq_sum_range, ← Finset.sum_range_reflect (fun j => (rb (i+j+1) - rb (i+j)) * (f (i+j) + f (i+j+1))/2), show ∀ s : ℝ, -8 * s = 8 * (-s) by intro s; ring, ← Finset.sum_neg_distrib]
  congr 1
  apply Finset.sum_congr rfl
  intro j hj
  have hj' := Finset.mem_range.mp hj
  have h1 : i + (n - 1 - i - 1 - j) = n - 1 - (j+1) := by omega
  have h2 : n - 1 - (j+1) + 1 = n - 1 - j := by omega
  rw [h1, h2]
  ring

theorem map_farr (n : ℕ) (f : ℕ → ℝ) (g : Num → Num) (h : ℝ → ℝ) (e : ∀ i < n, g (.fin (f i)) = .fin (h (f i))) :
    (farr n f).map g = farr n fun i => h (f i) := by
  unfold farr arr
  rw [List.map_map]
  apply List.map_congr_left
  intro i hi
  exact e i (List.mem_range.mp hi)

/-- C104 (with swirl): for every circulation distribution on stations of nonzero radius, the continuous solver reports
* the tangential induction `a' = k/(4λ²)` of the dimensionless circulation `k = ΩΓ/(πU0²)`, `λ = Ωr/U0`;
* the effective thrust `k(1+a')` minus `8∫λ²a'²/r̄ dr̄` from the station to the tip (trapezoidal rule on the stations);
* the axial induction of that thrust (momentum theory, Spera's line above the critical thrust);
* the pitch `h = 2πU0(1-2a)/(Ω(1+2a'))` and intensities with `γ_t h = -(Γ_i-Γ_{i+1})`, where `1-2a` and `1+2a'` are not zero. -/
theorem C104_swirl (n : ℕ) (r G : ℕ → ℝ) (R U0 Ω : ℝ) (hn : 0 < n) (hR : R ≠ 0) (hU : U0 ≠ 0) (hΩ : Ω ≠ 0) (hr : ∀ i < n, r i ≠ 0) :
    let w := wakeVorticityCont (farr n r) (farr n G) (.fin R) (.fin U0) (.fin Ω) true true
    let k := fun i => Ω * G i / (π * U0^2)
    let lam := fun i => Ω * r i / U0
    ∃ a ap eff : ℕ → ℝ, w.ind.a = farr n a ∧ w.ind.a_prime = farr n ap ∧ w.ind.Ct_eff = farr n eff ∧
      (∀ i < n, ap i = k i / (4 * lam i^2)) ∧
      (∀ i < n, eff i = k i * (1 + ap i) -
        8 * ∑ j ∈ Ico i (n-1), (r (j+1)/R - r j/R) * (lam j^2 * ap j^2/(r j/R) + lam (j+1)^2 * ap (j+1)^2/(r (j+1)/R))/2) ∧
      (∀ i < n, a i = aOfCt (eff i)) ∧
      ∀ i < n, 1 - 2 * a i ≠ 0 → 1 + 2 * ap i ≠ 0 → ∃ g h : ℝ, idx w.gamma_t i = .fin g ∧ idx w.h i = .fin h ∧
        h = 2 * π * (U0 * (1 - 2 * a i))/(Ω * (1 + 2 * ap i)) ∧ g * h = -(G i - if i = n - 1 then 0 else G (i+1)) := by
  intro w k lam
  have hpi := pi_pos
  have hlam : ∀ i < n, lam i ≠ 0 := fun i hi => by have := hr i hi; simp only [lam]; positivity
  have e1 : contSafety (.fin 0.5) (farr n r) = farr n r := contSafety_nz _ n r (hr 0 hn)
  have e2 : (farr n r).map (fun x => Num.fin Ω * x / .fin U0) = farr n lam :=
    map_farr n r _ (fun x => Ω * x / U0) fun i _ => by simp only [Num.fin_mul, Num.fin_div hU]
  have e3 : contSafety (.fin 0.01) (farr n lam) = farr n lam := contSafety_nz _ n lam (hlam 0 hn)
  have e4 : (farr n G).map (fun g => Num.fin Ω * g / (.fin π * (.fin U0)^2)) = farr n k :=
    map_farr n G _ (fun g => Ω * g / (π * U0^2)) fun i _ => by
      simp only [Num.fin_mul, Num.fin_pow, Num.fin_div (show π * U0^2 ≠ 0 by positivity)]
  have e5 : (farr n r).map (fun x => x / Num.fin R) = farr n fun i => r i / R :=
    map_farr n r _ (fun x => x / R) fun i _ => by simp only [Num.fin_div hR]
  set ap : ℕ → ℝ := fun i => k i / (4 * lam i^2) with hap
  have e6 : (arr n fun i => idx (farr n k) i / (4 * (idx (farr n lam) i)^2)) = farr n ap := by
    apply arr_congr; intro i hi
    have := hlam i hi
    rw [idx_farr _ _ _ hi, idx_farr _ _ _ hi]
    simp only [Num.ofNat_def, Num.fin_pow, Num.fin_mul, Num.fin_div (show 4 * lam i^2 ≠ 0 by positivity), hap]
  set f : ℕ → ℝ := fun i => lam i^2 * ap i^2/(r i/R) with hf
  have e7 : (arr n fun i => (idx (farr n lam) i)^2 * (idx (farr n ap) i)^2 / idx (farr n fun i => r i/R) i) = farr n f := by
    apply arr_congr; intro i hi
    have := hr i hi
    rw [idx_farr _ _ _ hi, idx_farr _ _ _ hi, idx_farr _ _ _ hi]
    simp only [Num.fin_pow, Num.fin_mul, Num.fin_div (show r i / R ≠ 0 by positivity), hf]
  set eff : ℕ → ℝ := fun i => k i * (1 + ap i) - Spec.rotLoss n (fun i => r i/R) f i with heff
  have hind : inductionsCont (farr n fun i => r i/R) (farr n lam) (farr n k) true true =
      ⟨farr n fun i => aOfCt (eff i), farr n ap, farr n fun i => k i * (1 + ap i), farr n eff, farr n (Spec.rotLoss n (fun i => r i/R) f)⟩ := by
    unfold inductionsCont
    simp only [if_true, farr_length, e6, e7, ctrot_cont n _ f hn]
    have e8 : (arr n fun i => idx (farr n k) i * (1 + idx (farr n ap) i)) = farr n fun i => k i * (1 + ap i) := by
      apply arr_congr; intro i hi
      rw [idx_farr _ _ _ hi, idx_farr _ _ _ hi]
      simp only [Num.one_def, Num.fin_add, Num.fin_mul]
    have e9 : (arr n fun i => idx (farr n fun i => k i * (1 + ap i)) i - idx (farr n (Spec.rotLoss n (fun i => r i/R) f)) i) = farr n eff := by
      apply arr_congr; intro i hi
      rw [idx_farr _ _ _ hi, idx_farr _ _ _ hi]
      simp only [Num.fin_sub, heff]
    simp only [e8, e9]
    congr 1
    exact map_farr n eff _ aOfCt fun i _ => (C29_continuous_solver _).1
  have hw : w.ind = inductionsCont (farr n fun i => r i/R) (farr n lam) (farr n k) true true := by
    show inductionsCont _ _ _ _ _ = _
    rw [e1, e2, e3, e4, e5]
  have ha : w.ind.a = farr n fun i => aOfCt (eff i) := by rw [hw, hind]
  have hapw : w.ind.a_prime = farr n ap := by rw [hw, hind]
  refine ⟨fun i => aOfCt (eff i), ap, eff, ha, hapw, by rw [hw, hind], fun _ _ => rfl, fun _ _ => rfl, fun _ _ => rfl, fun i hi h1 h2 => ?_⟩
  have hVz : w.Vz = farr n fun i => U0 * (1 - 2 * aOfCt (eff i)) := by
    show (w.ind.a).map _ = _
    rw [ha]
    exact map_farr n _ _ (fun x => U0 * (1 - 2 * x)) fun i _ => by simp only [Num.ofNat_def, Num.one_def, Num.fin_mul, Num.fin_sub]
  have hden : Ω * (1 + 2 * ap i) ≠ 0 := mul_ne_zero hΩ h2
  have hh : idx w.h i = .fin (2 * π * (U0 * (1 - 2 * aOfCt (eff i)))/(Ω * (1 + 2 * ap i))) := by
    show idx (arr (contSafety (.fin 0.5) (farr n r)).length fun i => idx w.Vz i * 2 * .fin π / (.fin Ω * (1 + 2 * idx w.ind.a_prime i))) i = _
    rw [e1, farr_length, idx_arr _ _ _ hi, hVz, hapw, idx_farr _ _ _ hi, idx_farr _ _ _ hi]
    simp only [Num.ofNat_def, Num.one_def, Num.fin_mul, Num.fin_add, Num.fin_div hden]
    congr 1; ring
  have hne : 2 * π * (U0 * (1 - 2 * aOfCt (eff i)))/(Ω * (1 + 2 * ap i)) ≠ 0 :=
    div_ne_zero (mul_ne_zero (by positivity) (mul_ne_zero hU h1)) hden
  refine ⟨-(G i - if i = n - 1 then 0 else G (i+1))/(2 * π * (U0 * (1 - 2 * aOfCt (eff i)))/(Ω * (1 + 2 * ap i))), _, ?_, hh, rfl, div_mul_cancel₀ _ hne⟩
  show idx (arr (contSafety (.fin 0.5) (farr n r)).length fun i => - (idx (farr n G) i - (if i = (contSafety (.fin 0.5) (farr n r)).length - 1 then 0 else idx (farr n G) (i+1))) / idx w.h i) i = _
  rw [e1, farr_length, idx_arr _ _ _ hi, hh, idx_farr _ _ _ hi]
  by_cases hl : i = n - 1
  · simp only [if_pos hl, Num.zero_def, Num.fin_sub, Num.fin_neg, Num.fin_div hne]
  · simp only [if_neg hl, idx_farr _ _ (i+1) (show i + 1 < n by omega), Num.fin_sub, Num.fin_neg, Num.fin_div hne]

/-- stations at 1/4, 2/4, … of a rotor of radius 1 meet the hypotheses -/
example : (∀ i : ℕ, i < 4 → ((i:ℝ) + 1)/4 ≠ 0) ∧ (1:ℝ) ≠ 0 ∧ (10:ℝ) ≠ 0 := by
  refine ⟨fun i _ => ?_, by norm_num, by norm_num⟩
  exact ne_of_gt (by positivity)

/-- C104 (without swirl): `a = a(k)`, no tangential induction, pitch `2πU0(1-2a)/Ω`. -/
theorem C104_no_swirl (n : ℕ) (r G : ℕ → ℝ) (R U0 Ω : ℝ) (hn : 0 < n) (hU : U0 ≠ 0) (hΩ : Ω ≠ 0) (hr0 : r 0 ≠ 0) :
    let w := wakeVorticityCont (farr n r) (farr n G) (.fin R) (.fin U0) (.fin Ω) false true
    let a := fun i => aOfCt (Ω * G i / (π * U0^2))
    w.ind.a = farr n a ∧ (w.ind.a_prime = farr n fun _ => 0) ∧ w.gamma_l = none ∧ w.Gamma_r = none ∧
      ∀ i < n, 1 - 2 * a i ≠ 0 → idx w.gamma_t i =
        .fin (-(G i - if i = n - 1 then 0 else G (i+1)) / (2 * π * (U0 * (1 - 2 * a i))/Ω)) := by
  intro w a
  have hpi := pi_pos
  set k : ℕ → ℝ := fun i => Ω * G i / (π * U0^2) with hk
  have e1 : contSafety (.fin 0.5) (farr n r) = farr n r := contSafety_nz _ n r hr0
  have e4 : (farr n G).map (fun g => Num.fin Ω * g / (.fin π * (.fin U0)^2)) = farr n k :=
    map_farr n G _ (fun g => Ω * g / (π * U0^2)) fun i _ => by
      simp only [Num.fin_mul, Num.fin_pow, Num.fin_div (show π * U0^2 ≠ 0 by positivity)]
  have e6 : (farr n k).map (fun x => x * 0) = farr n fun _ => 0 :=
    map_farr n k _ (fun _ => 0) fun i _ => by simp only [Num.zero_def, Num.fin_mul, mul_zero]
  have hind : ∀ vr lr, (inductionsCont vr lr (farr n k) false true).a = farr n a ∧ (inductionsCont vr lr (farr n k) false true).a_prime = farr n fun _ => 0 := by
    intro vr lr
    unfold inductionsCont
    simp only [Bool.false_eq_true, if_false, farr_length, e6, and_true]
    have e8 : (arr n fun i => idx (arr n fun i => idx (farr n k) i * (1 + idx (farr n fun _ => 0) i)) i - idx (farr n fun _ => 0) i) = farr n k := by
      apply arr_congr; intro i hi
      rw [idx_arr _ _ _ hi, idx_farr _ _ _ hi, idx_farr _ _ _ hi]
      simp only [Num.one_def, Num.fin_add, Num.fin_mul, Num.fin_sub, add_zero, mul_one, sub_zero]
    rw [e8]
    exact map_farr n k _ aOfCt fun i _ => (C29_continuous_solver _).1
  have ha : w.ind.a = farr n a := by
    show (inductionsCont _ _ ((farr n G).map _) false true).a = _
    rw [e4]; exact (hind _ _).1
  have hapw : w.ind.a_prime = farr n fun _ => 0 := by
    show (inductionsCont _ _ ((farr n G).map _) false true).a_prime = _
    rw [e4]; exact (hind _ _).2
  refine ⟨ha, hapw, rfl, rfl, fun i hi h1 => ?_⟩
  have hVz : w.Vz = farr n fun i => U0 * (1 - 2 * a i) := by
    show (w.ind.a).map _ = _
    rw [ha]
    exact map_farr n _ _ (fun x => U0 * (1 - 2 * x)) fun i _ => by simp only [Num.ofNat_def, Num.one_def, Num.fin_mul, Num.fin_sub]
  have hh : idx w.h i = .fin (2 * π * (U0 * (1 - 2 * a i))/Ω) := by
    show idx (arr (contSafety (.fin 0.5) (farr n r)).length fun i => idx w.Vz i * 2 * .fin π / (.fin Ω * (1 + 2 * idx w.ind.a_prime i))) i = _
    rw [e1, farr_length, idx_arr _ _ _ hi, hVz, hapw, idx_farr _ _ _ hi, idx_farr _ _ _ hi]
    simp only [Num.ofNat_def, Num.one_def, Num.fin_mul, Num.fin_add, mul_zero, add_zero, mul_one, Num.fin_div hΩ]
    congr 1; ring
  have hne : 2 * π * (U0 * (1 - 2 * a i))/Ω ≠ 0 := div_ne_zero (mul_ne_zero (by positivity) (mul_ne_zero hU h1)) hΩ
  show idx (arr (contSafety (.fin 0.5) (farr n r)).length fun i => - (idx (farr n G) i - (if i = (contSafety (.fin 0.5) (farr n r)).length - 1 then 0 else idx (farr n G) (i+1))) / idx w.h i) i = _
  rw [e1, farr_length, idx_arr _ _ _ hi, hh, idx_farr _ _ _ hi]
  by_cases hl : i = n - 1
  · simp only [if_pos hl, Num.zero_def, Num.fin_sub, Num.fin_neg, Num.fin_div hne]
  · simp only [if_neg hl, idx_farr _ _ (i+1) (show i + 1 < n by omega), Num.fin_sub, Num.fin_neg, Num.fin_div hne]

/-- C104 (the property one would want is false): the cylinders of the continuous solver do not induce the axial induction the
solver reports.  For a constant circulation, of thrust coefficient `0 < k ≤ Ctc`, on any number of stations and without swirl, the
reported induction is `a`, but half of the intensities outboard of any station add up to `-U0 a (1-a)/(1-2a)`, which is larger in
magnitude than `U0 a` (the solver convects the vorticity at the speed `U0(1-2a)` of the far wake instead of `U0(1-a)`). -/
theorem C104_consistency_refuted (n : ℕ) (r : ℕ → ℝ) (Γ R U0 Ω : ℝ) (hn : 0 < n) (hU : 0 < U0) (hΩ : 0 < Ω) (hr0 : r 0 ≠ 0)
    (hΓ : 0 < Γ) (hk : Ω * Γ / (π * U0^2) ≤ Ctc) :
    let w := wakeVorticityCont (farr n r) (farr n fun _ => Γ) (.fin R) (.fin U0) (.fin Ω) false true
    ∃ (a : ℝ) (g : ℕ → ℝ), (w.ind.a = farr n fun _ => a) ∧ w.gamma_t = farr n g ∧ 0 < a ∧ 4 * a * (1 - a) = Ω * Γ / (π * U0^2) ∧
      ∀ i < n, (∑ j ∈ Ico i n, g j)/2 = -(U0 * a * ((1 - a)/(1 - 2*a))) ∧ (∑ j ∈ Ico i n, g j)/2 < -(U0 * a) := by
  intro w
  have hpi := pi_pos
  set k := Ω * Γ / (π * U0^2) with hkdef
  have hk0 : 0 < k := by positivity
  have hk1 : k < 1 := lt_of_le_of_lt hk Ctc_lt_one
  obtain ⟨ha, -, -, -, hg⟩ := C104_no_swirl n r (fun _ => Γ) R U0 Ω hn hU.ne' hΩ.ne' hr0
  change (∀ i < n, 1 - 2 * aOfCt k ≠ 0 → _) at hg
  change w.ind.a = farr n fun _ => aOfCt k at ha
  have hs : aOfCt k = (1 - √(1-k))/2 := by unfold aOfCt; rw [if_pos hk]
  have hq0 : 0 < √(1-k) := sqrt_pos.mpr (by linarith)
  have hq2 : √(1-k)^2 = 1 - k := sq_sqrt (by linarith)
  have hq1 : √(1-k) < 1 := by nlinarith
  have h12 : 1 - 2 * aOfCt k = √(1-k) := by rw [hs]; ring
  have ha0 : 0 < aOfCt k := by rw [hs]; linarith
  have h4 : 4 * aOfCt k * (1 - aOfCt k) = k := by rw [hs]; linear_combination (-1) * hq2
  have hV : ∀ i < n, idx w.gamma_t i = .fin (if i = n-1 then -(2 * U0 * aOfCt k * ((1 - aOfCt k)/(1 - 2*aOfCt k))) else 0) := by
    intro i hi
    have := hg i hi (by rw [h12]; exact hq0.ne')
    refine this.trans ?_
    congr 1
    by_cases hl : i = n-1
    · simp only [if_pos hl, sub_zero]
      have hΓe : Γ = 4 * aOfCt k * (1 - aOfCt k) * (π * U0^2)/Ω := by rw [h4, hkdef]; field_simp
      change -Γ/(2 * π * (U0 * (1 - 2 * aOfCt k))/Ω) = _
      have hne : 1 - 2 * aOfCt k ≠ 0 := by rw [h12]; exact hq0.ne'
      generalize aOfCt k = A at *
      rw [hΓe]
      field_simp
      ring
    · simp only [if_neg hl, sub_self, neg_zero, zero_div]
  refine ⟨aOfCt k, fun i => if i = n-1 then -(2 * U0 * aOfCt k * ((1 - aOfCt k)/(1 - 2*aOfCt k))) else 0, ha, ?_, ha0, h4, fun i hi => ?_⟩
  · have hl : w.gamma_t.length = n := by
      show (arr (contSafety (.fin 0.5) (farr n r)).length _).length = n
      rw [contSafety_nz _ n r hr0]; simp [arr, farr_length]
    apply List.ext_getElem?
    intro i
    by_cases hi : i < n
    · have h1 := hV i hi
      unfold idx at h1
      rw [List.getD_eq_getElem?_getD, List.getElem?_eq_getElem (by rw [hl]; exact hi)] at h1
      rw [List.getElem?_eq_getElem (by rw [hl]; exact hi)]
      simp only [Option.getD_some] at h1
      rw [h1]
      simp [farr, arr, hi]
    · rw [List.getElem?_eq_none (by rw [hl]; omega), List.getElem?_eq_none (by rw [farr_length]; omega)]
  · have hsum : (∑ j ∈ Ico i n, if j = n-1 then -(2 * U0 * aOfCt k * ((1 - aOfCt k)/(1 - 2*aOfCt k))) else 0) =
        -(2 * U0 * aOfCt k * ((1 - aOfCt k)/(1 - 2*aOfCt k))) := by
      rw [Finset.sum_ite_eq' (Ico i n) (n-1), if_pos (Finset.mem_Ico.mpr ⟨by omega, by omega⟩)]
    rw [hsum]
    refine ⟨by ring, ?_⟩
    have h5 : 1 < (1 - aOfCt k)/(1 - 2*aOfCt k) := by
      rw [one_lt_div (by rw [h12]; exact hq0)]; linarith
    have h6 : 0 < U0 * aOfCt k := by positivity
    nlinarith

/-- a loading with `k = 8/10` meets the hypotheses -/
example : 10 * (0.08 * π) / (π * 1^2) ≤ Ctc := by
  have := pi_pos
  rw [show 10 * (0.08 * π) / (π * 1^2) = 0.8 by field_simp; norm_num]
  unfold Ctc ac; norm_num
end Wiz
