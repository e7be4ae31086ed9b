import Verif.Props.SolverLimits
import Verif.Props.ThrustSwirl
import Verif.Props.SolverTorque

/-! # C160: for the same thrust, the rotation of the wake only lowers the axial induction below the stream-tube value -/
set_option autoImplicit false
namespace Wiz
open Spec Finset Real Classical
noncomputable section

/-- the corrected induction never exceeds momentum theory -/
theorem aOfCt_le_momentum (x : ℝ) (h : x ≤ 1) : aOfCt x ≤ (1 - √(1 - x))/2 := by
  rcases le_total x Ctc with hx | hx
  · exact (aOfCt_low x hx).1.le
  · rw [aOfCt_high x hx]
    have h1 : 0 ≤ 1 - x := by linarith
    have h2 := sq_sqrt h1
    generalize √(1 - x) = q at *
    have : x = 1 - q^2 := by linarith
    subst this
    unfold ac; norm_num
    nlinarith [sq_nonneg (q - 0.32)]

theorem aOfCt_mono {x y : ℝ} (h : x ≤ y) : aOfCt x ≤ aOfCt y := by
  rcases h.lt_or_eq with h | h
  · exact (aOfCt_strict x y h).le
  · rw [h]

/-- the default cylinders lie outside their stations and increase -/
theorem rcyl_order (n : ℕ) (r : ℕ → ℝ) (R : ℝ) (hinc : ∀ i j, i < j → j < n → r i < r j) (hR : n = 1 → r 0 ≤ R) :
    (∀ i < n, r i ≤ rcyl n r R i) ∧ (n ≠ 1 → ∀ i < n, r i < rcyl n r R i) ∧ ∀ j, j + 1 < n → rcyl n r R j ≤ rcyl n r R (j+1) := by
  have key : n ≠ 1 → ∀ i < n, r i < rcyl n r R i := by
    intro h1 i hi
    unfold rcyl; rw [if_neg h1]
    by_cases hl : i = n - 1
    · rw [if_pos hl]; subst hl
      have := hinc (n-2) (n-1) (by omega) (by omega)
      linarith
    · rw [if_neg hl]
      have := hinc i (i+1) (by omega) (by omega)
      linarith
  refine ⟨fun i hi => ?_, key, fun j hj => ?_⟩
  · by_cases h1 : n = 1
    · have : i = 0 := by omega
      subst this
      unfold rcyl; rw [if_pos h1]; exact hR h1
    · exact (key h1 i hi).le
  · have h1 : n ≠ 1 := by omega
    have h2 := key h1 (j+1) hj
    refine le_trans ?_ h2.le
    unfold rcyl; rw [if_neg h1, if_neg (by omega)]
    have := hinc j (j+1) (by omega) hj
    linarith

/-- telescoping bound of the thrust lost in the rotation of the wake -/
theorem ctRot_bounds (n : ℕ) (k l : ℕ → ℝ) (hl : ∀ i < n, 0 < l i) (hm : ∀ j, j + 1 < n → l j ≤ l (j+1)) (i : ℕ) (hi : i < n) :
    0 ≤ ctRot n k l i ∧ ∀ K, (∀ j < n, 0 ≤ k j ∧ k j ≤ K) → ctRot n k l i ≤ K^2 / (4 * l i^2) := by
  have hd : ∀ j, j + 1 < n → 0 ≤ 1 / l j^2 - 1 / l (j+1)^2 := fun j hj => by
    have h1 := hl j (by omega)
    have h2 := hm j hj
    exact sub_nonneg.2 (one_div_le_one_div_of_le (by positivity) (by gcongr))
  constructor
  · unfold ctRot
    refine sum_nonneg fun j hj => mul_nonneg (sq_nonneg _) (hd j ?_)
    have := mem_Ico.1 hj; omega
  · intro K hK
    unfold ctRot
    by_cases hlt : i + 1 < n
    · have h1 : ∑ j ∈ Ico (i+1) (n-1), (k (j+1) / 2)^2 * (1 / l j^2 - 1 / l (j+1)^2) ≤
          ∑ j ∈ Ico (i+1) (n-1), (K^2/4) * (1 / l j^2 - 1 / l (j+1)^2) := by
        refine sum_le_sum fun j hj => ?_
        have hj' := mem_Ico.1 hj
        obtain ⟨a, b⟩ := hK (j+1) (by omega)
        refine mul_le_mul_of_nonneg_right ?_ (hd j (by omega))
        nlinarith
      have h2 : ∑ j ∈ Ico (i+1) (n-1), (1 / l j^2 - 1 / l (j+1)^2) = 1 / l (i+1)^2 - 1 / l (n-1)^2 := by
        have := sum_Ico_sub (fun j => - (1 / l j^2)) (show i + 1 ≤ n - 1 by omega)
        have e : ∀ j, 1 / l j^2 - 1 / l (j+1)^2 = - (1 / l (j+1)^2) - - (1 / l j^2) := fun j => by ring
        simp only [e]
        rw [this]; ring
      rw [← mul_sum, h2] at h1
      have h3 : 0 ≤ 1 / l (n-1)^2 := by positivity
      have h4 : 1 / l (i+1)^2 ≤ 1 / l i^2 := by have := hd i hlt; linarith
      calc _ ≤ _ := h1
        _ ≤ K^2/4 * (1 / l i^2) := mul_le_mul_of_nonneg_left (by linarith) (by positivity)
        _ = _ := by have := (hl i hi).ne'; field_simp
    · have : Ico (i+1) (n-1) = ∅ := Ico_eq_empty (by omega)
      rw [this, sum_empty]; positivity

/-- C160 (given circulation): the superposed cylinders whose circulation `Γ ≥ 0` carries the thrust `c ≤ 1` have an
axial induction not above the stream-tube value of that thrust; with two stations or more and `Γ>0` it is below it;
and the difference is bounded by `K²/(4λ_r²)` where `K` bounds the dimensionless circulation. -/
theorem C160_discrete (n : ℕ) (r c G : ℕ → ℝ) (R U0 Ω : ℝ) (bTan : Bool) (hn : 0 < n) (hU : 0 < U0) (hΩ : 0 < Ω) (h0 : 0 < r 0)
    (hinc : ∀ i j, i < j → j < n → r i < r j) (hR : n = 1 → r 0 ≤ R) (hG : ∀ i < n, 0 ≤ G i)
    (hc : ∀ i < n, let k := G i * Ω / (π * U0^2); k * (1 + k / (4 * (Ω * r i / U0)^2)) = c i) (hc1 : ∀ i < n, c i ≤ 1) :
    ∃ w ad, wakeVorticityDiscr (farr n r) (farr n G) (.fin R) (.fin U0) (.fin Ω) (.fin 1) true bTan true none = .ok w ∧
      w.misc.a = farr n ad ∧ ∀ i < n, ∀ (r_bar Cq Lambda : Num) (sw : Bool), ∃ s,
        (inductionsST r_bar (.fin (c i)) Cq Lambda sw).1 = .fin s ∧ ad i ≤ s ∧ (n ≠ 1 → 0 < G i → ad i < s) ∧
        ∀ K, (∀ j < n, G j * Ω / (π * U0^2) ≤ K) → c i ≤ 0.8976 → s - ad i ≤ 0.78125 * (K^2 / (4 * (Ω * r i / U0)^2)) := by
  have hpi := pi_pos
  obtain ⟨w, e, ea⟩ := C27_default_cylinders n r G R U0 Ω 1 bTan hn hU.ne' hΩ.ne' h0 hinc hR
  obtain ⟨hrp, hcp, -⟩ := rcyl_ok n r R hn h0 hinc hR
  obtain ⟨o1, o2, o3⟩ := rcyl_order n r R hinc hR
  refine ⟨w, _, e, ea, fun i hi r_bar Cq Lambda sw => ?_⟩
  have h1 : 0 ≤ 1 - c i := by linarith [hc1 i hi]
  refine ⟨(1 - √(1 - c i))/2, ?_, ?_⟩
  · unfold inductionsST
    simp only [Num.one_def, Num.fin_sub, Num.sqrt_fin h1, Num.fin_mul]
    congr 1; ring
  set k : ℕ → ℝ := fun j => 1 * G j * Ω / (π * U0^2) with hk
  set l : ℕ → ℝ := fun j => Ω * rcyl n r R j / U0 with hl
  have hkn : ∀ j < n, 0 ≤ k j := fun j hj => by have := hG j hj; simp only [hk]; positivity
  have hlp : ∀ j < n, 0 < l j := fun j hj => by have := hcp j hj; simp only [hl]; positivity
  have hlm : ∀ j, j + 1 < n → l j ≤ l (j+1) := fun j hj => by
    have := o3 j hj
    simp only [hl]; gcongr
  obtain ⟨q1, q2⟩ := ctRot_bounds n k l hlp hlm i hi
  have hm : 0 < Ω * r i / U0 := by have := hrp i hi; positivity
  have hml : Ω * r i / U0 ≤ l i := by
    have := o1 i hi
    simp only [hl]; gcongr
  have hci : k i * (1 + k i / (4 * (Ω * r i / U0)^2)) = c i := by
    have := hc i hi
    simp only [hk, one_mul]; exact this
  have hml' : n ≠ 1 → Ω * r i / U0 < l i := fun h => by
    have := o2 h i hi
    simp only [hl]; gcongr
  have hli := hlp i hi
  have hki := hkn i hi
  have eq : c i - ctEff n k l i = k i^2/4 * (1 / (Ω * r i / U0)^2 - 1 / l i^2) + ctRot n k l i := by
    unfold ctEff ctKJ
    rw [← hci]
    generalize Ω * r i / U0 = m at *
    field_simp; ring
  have hdiff : 0 ≤ 1 / (Ω * r i / U0)^2 - 1 / l i^2 := sub_nonneg.2 (one_div_le_one_div_of_le (by positivity) (by gcongr))
  have hle : ctEff n k l i ≤ c i := by
    have := mul_nonneg (show 0 ≤ k i^2/4 by positivity) hdiff
    linarith
  have hmom := aOfCt_le_momentum (c i) (hc1 i hi)
  refine ⟨(aOfCt_mono hle).trans hmom, fun hn1 hGi => ?_, fun K hK hlow => ?_⟩
  · refine lt_of_lt_of_le (aOfCt_strict _ _ ?_) hmom
    have h3 : 0 < k i := by simp only [hk]; positivity
    have h4 : 0 < 1 / (Ω * r i / U0)^2 - 1 / l i^2 := sub_pos.2 (one_div_lt_one_div_of_lt (by positivity) (by have := hml' hn1; gcongr))
    have := mul_pos (show 0 < k i^2/4 by positivity) h4
    linarith
  · have hCtc : Ctc = 0.8976 := by unfold Ctc ac; norm_num
    rw [← (aOfCt_low (c i) (by rw [hCtc]; exact hlow)).1]
    have hK' : ∀ j < n, 0 ≤ k j ∧ k j ≤ K := fun j hj => ⟨hkn j hj, by have := hK j hj; simpa only [hk, one_mul] using this⟩
    have b := q2 K hK'
    have b2 : k i^2/4 * (1 / (Ω * r i / U0)^2 - 1 / l i^2) ≤ K^2/4 * (1 / (Ω * r i / U0)^2 - 1 / l i^2) := by
      refine mul_le_mul_of_nonneg_right ?_ hdiff
      have := (hK' i hi).2
      nlinarith
    have b3 : K^2/4 * (1 / (Ω * r i / U0)^2 - 1 / l i^2) + K^2 / (4 * l i^2) = K^2 / (4 * (Ω * r i / U0)^2) := by
      generalize Ω * r i / U0 = m at *
      field_simp; ring
    have lip := aOfCt_lipschitz (c i) (ctEff n k l i)
    rw [abs_of_nonneg (by linarith : 0 ≤ c i - ctEff n k l i)] at lip
    have := le_abs_self (aOfCt (c i) - aOfCt (ctEff n k l i))
    nlinarith

/-- C160 (prescribed thrust): through `WakeVorticityFromCt` with an exact minimiser, for thrust coefficients in `(0,1]`
and a tip-speed ratio below 20, the axial induction of the wake is not above the stream-tube value, is below it
with two stations or more, and approaches it as `C²/(4λ_r²)`. -/
theorem C160_prescribed (mini : (ℝ → Num) → ℝ)
    (hmin : ∀ l Ct : ℝ, 0 < l → 0 < Ct → IsExactMin (ctObjective (.fin l) (.fin Ct)) (mini (ctObjective (.fin l) (.fin Ct))))
    (n : ℕ) (r c : ℕ → ℝ) (R U0 Ω : ℝ) (hn : 0 < n) (hR : 0 < R) (hU : 0 < U0) (hΩ : 0 < Ω) (h20 : Ω * R / U0 < 20) (h0 : 0 < r 0)
    (hinc : ∀ i j, i < j → j < n → r i < r j) (hnR : n = 1 → r 0 ≤ R) (hc : ∀ i < n, 0 < c i) (hc1 : ∀ i < n, c i ≤ 1) :
    ∃ w ad, wakeVorticityFromCt mini (farr n r) (farr n c) (.fin R) (.fin U0) (.fin Ω) = .ok w ∧
      w.misc.a = farr n ad ∧ ∀ i < n, ∀ (r_bar Cq Lambda : Num) (sw : Bool), ∃ s,
        (inductionsST r_bar (.fin (c i)) Cq Lambda sw).1 = .fin s ∧ ad i ≤ s ∧ (n ≠ 1 → ad i < s) ∧
        ∀ C, (∀ j < n, c j ≤ C) → C ≤ 0.8976 → s - ad i ≤ 0.78125 * (C^2 / (4 * (Ω * r i / U0)^2)) := by
  have hpi := pi_pos
  have hpos : ∀ i < n, 0 < r i := (rcyl_ok n r R hn h0 hinc hnR).1
  have hlam : 0 < Ω * R / U0 := by positivity
  have hlr : ∀ i, Ω * R / U0 * r i / R = Ω * r i / U0 := fun i => by field_simp
  set K : ℕ → ℝ := fun i => mini fun k => .fin |k * (1 + k / (4 * (Ω * R / U0 * r i / R)^2)) - c i| with hKd
  have hroot : ∀ i < n, 0 < K i ∧ K i < c i ∧ K i * (1 + K i / (4 * (Ω * r i / U0)^2)) = c i := by
    intro i hi
    have hl : 0 < Ω * r i / U0 := by have := hpos i hi; positivity
    have hK1 : K i = mini (ctObjective (.fin (Ω * r i / U0)) (.fin (c i))) := by
      simp only [hKd]
      congr 1
      funext k
      rw [ctObjective_fin _ _ _ hl.ne', hlr]
      rfl
    obtain ⟨m0, m1, m2⟩ := hmin _ _ hl (hc i hi)
    rw [← hK1] at m0 m1 m2
    obtain ⟨k0, ⟨a, b, e⟩, u⟩ := C26_unique_root _ (c i) hl (hc i hi)
    have m3 := m2 k0 a.le (by have := hc1 i hi; norm_num; linarith)
    have hz : ctObjective (.fin (Ω * r i / U0)) (.fin (c i)) k0 = .fin 0 := by
      rw [ctObjective_fin _ _ _ hl.ne']
      have e' : ctKJ k0 (Ω * r i / U0) = c i := e
      rw [e', sub_self, abs_zero]
    rw [hz] at m3
    have := C26_residual_bound _ (c i) (K i) k0 0 hl m0 a.le e m3
    have hKk : K i = k0 := by
      have := abs_nonpos_iff.1 this; linarith
    rw [hKk]
    exact ⟨a, b, e⟩
  set G : ℕ → ℝ := fun i => K i * π * U0^2 / Ω with hG
  have hkG : ∀ i, G i * Ω / (π * U0^2) = K i := fun i => by simp only [hG]; field_simp
  obtain ⟨w, ad, e, ea, H⟩ := C160_discrete n r c G R U0 Ω true hn hU hΩ h0 hinc hnR (fun i hi => by have := (hroot i hi).1; simp only [hG]; positivity)
    (fun i hi => by simp only [hkG]; exact (hroot i hi).2.2) hc1
  refine ⟨w, ad, ?_, ea, fun i hi r_bar Cq Lambda sw => ?_⟩
  · rw [← e]
    unfold wakeVorticityFromCt
    have c1 : capOmega (.fin Ω) = .fin Ω := by
      unfold capOmega; rw [if_neg (by intro h; exact h)]
    have c3 : (Num.fin Ω * Num.fin R / Num.fin U0 : Num) = .fin (Ω * R / U0) := by
      rw [Num.fin_mul, Num.fin_div hU.ne']
    have c2 : decide ((Num.fin (Ω * R / U0) : Num) < 20) = true := by
      rw [decide_eq_true_iff, Num.ofNat_def, Num.lt_fin]
      exact_mod_cast h20
    simp only [c1, c3, c2]
    rw [circulation_swirl mini n r c R _ hR hlam hpos hc]
    congr 1
    refine (map_farr n K _ (fun x => x * π * U0^2 / Ω) fun i _ => ?_)
    simp only [Num.fin_mul, Num.fin_pow, Num.fin_div hΩ.ne']
  · obtain ⟨s, p1, p2, p3, p4⟩ := H i hi r_bar Cq Lambda sw
    refine ⟨s, p1, p2, fun h => p3 h ?_, fun C hC hC1 => p4 C (fun j hj => ?_) ((hC i hi).trans hC1)⟩
    · have := (hroot i hi).1; simp only [hG]; positivity
    · rw [hkG]; exact (hroot j hj).2.1.le.trans (hC j hj)

/-- C160 (continuous loading): the continuous solver is not above the stream tube either, and agrees with it exactly at
the outermost station when the thrust there is at most 0.8976. -/
theorem C160_continuous (n : ℕ) (r c G : ℕ → ℝ) (R U0 Ω : ℝ) (hn : 0 < n) (hR : 0 < R) (hU : 0 < U0) (hΩ : 0 < Ω) (h0 : 0 < r 0)
    (hinc : ∀ i j, i < j → j < n → r i < r j)
    (hc : ∀ i < n, let k := G i * Ω / (π * U0^2); k * (1 + k / (4 * (Ω * r i / U0)^2)) = c i) (hc1 : ∀ i < n, c i ≤ 1) :
    ∃ ac : ℕ → ℝ, (wakeVorticityCont (farr n r) (farr n G) (.fin R) (.fin U0) (.fin Ω) true true).ind.a = farr n ac ∧
      ∀ i < n, ∀ (r_bar Cq Lambda : Num) (sw : Bool), ∃ s,
        (inductionsST r_bar (.fin (c i)) Cq Lambda sw).1 = .fin s ∧ ac i ≤ s ∧ (i + 1 = n → c i ≤ 0.8976 → ac i = s) ∧
        (i + 1 < n → G i ≠ 0 → ac i < s) := by
  have hpi := pi_pos
  have hpos : ∀ i < n, 0 < r i := by
    intro i hi
    rcases Nat.eq_zero_or_pos i with rfl | h
    · exact h0
    · exact h0.trans (hinc 0 i h hi)
  obtain ⟨a, ap, eff, e1, -, -, hap, heff, ha, -⟩ := C104_swirl n r G R U0 Ω hn hR.ne' hU.ne' hΩ.ne' (fun i hi => (hpos i hi).ne')
  refine ⟨a, e1, fun i hi r_bar Cq Lambda sw => ?_⟩
  have h1 : 0 ≤ 1 - c i := by linarith [hc1 i hi]
  refine ⟨(1 - √(1 - c i))/2, ?_, ?_⟩
  · unfold inductionsST
    simp only [Num.one_def, Num.fin_sub, Num.sqrt_fin h1, Num.fin_mul]
    congr 1; ring
  have hmom := aOfCt_le_momentum (c i) (hc1 i hi)
  have hci := hc i hi
  have he := heff i hi
  rw [hap i hi] at he
  simp only [mul_comm (G i) Ω] at hci
  dsimp only at he
  rw [hci] at he
  rw [ha i hi]
  have hterm : ∀ j ∈ Ico i (n-1), 0 ≤ (r (j+1)/R - r j/R) * ((Ω * r j / U0)^2 * ap j^2/(r j/R) + (Ω * r (j+1) / U0)^2 * ap (j+1)^2/(r (j+1)/R))/2 := by
    intro j hj
    have hj' := mem_Ico.1 hj
    have a1 := hpos j (by omega)
    have a2 := hpos (j+1) (by omega)
    have a3 : 0 ≤ r (j+1)/R - r j/R := by
      have := hinc j (j+1) (by omega) (by omega)
      rw [← sub_div]; exact div_nonneg (by linarith) hR.le
    positivity
  have hs := sum_nonneg hterm
  refine ⟨(aOfCt_mono (by linarith)).trans hmom, fun hl hlow => ?_, fun hl hGi => ?_⟩
  · have hCtc : Ctc = 0.8976 := by unfold Ctc ac; norm_num
    have : Ico i (n-1) = ∅ := Ico_eq_empty (by omega)
    rw [this, sum_empty, mul_zero, sub_zero] at he
    rw [he, (aOfCt_low (c i) (by rw [hCtc]; exact hlow)).1]
  · refine lt_of_lt_of_le (aOfCt_strict _ _ ?_) hmom
    have : 0 < ∑ j ∈ Ico i (n-1), (r (j+1)/R - r j/R) * ((Ω * r j / U0)^2 * ap j^2/(r j/R) + (Ω * r (j+1) / U0)^2 * ap (j+1)^2/(r (j+1)/R))/2 := by
      refine sum_pos' hterm ⟨i, mem_Ico.2 ⟨le_rfl, by omega⟩, ?_⟩
      have a1 := hpos i hi
      have a2 := hpos (i+1) hl
      have a3 : 0 < r (i+1)/R - r i/R := by
        have := hinc i (i+1) (by omega) hl
        rw [← sub_div]; exact div_pos (by linarith) hR
      have a4 : ap i ≠ 0 := by
        rw [hap i hi]; dsimp only; positivity
      have a5 : 0 < ap i^2 := by positivity
      positivity
    linarith

/-- C160 (prescribed torque): for the same thrust and the same torque coefficient `q ≥ 0`, the continuous formulation returns axial and
tangential inductions not above those of the stream tube, and strictly below inboard of the last station where the blade is loaded. -/
theorem C160_torque (n : ℕ) (rb c k q : ℕ → ℝ) (Lam : ℝ) (hn : 0 < n) (hL : 0 < Lam) (h0 : 0 < rb 0)
    (hinc : ∀ i j, i < j → j < n → rb i < rb j) (hc : ∀ i < n, k i * (1 + k i / (4 * (Lam * rb i)^2)) = c i) (hc1 : ∀ i < n, c i ≤ 1)
    (hq : ∀ i < n, 0 ≤ q i) :
    let d := inductionsContCq (farr n rb) (farr n fun i => Lam * rb i) (farr n k) true true (some (farr n q))
    ∀ i < n, ∃ a a' s s' : ℝ, idx d.1.a i = .fin a ∧ idx d.1.a_prime i = .fin a' ∧
      inductionsST (.fin (rb i)) (.fin (c i)) (.fin (q i)) (.fin Lam) true = (.fin s, .fin s') ∧
      a ≤ s ∧ 0 ≤ a' ∧ a' ≤ s' ∧ (i + 1 < n → k i ≠ 0 → a < s ∧ (0 < q i → a' < s')) := by
  intro d i hi
  have hpi := pi_pos
  have hpos : ∀ i < n, 0 < rb i := by
    intro i hi
    rcases Nat.eq_zero_or_pos i with rfl | h
    · exact h0
    · exact h0.trans (hinc 0 i h hi)
  have hk : ∀ i, k i * π / Lam * Lam / (π * 1^2) = k i := fun i => by field_simp
  obtain ⟨ac, e1, H⟩ := C160_continuous n rb c (fun i => k i * π / Lam) 1 1 Lam hn one_pos one_pos hL h0 hinc
    (fun i hi => by simp only [hk, div_one]; exact hc i hi) hc1
  have hind : (wakeVorticityCont (farr n rb) (farr n fun i => k i * π / Lam) (.fin 1) (.fin 1) (.fin Lam) true true).ind =
      inductionsCont (farr n rb) (farr n fun i => Lam * rb i) (farr n k) true true := by
    show inductionsCont _ _ _ _ _ = _
    have a1 : contSafety (.fin 0.5) (farr n rb) = farr n rb := contSafety_nz _ n rb (hpos 0 hn).ne'
    have a2 : (farr n rb).map (fun x => Num.fin Lam * x / .fin 1) = farr n fun i => Lam * rb i :=
      map_farr n rb _ (fun x => Lam * x) fun i _ => by simp only [Num.fin_mul, Num.fin_div one_ne_zero, div_one]
    have a3 : contSafety (.fin 0.01) (farr n fun i => Lam * rb i) = farr n fun i => Lam * rb i :=
      contSafety_nz _ n _ (mul_pos hL (hpos 0 hn)).ne'
    have a4 : (farr n fun i => k i * π / Lam).map (fun g => Num.fin Lam * g / (.fin π * (.fin 1)^2)) = farr n k := by
      refine (map_farr n (fun i => k i * π / Lam) _ (fun g => Lam * g / (π * 1^2)) fun i _ => ?_).trans ?_
      · simp only [Num.fin_mul, Num.fin_pow, Num.fin_div (show π * (1:ℝ)^2 ≠ 0 by positivity)]
      · congr 1; funext i; field_simp
    have a5 : (farr n rb).map (fun x => x / Num.fin 1) = farr n rb :=
      map_farr n rb _ (fun x => x) fun i _ => by simp only [Num.fin_div one_ne_zero, div_one]
    rw [a1, a2, a3, a4, a5]
  rw [hind] at e1
  have hai : idx (inductionsCont (farr n rb) (farr n fun i => Lam * rb i) (farr n k) true true).a i = .fin (ac i) := by rw [e1, idx_farr _ _ _ hi]
  obtain ⟨s, p1, p2, -, p3⟩ := H i hi (.fin (rb i)) (.fin (q i)) (.fin Lam) true
  obtain ⟨⟨t, t', q1, q2⟩, -⟩ := C25_tangential (rb i) (c i) (q i) Lam (hc1 i hi) (hpos i hi).ne' hL.ne'
  obtain ⟨t2, r1, -, r3⟩ := C25_axial (.fin (rb i)) (.fin (q i)) (.fin Lam) (c i) true (hc1 i hi)
  have hts : t = s := by rw [q1] at p1; exact Num.fin_inj.1 p1
  have hts2 : t = t2 := by rw [q1] at r1; exact Num.fin_inj.1 r1
  have hs1 : s ≤ 1/2 := by rw [← hts, hts2]; exact r3
  have hl : 0 < Lam * rb i := mul_pos hL (hpos i hi)
  obtain ⟨-, -, -, -, -, k2, -, -, -, T⟩ := C109_torque n (farr n rb) (fun i => Lam * rb i) k q true true (fun i hi => (mul_pos hL (hpos i hi)).ne')
  obtain ⟨a', κ, u1, -, u2, -⟩ := T i hi (ac i) hai (by intro h; linarith)
  refine ⟨ac i, a', s, t', hai, u1, by rw [q1, hts], p2, ?_⟩
  rw [hts] at q2
  have f1 : a' = q i / (4 * (Lam * rb i) * (1 - ac i)) := by
    have : 0 < 1 - ac i := by linarith
    rw [eq_div_iff (by positivity), ← u2]; ring
  have f2 : t' = q i / (4 * (Lam * rb i) * (1 - s)) := by
    have : 0 < 1 - s := by linarith
    rw [eq_div_iff (by positivity), ← q2]; ring
  have g1 : 0 < 1 - s := by linarith
  have g2 : 0 < 1 - ac i := by linarith
  have hqi := hq i hi
  refine ⟨by rw [f1]; positivity, ?_, fun h1 h2 => ?_⟩
  · rw [f1, f2]
    exact div_le_div_of_nonneg_left hqi (by positivity) (mul_le_mul_of_nonneg_left (by linarith) (by positivity))
  · have h3 : ac i < s := p3 h1 (by positivity)
    refine ⟨h3, fun h4 => ?_⟩
    rw [f1, f2]
    exact div_lt_div_of_pos_left h4 (by positivity) (mul_lt_mul_of_pos_left (by linarith) (by positivity))

/-- three stations with `k=1/2` at tip-speed ratio 6 meet the hypotheses of `C160_torque` -/
example : ∀ i < 3, (1/2:ℝ) * (1 + (1/2) / (4 * (6 * (((i:ℕ):ℝ) + 1)/3)^2)) ≤ 1 := by
  intro i _
  have : (1:ℝ) ≤ (6 * ((i:ℝ) + 1)/3)^2 := by
    have : (0:ℝ) ≤ i := Nat.cast_nonneg i
    nlinarith
  generalize (6 * ((i:ℝ) + 1)/3)^2 = x at *
  have h : (1/2) / (4 * x) ≤ 1/8 := by rw [div_le_div_iff₀ (by positivity) (by norm_num)]; linarith
  linarith

/-- two stations of a rotor of radius 50 m at 7 m/s, with a thrust of 0.8 and tip-speed ratio 6, meet the hypotheses -/
example : ∃ (mini : (ℝ → Num) → ℝ) (r c : ℕ → ℝ), (∀ l Ct : ℝ, 0 < l → 0 < Ct → IsExactMin (ctObjective (.fin l) (.fin Ct)) (mini (ctObjective (.fin l) (.fin Ct)))) ∧
    (0.84:ℝ) * 50 / 7 < 20 ∧ 0 < r 0 ∧ (∀ i j, i < j → j < 2 → r i < r j) ∧ ∀ i < 2, 0 < c i ∧ c i ≤ 0.8976 := by
  classical
  have ex : ∀ l Ct : ℝ, 0 < l → 0 < Ct → ∃ k, IsExactMin (ctObjective (.fin l) (.fin Ct)) k := by
    intro l Ct hl hC
    have hcont : ContinuousOn (fun k => |ctKJ k l - Ct|) (Set.Icc 0 1.8) := by
      apply Continuous.continuousOn
      unfold ctKJ
      fun_prop
    obtain ⟨k, hk, hm⟩ := isCompact_Icc.exists_isMinOn (Set.nonempty_Icc.2 (by norm_num : (0:ℝ) ≤ 1.8)) hcont
    refine ⟨k, hk.1, hk.2, fun k' a b => ?_⟩
    rw [ctObjective_fin _ _ _ hl.ne', ctObjective_fin _ _ _ hl.ne', Num.le_fin]
    exact hm ⟨a, b⟩
  refine ⟨fun f => if h : ∃ k, IsExactMin f k then h.choose else 0, fun i => 20 * ((i:ℝ) + 1), fun _ => 0.8, ?_, by norm_num, by norm_num, ?_, by norm_num⟩
  · intro l Ct hl hC
    beta_reduce; rw [dif_pos (ex l Ct hl hC)]
    exact (ex l Ct hl hC).choose_spec
  · intro i j h _
    have : (i:ℝ) < j := by exact_mod_cast h
    simp only; linarith

end
end Wiz
