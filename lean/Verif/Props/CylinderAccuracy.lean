import Verif.Lemmas.CarlsonUniformPi
import Verif.Props.VortexCylinder2

/-! # C119: the cylinder velocity is within 3% of the sheet strength of Biot–Savart, whatever the batch -/
namespace Wiz
open Spec Real Classical

/-- the degenerate sum is at least the inverse square root of its mean -/
theorem rcVal_ge {x y : ℝ} (hx : 0 ≤ x) (hxy : x ≤ y) (hy : 0 < y) : 1/√((x+2*y)/3) ≤ rcVal x y := by
  unfold rcVal
  simp only
  rw [rpow_neg_half (by positivity)]
  have hs : 0 ≤ (y - x)/(3*((x+2*y)/3)) := div_nonneg (by linarith) (by positivity)
  generalize (y - x)/(3*((x+2*y)/3)) = s at *
  have h1 : 0 ≤ 3/10*s^2 + s^2*s/7 + 3/8*(s^2*s*s) + 9/22*(s^2*s*s*s) + 159/208*(s^2*s*s*s*s) := by positivity
  have h2 : 0 ≤ 1/√((x+2*y)/3) := by positivity
  nlinarith

theorem dup_le_one {y : ℝ} (hy0 : 0 ≤ y) (hy : y ≤ 1) (k : ℕ) :
    (dupIter 0 y 1 k).1 ≤ 1 ∧ (dupIter 0 y 1 k).2.1 ≤ 1 ∧ (dupIter 0 y 1 k).2.2 ≤ 1 := by
  induction k with
  | zero => exact ⟨zero_le_one, hy, le_rfl⟩
  | succ k ih =>
    obtain ⟨a, b, c⟩ := ih
    obtain ⟨a', b', c', -⟩ := dupIter_nonneg 0 y 1 le_rfl hy0 zero_le_one (by linarith) k
    have q : ∀ s t : ℝ, 0 ≤ s → s ≤ 1 → t ≤ 1 → √(s*t) ≤ 1 := by
      intro s t h0 h1 h2
      rw [sqrt_le_left zero_le_one]
      nlinarith
    have hl : lam (dupIter 0 y 1 k).1 (dupIter 0 y 1 k).2.1 (dupIter 0 y 1 k).2.2 ≤ 3 := by
      unfold lam
      linarith [q _ _ a' a b, q _ _ a' a c, q _ _ b' b c]
    simp only [dupIter]
    exact ⟨by linarith, by linarith, by linarith⟩

theorem bet_le {y p : ℝ} (hp : 0 < p) (hpy : p ≤ y) (hy : y ≤ 1) (k : ℕ) :
    rjBetR (dupIter 0 y 1 k).1 (dupIter 0 y 1 k).2.1 (dupIter 0 y 1 k).2.2 (dupP 0 y 1 p k) ≤ 16 := by
  obtain ⟨o1, o2, o3⟩ := dup_order hp.le hpy hy k
  obtain ⟨a, b, c⟩ := dup_le_one (by linarith) hy k
  obtain ⟨a', b', c', -⟩ := dupIter_nonneg 0 y 1 le_rfl (by linarith) zero_le_one (by linarith) k
  have hq := dupP_pos 0 y 1 p hp k
  have q : ∀ s t : ℝ, 0 ≤ s → s ≤ 1 → t ≤ 1 → √(s*t) ≤ 1 := by
    intro s t h0 h1 h2
    rw [sqrt_le_left zero_le_one]
    nlinarith
  have hl : lam (dupIter 0 y 1 k).1 (dupIter 0 y 1 k).2.1 (dupIter 0 y 1 k).2.2 ≤ 3 := by
    unfold lam
    linarith [q _ _ a' a b, q _ _ a' a c, q _ _ b' b c]
  have hl0 := lam_nonneg (dupIter 0 y 1 k).1 (dupIter 0 y 1 k).2.1 (dupIter 0 y 1 k).2.2
  unfold rjBetR
  generalize lam (dupIter 0 y 1 k).1 (dupIter 0 y 1 k).2.1 (dupIter 0 y 1 k).2.2 = l at *
  have hP : dupP 0 y 1 p k ≤ 1 := by linarith
  generalize dupP 0 y 1 p k = P at *
  have h2 : (P + l)^2 ≤ 4^2 := pow_le_pow_left₀ (by positivity) (by linarith) 2
  nlinarith

theorem rjAlfa_args (kC : ℕ → ℕ) (hC : ∀ j, 1 ≤ kC j) {y p : ℝ} (hy : 0 ≤ y) (hp : 0 < p) (j : ℕ) :
    rjAlfa (carlsonRJst kC (.fin y) (.fin p) j) = .fin (rjAlfaR (dupIter 0 y 1 j).1 (dupIter 0 y 1 j).2.1 (dupIter 0 y 1 j).2.2 (dupP 0 y 1 p j)) ∧
    rjBet (carlsonRJst kC (.fin y) (.fin p) j) = .fin (rjBetR (dupIter 0 y 1 j).1 (dupIter 0 y 1 j).2.1 (dupIter 0 y 1 j).2.2 (dupP 0 y 1 p j)) := by
  cases j with
  | zero =>
    have h1 := rjAlfa_fin 0 y 1 p 0 0 le_rfl hy zero_le_one
    have h2 := rjBet_fin 0 y 1 p 0 0 le_rfl hy zero_le_one
    simp only [carlsonRJst, Num.zero_def, Num.one_def, dupIter, dupP] at h1 h2 ⊢
    exact ⟨h1, h2⟩
  | succ j =>
    rw [carlsonRJst_fin kC hC y p hy hp j]
    obtain ⟨a, b, c, d⟩ := dupIter_nonneg 0 y 1 le_rfl hy zero_le_one (by linarith) (j+1)
    rw [rjAlfa_fin _ _ _ _ _ _ a b c, rjBet_fin _ _ _ _ _ _ a b c]
    exact ⟨rfl, rfl⟩

/-- on every batch, for an entry `0 ≤ m ≤ n < 1`, every loop makes at least two passes -/
theorem carlson_passes (nm : List (ℝ × ℝ)) (hm : ∀ p ∈ nm, p.2 ≤ 1) (n m : ℝ) (hmem : (n, m) ∈ nm) (hm0 : 0 ≤ m) (hmn : m ≤ n) (hn : n < 1)
    (P : Num → Num → Num) (hP : ellipticPiCarlson (nm.map fun p => (.fin p.1, .fin p.2)) = nm.map fun p => P (.fin p.1) (.fin p.2)) :
    ∃ (kF kJ : ℕ) (kC : ℕ → ℕ), StopsAt 1e-12 20 (fun j p => carlsonRF j (.fin (1 - p.2))) nm kF ∧ 2 ≤ kF ∧ (2 ≤ kJ ∧ kJ ≤ 20) ∧
      (∀ j, 1 ≤ kC j ∧ kC j ≤ 20) ∧ (∀ j < kJ, 2 ≤ kC j) ∧ P (.fin n) (.fin m) = carlsonPi kF kJ kC (.fin n) (.fin m) := by
  obtain ⟨kF, kJ, kC0, e, hF, hJ, hin⟩ := C37_stopping nm hm ⟨(n, m), hmem, hn⟩
  -- the counts beyond the last pass do not matter
  obtain ⟨kC, hkC⟩ : ∃ kC : ℕ → ℕ, kC = fun j => if j < kJ then kC0 j else 1 := ⟨_, rfl⟩
  have hsame : ∀ j < kJ, kC j = kC0 j := by intro j hj; rw [hkC]; simp [hj]
  have hone : ∀ j, 1 ≤ kC j := by
    intro j
    rw [hkC]
    simp only
    split_ifs with h
    · exact (hin j h).1
    · exact le_rfl
  have hst : ∀ (y rho : Num) (j : ℕ), j ≤ kJ → carlsonRJst kC0 y rho j = carlsonRJst kC y rho j := fun y rho j hj =>
    (rjst_congr kC0 kC kJ hsame y rho j hj).symm
  have hval : P (.fin n) (.fin m) = carlsonPi kF kJ kC0 (.fin n) (.fin m) := by
    rw [e] at hP
    have := List.map_inj_left.mp hP (n, m) hmem
    exact this.symm
  have hval' : carlsonPi kF kJ kC0 (.fin n) (.fin m) = carlsonPi kF kJ kC (.fin n) (.fin m) := by
    unfold carlsonPi carlsonRJ
    rw [hst _ _ kJ le_rfl]
  have hy0 : (0:ℝ) ≤ 1 - m := by linarith
  have hy1 : 1 - m ≤ 1 := by linarith
  have hp0 : 0 < 1 - n := by linarith
  have hpy : 1 - n ≤ 1 - m := by linarith
  have hmem' : (n, m) ∈ nm.filter fun p => p.1 < 1 := List.mem_filter.mpr ⟨hmem, by simpa using hn⟩
  have lowRC : ∀ {x y : ℝ}, 0 ≤ x → x ≤ y → 0 < y → y ≤ 16 → 1/4 ≤ rcVal x y := by
    intro x y h0 h1 h2 h3
    refine le_trans ?_ (rcVal_ge h0 h1 h2)
    rw [div_le_div_iff₀ (by norm_num) (sqrt_pos.mpr (by positivity))]
    have : √((x+2*y)/3) ≤ 4 := by
      rw [sqrt_le_left (by norm_num)]; linarith
    linarith
  have big : ∀ v : ℝ, 1/4 ≤ v → ¬ Num.abs (.fin v - .fin 0) ≤ Num.fin 1e-12 := by
    intro v hv h
    rw [Num.fin_sub, Num.abs_fin, sub_zero, abs_of_nonneg (by linarith)] at h
    have h' : v ≤ 1e-12 := h
    norm_num at h'
    linarith
  have hF2 : 2 ≤ kF := by
    by_contra hc
    have h1 : kF = 1 := by have := hF.1; omega
    subst h1
    have := hF.2.2.2 (by norm_num) _ hmem
    simp only [Nat.sub_self] at this
    rw [carlsonRF_fin 0 _ hy0] at this
    refine big _ ?_ this
    have h2 := rfVal_ge_mean le_rfl hy0 zero_le_one (by linarith) (x := 0) (y := 1-m) (z := 1)
    refine le_trans ?_ h2
    rw [div_le_div_iff₀ (by norm_num) (sqrt_pos.mpr (by linarith))]
    have : √((0 + (1-m) + 1)/3) ≤ 1 := by rw [sqrt_le_left zero_le_one]; linarith
    linarith
  have hC2 : ∀ j < kJ, 2 ≤ kC j := by
    intro j hj
    by_contra hc
    have h1 : kC0 j = 1 := by have := hone j; have := hsame j hj; omega
    have hs := hin j hj
    rw [h1] at hs
    have := hs.2.2.2 (by norm_num) _ hmem'
    simp only [Nat.sub_self] at this
    rw [hst _ _ j hj.le] at this
    obtain ⟨a1, a2⟩ := rjAlfa_args kC hone hy0 hp0 j
    rw [a1, a2] at this
    have hq := dupP_pos 0 (1-m) 1 (1-n) hp0 j
    have hb := rjBetR_pos (x := (dupIter 0 (1-m) 1 j).1) (y := (dupIter 0 (1-m) 1 j).2.1) (z := (dupIter 0 (1-m) 1 j).2.2) hq
    rw [carlsonRC_fin 0 _ _ (rjAlfaR_nonneg _ _ _ _) hb] at this
    refine big _ ?_ this
    exact lowRC (rjAlfaR_nonneg _ _ _ _) (alfa_le_bet hp0.le hpy hy1 j) hb (bet_le hp0 hpy hy1 j)
  have hJ2 : 2 ≤ kJ := by
    by_contra hc
    have h1 : kJ = 1 := by have := hJ.1; omega
    subst h1
    have := hJ.2.2.2 (by norm_num) _ hmem'
    simp only [Nat.sub_self] at this
    rw [hst _ _ 1 le_rfl, carlsonRJst_fin kC hone _ _ hy0 hp0 0] at this
    refine big _ ?_ this
    simp only [rjAcc, dupIter, dupP, zero_add, pow_zero, inv_one, mul_one]
    have hab := alfa_le_bet hp0.le hpy hy1 0
    have hb16 := bet_le hp0 hpy hy1 0
    have hb := rjBetR_pos (x := 0) (y := 1-m) (z := 1) hp0
    have ha := rjAlfaR_nonneg 0 (1-m) 1 (1-n)
    simp only [dupIter, dupP] at hab hb16
    have htail : 0 ≤ rjTail 0 (1-m) 1 (1-n) := by
      rw [rjTail_eq (by linarith)]
      have := rjS_nonneg (1 - 0/((0+(1-m)+1+2*(1-n))/5)) (1 - (1-m)/((0+(1-m)+1+2*(1-n))/5)) (1 - 1/((0+(1-m)+1+2*(1-n))/5)) (1 - (1-n)/((0+(1-m)+1+2*(1-n))/5))
      have h5 : 0 ≤ (0+(1-m)+1+2*(1-n))/5 := by linarith
      positivity
    generalize rjAlfaR 0 (1-m) 1 (1-n) = α at *
    generalize rjBetR 0 (1-m) 1 (1-n) = β at *
    obtain ⟨i, hi⟩ : ∃ i, kC 0 - 1 = i + 1 := ⟨kC 0 - 2, by have := hC2 0 (by norm_num); omega⟩
    rw [hi]
    obtain ⟨r1, r2, r3⟩ := rcIter_ratio ha hb hab i
    have hle : ∀ k, (rcIter α β k).2 ≤ 16 := by
      intro k
      induction k with
      | zero => exact hb16
      | succ k ih =>
        obtain ⟨n1, n2⟩ := rcIter_nonneg α β ha hb k
        have hd := rcIter_diff α β k
        have ho : (rcIter α β k).1 ≤ (rcIter α β k).2 := by
          have : (α-β)/4^k ≤ 0 := div_nonpos_of_nonpos_of_nonneg (by linarith) (by positivity)
          linarith
        have hs : √((rcIter α β k).1*(rcIter α β k).2) ≤ (rcIter α β k).2 := by
          rw [sqrt_le_left n2.le]; nlinarith
        simp only [rcIter, rcLam]
        linarith
    have := lowRC r1.le r2 (lt_of_lt_of_le r1 r2) (hle (i+1))
    have h4 : (0:ℝ) ≤ (4^1)⁻¹ := by positivity
    have := mul_nonneg h4 htail
    linarith
  refine ⟨kF, kJ, kC, hF, hF2, ⟨hJ2, hJ.2.1⟩, fun j => ⟨hone j, ?_⟩, hC2, hval.trans hval'⟩
  rw [hkC]
  simp only
  split_ifs with h
  · exact (hin j h).2.1
  · norm_num

/-- on every batch, for an entry `0 ≤ m ≤ n < 1`, every loop makes at least two passes and the value is within the weighted bound -/
theorem carlson_uniform (nm : List (ℝ × ℝ)) (hm : ∀ p ∈ nm, p.2 ≤ 1) (n m : ℝ) (hmem : (n, m) ∈ nm) (hm0 : 0 ≤ m) (hmn : m ≤ n) (hn : n < 1)
    (P : Num → Num → Num) (hP : ellipticPiCarlson (nm.map fun p => (.fin p.1, .fin p.2)) = nm.map fun p => P (.fin p.1) (.fin p.2)) :
    ∃ c : ℝ, P (.fin n) (.fin m) = .fin c ∧ √((1-n)*((n-m)/n)) * |c - ellPi n m| ≤ 188/1000 := by
  obtain ⟨kF, kJ, kC, -, hF2, ⟨hJ2, -⟩, hone, hC2, hval⟩ := carlson_passes nm hm n m hmem hm0 hmn hn P hP
  rw [hval]
  refine ⟨_, carlsonPi_fin kF kJ kC (by omega) (by omega) (fun j => (hone j).1) n m hn (by linarith), ?_⟩
  exact pi_weighted hm0 hmn hn kF kJ kC hF2 hJ2 hC2

/-- the value used at a regular point of the batch -/
theorem cylinder_uniform (pts : List (V3 ℝ)) (R : ℝ) (hR : 0 < R) (p : V3 ℝ) (hp : p ∈ pts) (hax : 1e-7 * R ≤ polarR p.x p.y)
    (hne : polarR p.x p.y ≠ R) (hoff : ¬ (|polarR p.x p.y - R| < 1e-8 * R ∧ |p.z| < 1e-8 * R)) :
    √((1 - vcN R (polarR p.x p.y))*((vcN R (polarR p.x p.y) - vcM R (polarR p.x p.y) p.z)/vcN R (polarR p.x p.y))) *
      |piReal (vcBatch pts R 0) (vcN R (polarR p.x p.y)) (vcM R (polarR p.x p.y) p.z) - ellPi (vcN R (polarR p.x p.y)) (vcM R (polarR p.x p.y) p.z)| ≤ 188/1000 := by
  obtain ⟨nm, hnm⟩ : ∃ nm : List (ℝ × ℝ), nm = ((pts.map fun p => (polarR p.x p.y, p.z)).filter fun q => decide (¬ (vcAxis R q.1 ∨ vcEdge R q.1 q.2))).map
    fun q => (vcN R q.1, vcM R q.1 q.2) := ⟨_, rfl⟩
  have hmemq : ∀ q ∈ ((pts.map fun p => (polarR p.x p.y, p.z)).filter fun q => decide (¬ (vcAxis R q.1 ∨ vcEdge R q.1 q.2))),
      0 ≤ q.1 ∧ ¬ (q.1 = R ∧ q.2 = 0) := by
    intro q hq
    obtain ⟨h1, h2⟩ := List.mem_filter.mp hq
    obtain ⟨p', -, rfl⟩ := List.mem_map.mp h1
    simp only [not_or, decide_eq_true_eq] at h2
    refine ⟨sqrt_nonneg _, fun h => h2.2 ?_⟩
    simp only at h
    rw [vcEdge_iff hR, h.1, h.2]
    simp only [sub_self, abs_zero]
    constructor <;> positivity
  have hbatch : vcBatch pts R 0 = nm.map fun p => (.fin p.1, .fin p.2) := by
    unfold vcBatch
    rw [hnm, List.map_map]
    apply List.map_congr_left
    intro q hq
    obtain ⟨h1, h2⟩ := hmemq q hq
    rw [vcK02_fin hR h1, vcK2_fin hR h1, clip1_fin (vcM_lt hR h1 h2).le]
    rfl
  have hr : 0 < polarR p.x p.y := lt_of_lt_of_le (by positivity) hax
  have hN := vcN_lt hR hr.le hne
  have hMN : vcM R (polarR p.x p.y) p.z ≤ vcN R (polarR p.x p.y) := by
    unfold vcM vcN
    apply div_le_div_of_nonneg_left (by positivity) (by positivity)
    nlinarith [sq_nonneg p.z]
  have hM0 : 0 ≤ vcM R (polarR p.x p.y) p.z := by unfold vcM; positivity
  have hmem : (vcN R (polarR p.x p.y), vcM R (polarR p.x p.y) p.z) ∈ nm := by
    rw [hnm]
    refine List.mem_map.mpr ⟨(polarR p.x p.y, p.z), List.mem_filter.mpr ⟨List.mem_map.mpr ⟨p, hp, rfl⟩, ?_⟩, rfl⟩
    simp only [not_or, decide_eq_true_eq]
    exact ⟨not_lt.mpr hax, fun h => hoff ((vcEdge_iff hR _ _).mp h)⟩
  have hP := piOf_map (vcBatch pts R 0)
  have hm1 : ∀ q ∈ nm, q.2 ≤ 1 := by
    intro q hq
    rw [hnm] at hq
    obtain ⟨q', hq', rfl⟩ := List.mem_map.mp hq
    obtain ⟨h1, h2⟩ := hmemq q' hq'
    exact (vcM_lt hR h1 h2).le
  have hP' : ellipticPiCarlson (nm.map fun p => (.fin p.1, .fin p.2)) = nm.map fun p => piOf (vcBatch pts R 0) (.fin p.1) (.fin p.2) := by
    rw [← hbatch, hP]
    generalize piOf (vcBatch pts R 0) = Q
    rw [hbatch, List.map_map]
    rfl
  obtain ⟨c, hc, hb⟩ := carlson_uniform nm hm1 _ _ hmem hM0 hMN hN (piOf (vcBatch pts R 0)) hP'
  have : piReal (vcBatch pts R 0) (vcN R (polarR p.x p.y)) (vcM R (polarR p.x p.y) p.z) = c := by
    unfold piReal
    rw [hc]; rfl
  rw [this]
  exact hb

/-- **C119.**  For every batch of points, every strength and radius, at every point of the batch that is off the axis cut-off, off the
edge cut-off and not exactly on the sheet's radius: the horizontal velocity returned is exactly Biot–Savart, and the axial velocity
is within 3% of the sheet strength of it, whatever pass the convergence test of the elliptic integral stopped at and whatever
other points the batch contains. -/
theorem C119_tang (pts : List (V3 ℝ)) (γ R : ℝ) (hR : 0 < R) (i : ℕ) (p : V3 ℝ) (hi : pts[i]? = some p)
    (hax : 1e-7 * R ≤ √(p.x^2 + p.y^2)) (hne : √(p.x^2 + p.y^2) ≠ R)
    (hoff : ¬ (|√(p.x^2 + p.y^2) - R| < 1e-8 * R ∧ |p.z| < 1e-8 * R)) :
    ∃ d : ℝ, |d| ≤ 3/100*|γ| ∧ (vcTang pts (.fin γ) R 0)[i]? = some (V3.fin (cylinderField γ R p + ⟨0, 0, d⟩)) := by
  have hax' : ¬ polarR p.x p.y < 1e-7 * R := not_lt.mpr hax
  have hoff' : ¬ (|polarR p.x p.y - R| < 1e-8 * R ∧ |p.z| < 1e-8 * R) := hoff
  have hne' : polarR p.x p.y ≠ R := hne
  have hr : 0 < polarR p.x p.y := lt_of_lt_of_le (by positivity) hax
  have hu := cylinder_uniform pts R hR p (List.mem_of_getElem? hi) hax hne' hoff'
  refine ⟨γ/2 * (p.z * √(vcM R (polarR p.x p.y) p.z) / (2*π*√(polarR p.x p.y*R))) * ((R - polarR p.x p.y)/(R + polarR p.x p.y)) *
    (piReal (vcBatch pts R 0) (vcN R (polarR p.x p.y)) (vcM R (polarR p.x p.y) p.z) - ellPi (vcN R (polarR p.x p.y)) (vcM R (polarR p.x p.y) p.z)), ?_, ?_⟩
  · generalize piReal (vcBatch pts R 0) (vcN R (polarR p.x p.y)) (vcM R (polarR p.x p.y) p.z) - ellPi (vcN R (polarR p.x p.y)) (vcM R (polarR p.x p.y) p.z) = D at *
    generalize polarR p.x p.y = r at *
    generalize p.z = z at *
    have hw : √((1 - vcN R r)*((vcN R r - vcM R r z)/vcN R r)) = |R - r|/(R + r) * (|z|/√((R+r)^2+z^2)) := by
      have e1 : 1 - vcN R r = ((R-r)/(R+r))^2 := by unfold vcN; field_simp; ring
      have e2 : (vcN R r - vcM R r z)/vcN R r = z^2/((R+r)^2+z^2) := by
        have : (R+r)^2+z^2 ≠ 0 := by positivity
        unfold vcN vcM; field_simp; ring
      rw [e1, e2, sqrt_mul (by positivity), sqrt_sq_eq_abs, abs_div, abs_of_pos (by positivity : 0 < R + r), sqrt_div (by positivity), sqrt_sq_eq_abs]
    have hs : √(vcM R r z)/√(r*R) = 2/√((R+r)^2+z^2) := by
      unfold vcM
      rw [← sqrt_div (by positivity), show 4*r*R/((R+r)^2+z^2)/(r*R) = 2^2/((R+r)^2+z^2) by
        have : (R+r)^2+z^2 ≠ 0 := by positivity
        field_simp; norm_num, sqrt_div (by positivity), sqrt_sq (by norm_num)]
    have e : γ/2 * (z * √(vcM R r z) / (2*π*√(r*R))) * ((R - r)/(R + r)) * D = γ/(2*π) * (((R-r)/(R+r)) * (z/√((R+r)^2+z^2)) * D) := by
      rw [show z * √(vcM R r z) / (2*π*√(r*R)) = z/(2*π)*(√(vcM R r z)/√(r*R)) by ring, hs]
      ring
    rw [e, abs_mul, abs_mul, abs_mul, abs_div, abs_div (R-r), abs_div z, abs_of_pos (by positivity : 0 < R + r), abs_of_nonneg (sqrt_nonneg _),
      abs_of_pos (by positivity : 0 < 2*π), ← hw]
    calc |γ|/(2*π)*(√((1 - vcN R r)*((vcN R r - vcM R r z)/vcN R r))*|D|) ≤ |γ|/(2*π)*(188/1000) := by gcongr
      _ ≤ 3/100*|γ| := by
        rw [div_mul_eq_mul_div, div_le_iff₀ (by positivity)]
        have hpi := pi_gt_d2
        have := abs_nonneg γ
        norm_num at hpi
        nlinarith
  · rw [vcTang_eval _ _ _ hR, List.getElem?_map, hi, Option.map_some]
    have hp : p = ⟨polarR p.x p.y * cos (arctan2 p.y p.x), polarR p.x p.y * sin (arctan2 p.y p.x), p.z⟩ := by
      rw [r_cos, r_sin]
    have hF : cylinderField γ R p = _ := (congrArg (cylinderField γ R) hp).trans
      (cylinderField_eq γ R (polarR p.x p.y) p.z (arctan2 p.y p.x) hr hR hne')
    rw [hF]
    simp only [vcVal, if_neg hoff', if_neg hax']
    congr 2
    ext
    · simp
    · simp
    · simp only [V3.add_z, vcUz]; ring

/-- the hypotheses are met, in the wake and outside it -/
example : ∀ x ∈ [(0.5:ℝ), 3], 1e-7 * (2:ℝ) ≤ √(x^2 + 0^2) ∧ √(x^2 + 0^2) ≠ 2 ∧ ¬ (|√(x^2 + 0^2) - 2| < 1e-8 * 2 ∧ |(1:ℝ)| < 1e-8 * 2) := by
  intro x hx
  have h0 : 0 ≤ x := by fin_cases hx <;> norm_num
  rw [show x^2 + 0^2 = x^2 by ring, sqrt_sq h0]
  fin_cases hx <;> norm_num
end Wiz
