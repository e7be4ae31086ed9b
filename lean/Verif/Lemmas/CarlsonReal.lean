import Verif.Lemmas.Carlson
import Mathlib.Analysis.SpecialFunctions.Sqrt
/-! Carlson's recursion on finite numbers computes with reals. -/
namespace Wiz
open Spec Real

noncomputable def lam (x y z : ℝ) : ℝ := √(x*y) + √(x*z) + √(y*z)

theorem lam_nonneg (x y z : ℝ) : 0 ≤ lam x y z := by unfold lam; positivity

/-- the value of `RF` computed from `x,y,z` -/
noncomputable def rfVal (x y z : ℝ) : ℝ :=
  let mu := (x + y + z) / 3
  let X := 1 - x / mu
  let Y := 1 - y / mu
  let Z := 1 - z / mu
  let s1 := (X^2 + Y^2 + Z^2) / 4
  let s2 := (X^2*X + Y^2*Y + Z^2*Z) / 6
  mu ^ (-1/2 : ℝ) * (1 + s1/5 + s2/7 + s1^2/6 + 3/11*s1*s2 + (5/26*(s1^2*s1) + 3/26*s2^2))

theorem rfStep_fin (x y z : ℝ) (q : Num) (hx : 0 ≤ x) (hy : 0 ≤ y) (hz : 0 ≤ z) (hs : 0 < x + y + z) :
    rfStep ⟨.fin x, .fin y, .fin z, q⟩ =
      ⟨.fin ((x + lam x y z)/4), .fin ((y + lam x y z)/4), .fin ((z + lam x y z)/4), .fin (rfVal x y z)⟩ := by
  have hmu : 0 < (x + y + z)/3 := by positivity
  have d : ∀ (c : ℝ), c ≠ 0 → ∀ a : ℝ, Num.fin a / Num.fin c = Num.fin (a/c) := fun c hc a => Num.fin_div hc
  have d3 := d 3 (by norm_num)
  have d4 := d 4 (by norm_num)
  have d5 := d 5 (by norm_num)
  have d6 := d 6 (by norm_num)
  have d7 := d 7 (by norm_num)
  unfold rfStep rfVal lam
  simp only [Num.ofNat_def, Num.one_def, Num.fin_mul, Num.sqrt_fin (mul_nonneg hx hy), Num.sqrt_fin (mul_nonneg hx hz),
    Num.sqrt_fin (mul_nonneg hy hz), Num.fin_add, d3, d4, d5, d6, d7, Num.fin_div hmu.ne', Num.fin_sub, Num.fin_pow, Num.rpow_fin _ hmu]

noncomputable def rcLam (x y : ℝ) : ℝ := 2 * √(x*y) + y
noncomputable def rcVal (x y : ℝ) : ℝ :=
  let mu := (x + 2*y)/3
  let s := (y - x)/(3*mu)
  mu ^ (-1/2 : ℝ) * (1 + 3/10*s^2 + s^2*s/7 + 3/8*(s^2*s*s) + 9/22*(s^2*s*s*s) + 159/208*(s^2*s*s*s*s))

theorem rcStep_fin (x y : ℝ) (q : Num) (hx : 0 ≤ x) (hy : 0 ≤ y) (hs : 0 < x + 2*y) :
    rcStep ⟨.fin x, .fin y, q⟩ =
      ⟨.fin ((x + rcLam x y)/4), .fin ((y + rcLam x y)/4), .fin (rcVal x y)⟩ := by
  have hmu : 0 < (x + 2*y)/3 := by positivity
  have hmu3 : 3 * ((x + 2*y)/3) ≠ 0 := by positivity
  have d : ∀ (c : ℝ), c ≠ 0 → ∀ a : ℝ, Num.fin a / Num.fin c = Num.fin (a/c) := fun c hc a => Num.fin_div hc
  have d3 := d 3 (by norm_num)
  have d4 := d 4 (by norm_num)
  have d7 := d 7 (by norm_num)
  unfold rcStep rcVal rcLam
  simp only [Num.ofNat_def, Num.one_def, Num.fin_mul, Num.sqrt_fin (mul_nonneg hx hy), Num.fin_add, d3, d4, d7, Num.fin_sub,
    Num.fin_div hmu3, Num.fin_pow, Num.rpow_fin _ hmu]

noncomputable def rjAlfaR (x y z p : ℝ) : ℝ := (p * (√x + √y + √z) + √(x*y*z))^2
noncomputable def rjBetR (x y z p : ℝ) : ℝ := p * (p + lam x y z)^2
noncomputable def rjTail (x y z p : ℝ) : ℝ :=
  let mu := (x + y + z + 2*p)/5
  let X := 1 - x / mu
  let Y := 1 - y / mu
  let Z := 1 - z / mu
  let P := 1 - p / mu
  let s1 := (X^2 + Y^2 + Z^2 + 2*P^2) / 4
  let s2 := (X^2*X + Y^2*Y + Z^2*Z + 2*(P^2*P)) / 6
  let s3 := (X^2*X*X + Y^2*Y*Y + Z^2*Z*Z + 2*(P^2*P*P)) / 8
  let s4 := (X^2*X*X*X + Y^2*Y*Y*Y + Z^2*Z*Z*Z + 2*(P^2*P*P*P)) / 10
  mu ^ (-3/2 : ℝ) * (1 + 3/7*s1 + s2/3 + 3/22*(s1*s1) + 3/11*s3 + 3/13*(s1*s2 + s4)
    + (-1/10*(s1*s1*s1) + 3/10*s2^2 + 3/5*s1*s3))

theorem rjAlfa_fin (x y z p : ℝ) (q r : Num) (hx : 0 ≤ x) (hy : 0 ≤ y) (hz : 0 ≤ z) :
    rjAlfa ⟨.fin x, .fin y, .fin z, .fin p, q, r⟩ = .fin (rjAlfaR x y z p) := by
  unfold rjAlfa rjAlfaR
  simp only [Num.sqrt_fin hx, Num.sqrt_fin hy, Num.sqrt_fin hz, Num.fin_mul, Num.sqrt_fin (mul_nonneg (mul_nonneg hx hy) hz),
    Num.fin_add, Num.fin_pow]
theorem rjBet_fin (x y z p : ℝ) (q r : Num) (hx : 0 ≤ x) (hy : 0 ≤ y) (hz : 0 ≤ z) :
    rjBet ⟨.fin x, .fin y, .fin z, .fin p, q, r⟩ = .fin (rjBetR x y z p) := by
  unfold rjBet rjBetR lam
  simp only [Num.fin_mul, Num.sqrt_fin (mul_nonneg hx hy), Num.sqrt_fin (mul_nonneg hx hz),
    Num.sqrt_fin (mul_nonneg hy hz), Num.fin_add, Num.fin_pow]

theorem rjStep_fin (k : ℕ) (x y z p h c : ℝ) (q : Num) (hx : 0 ≤ x) (hy : 0 ≤ y) (hz : 0 ≤ z) (hs : 0 < x + y + z + 2*p) :
    rjStep k ⟨.fin x, .fin y, .fin z, .fin p, .fin h, q⟩ (.fin c) =
      ⟨.fin ((x + lam x y z)/4), .fin ((y + lam x y z)/4), .fin ((z + lam x y z)/4), .fin ((p + lam x y z)/4),
        .fin (h + 3 * ((4:ℝ)^k)⁻¹ * c), .fin (h + 3 * ((4:ℝ)^k)⁻¹ * c + ((4:ℝ)^(k+1))⁻¹ * rjTail x y z p)⟩ := by
  have hmu : 0 < (x + y + z + 2*p)/5 := by positivity
  have d : ∀ (c : ℝ), c ≠ 0 → ∀ a : ℝ, Num.fin a / Num.fin c = Num.fin (a/c) := fun c hc a => Num.fin_div hc
  have d3 := d 3 (by norm_num)
  have d4 := d 4 (by norm_num)
  have d5 := d 5 (by norm_num)
  have d6 := d 6 (by norm_num)
  have d8 := d 8 (by norm_num)
  have d10 := d 10 (by norm_num)
  unfold rjStep rjTail lam
  simp only [Num.ofNat_def, Num.one_def, Num.fin_mul, Num.sqrt_fin (mul_nonneg hx hy), Num.sqrt_fin (mul_nonneg hx hz),
    Num.sqrt_fin (mul_nonneg hy hz), Num.fin_add, d3, d4, d5, d6, d8, d10, Num.fin_div hmu.ne', Num.fin_sub, Num.fin_pow, Num.rpow_fin _ hmu]
  congr 3
  ring

/-- the arguments after `k` duplications -/
noncomputable def dupIter (x y z : ℝ) : ℕ → ℝ × ℝ × ℝ
  | 0 => (x, y, z)
  | k + 1 =>
    let s := dupIter x y z k
    ((s.1 + lam s.1 s.2.1 s.2.2)/4, (s.2.1 + lam s.1 s.2.1 s.2.2)/4, (s.2.2 + lam s.1 s.2.1 s.2.2)/4)
/-- the fourth argument of `RJ` after `k` duplications -/
noncomputable def dupP (x y z p : ℝ) : ℕ → ℝ
  | 0 => p
  | k + 1 =>
    let s := dupIter x y z k
    (dupP x y z p k + lam s.1 s.2.1 s.2.2)/4
noncomputable def rcIter (x y : ℝ) : ℕ → ℝ × ℝ
  | 0 => (x, y)
  | k + 1 => let s := rcIter x y k; ((s.1 + rcLam s.1 s.2)/4, (s.2 + rcLam s.1 s.2)/4)

theorem dupIter_nonneg (x y z : ℝ) (hx : 0 ≤ x) (hy : 0 ≤ y) (hz : 0 ≤ z) (hs : 0 < x + y + z) (k : ℕ) :
    0 ≤ (dupIter x y z k).1 ∧ 0 ≤ (dupIter x y z k).2.1 ∧ 0 ≤ (dupIter x y z k).2.2 ∧
    0 < (dupIter x y z k).1 + (dupIter x y z k).2.1 + (dupIter x y z k).2.2 := by
  induction k with
  | zero => exact ⟨hx, hy, hz, hs⟩
  | succ k ih =>
    obtain ⟨a, b, c, d⟩ := ih
    simp only [dupIter]
    have := lam_nonneg (dupIter x y z k).1 (dupIter x y z k).2.1 (dupIter x y z k).2.2
    refine ⟨by positivity, by positivity, by positivity, by linarith⟩

theorem dupP_pos (x y z p : ℝ) (hp : 0 < p) (k : ℕ) : 0 < dupP x y z p k := by
  induction k with
  | zero => exact hp
  | succ k ih =>
    simp only [dupP]
    have := lam_nonneg (dupIter x y z k).1 (dupIter x y z k).2.1 (dupIter x y z k).2.2
    positivity

theorem rcLam_nonneg {x y : ℝ} (hy : 0 ≤ y) : 0 ≤ rcLam x y := by unfold rcLam; positivity
theorem rcIter_nonneg (x y : ℝ) (hx : 0 ≤ x) (hy : 0 < y) (k : ℕ) :
    0 ≤ (rcIter x y k).1 ∧ 0 < (rcIter x y k).2 := by
  induction k with
  | zero => exact ⟨hx, hy⟩
  | succ k ih =>
    obtain ⟨a, b⟩ := ih
    simp only [rcIter]
    have := rcLam_nonneg (x := (rcIter x y k).1) b.le
    constructor <;> positivity

theorem rfStep_iter (x y z : ℝ) (hx : 0 ≤ x) (hy : 0 ≤ y) (hz : 0 ≤ z) (hs : 0 < x + y + z) (k : ℕ) :
    rfStep^[k+1] ⟨.fin x, .fin y, .fin z, 0⟩ =
      ⟨.fin (dupIter x y z (k+1)).1, .fin (dupIter x y z (k+1)).2.1, .fin (dupIter x y z (k+1)).2.2,
       .fin (rfVal (dupIter x y z k).1 (dupIter x y z k).2.1 (dupIter x y z k).2.2)⟩ := by
  induction k with
  | zero => exact rfStep_fin x y z 0 hx hy hz hs
  | succ k ih =>
    rw [Function.iterate_succ_apply', ih]
    obtain ⟨a, b, c, d⟩ := dupIter_nonneg x y z hx hy hz hs (k+1)
    rw [rfStep_fin _ _ _ _ a b c d]
    rfl

theorem carlsonRF_fin (k : ℕ) (y : ℝ) (hy : 0 ≤ y) :
    carlsonRF (k+1) (.fin y) = .fin (rfVal (dupIter 0 y 1 k).1 (dupIter 0 y 1 k).2.1 (dupIter 0 y 1 k).2.2) := by
  unfold carlsonRF
  have := rfStep_iter 0 y 1 le_rfl hy zero_le_one (by linarith) k
  simp only [Num.zero_def, Num.one_def] at this ⊢
  rw [this]

theorem carlsonRC_fin (k : ℕ) (x y : ℝ) (hx : 0 ≤ x) (hy : 0 < y) :
    carlsonRC (k+1) (.fin x) (.fin y) = .fin (rcVal (rcIter x y k).1 (rcIter x y k).2) := by
  have : ∀ k, rcStep^[k+1] ⟨.fin x, .fin y, 0⟩ =
      ⟨.fin (rcIter x y (k+1)).1, .fin (rcIter x y (k+1)).2, .fin (rcVal (rcIter x y k).1 (rcIter x y k).2)⟩ := by
    intro k
    induction k with
    | zero => exact rcStep_fin x y 0 hx hy.le (by positivity)
    | succ k ih =>
      rw [Function.iterate_succ_apply', ih]
      obtain ⟨a, b⟩ := rcIter_nonneg x y hx hy (k+1)
      rw [rcStep_fin _ _ _ a b.le (by positivity)]
      rfl
  unfold carlsonRC
  rw [this]

/-- partial sums of `RJ` -/
noncomputable def rjAcc (kC : ℕ → ℕ) (y p : ℝ) : ℕ → ℝ
  | 0 => 0
  | k + 1 =>
    let s := dupIter 0 y 1 k
    let q := dupP 0 y 1 p k
    let ab := rcIter (rjAlfaR s.1 s.2.1 s.2.2 q) (rjBetR s.1 s.2.1 s.2.2 q) (kC k - 1)
    rjAcc kC y p k + 3 * ((4:ℝ)^k)⁻¹ * rcVal ab.1 ab.2

theorem rjBetR_pos {x y z p : ℝ} (hp : 0 < p) : 0 < rjBetR x y z p := by
  unfold rjBetR
  have := lam_nonneg x y z
  positivity
theorem rjAlfaR_nonneg (x y z p : ℝ) : 0 ≤ rjAlfaR x y z p := by unfold rjAlfaR; positivity

theorem carlsonRJst_fin (kC : ℕ → ℕ) (hC : ∀ j, 1 ≤ kC j) (y p : ℝ) (hy : 0 ≤ y) (hp : 0 < p) (k : ℕ) :
    carlsonRJst kC (.fin y) (.fin p) (k+1) =
      ⟨.fin (dupIter 0 y 1 (k+1)).1, .fin (dupIter 0 y 1 (k+1)).2.1, .fin (dupIter 0 y 1 (k+1)).2.2,
       .fin (dupP 0 y 1 p (k+1)), .fin (rjAcc kC y p (k+1)),
       .fin (rjAcc kC y p (k+1) + ((4:ℝ)^(k+1))⁻¹ *
         rjTail (dupIter 0 y 1 k).1 (dupIter 0 y 1 k).2.1 (dupIter 0 y 1 k).2.2 (dupP 0 y 1 p k))⟩ := by
  have step : ∀ (k : ℕ) (q : Num), rjStep k ⟨.fin (dupIter 0 y 1 k).1, .fin (dupIter 0 y 1 k).2.1, .fin (dupIter 0 y 1 k).2.2,
       .fin (dupP 0 y 1 p k), .fin (rjAcc kC y p k), q⟩
       (carlsonRC (kC k) (rjAlfa ⟨.fin (dupIter 0 y 1 k).1, .fin (dupIter 0 y 1 k).2.1, .fin (dupIter 0 y 1 k).2.2,
       .fin (dupP 0 y 1 p k), .fin (rjAcc kC y p k), q⟩) (rjBet ⟨.fin (dupIter 0 y 1 k).1, .fin (dupIter 0 y 1 k).2.1, .fin (dupIter 0 y 1 k).2.2,
       .fin (dupP 0 y 1 p k), .fin (rjAcc kC y p k), q⟩)) = 
      ⟨.fin (dupIter 0 y 1 (k+1)).1, .fin (dupIter 0 y 1 (k+1)).2.1, .fin (dupIter 0 y 1 (k+1)).2.2,
       .fin (dupP 0 y 1 p (k+1)), .fin (rjAcc kC y p (k+1)),
       .fin (rjAcc kC y p (k+1) + ((4:ℝ)^(k+1))⁻¹ *
         rjTail (dupIter 0 y 1 k).1 (dupIter 0 y 1 k).2.1 (dupIter 0 y 1 k).2.2 (dupP 0 y 1 p k))⟩ := by
    intro k q
    obtain ⟨a, b, c, d⟩ := dupIter_nonneg 0 y 1 le_rfl hy zero_le_one (by linarith) k
    have hq := dupP_pos 0 y 1 p hp k
    rw [rjAlfa_fin _ _ _ _ _ _ a b c, rjBet_fin _ _ _ _ _ _ a b c]
    have hk : kC k = (kC k - 1) + 1 := by have := hC k; omega
    rw [hk, carlsonRC_fin _ _ _ (rjAlfaR_nonneg _ _ _ _) (rjBetR_pos hq), rjStep_fin k _ _ _ _ _ _ _ a b c (by linarith)]
    rfl
  induction k with
  | zero =>
    exact step 0 0
  | succ k ih =>
    rw [carlsonRJst, ih]
    exact step (k+1) _

theorem carlsonRJ_fin (kC : ℕ → ℕ) (hC : ∀ j, 1 ≤ kC j) (y p : ℝ) (hy : 0 ≤ y) (hp : 0 < p) (k : ℕ) :
    carlsonRJ kC (k+1) (.fin y) (.fin p) = .fin (rjAcc kC y p (k+1) + ((4:ℝ)^(k+1))⁻¹ *
         rjTail (dupIter 0 y 1 k).1 (dupIter 0 y 1 k).2.1 (dupIter 0 y 1 k).2.2 (dupP 0 y 1 p k)) := by
  unfold carlsonRJ
  rw [carlsonRJst_fin kC hC y p hy hp k]
  simp [hp]

/-- `Π` by Carlson on its domain is finite. -/
theorem carlsonPi_fin (kF kJ : ℕ) (kC : ℕ → ℕ) (hF : 1 ≤ kF) (hJ : 1 ≤ kJ) (hC : ∀ j, 1 ≤ kC j)
    (n m : ℝ) (hn : n < 1) (hm : m ≤ 1) :
    carlsonPi kF kJ kC (.fin n) (.fin m) = .fin (
      rfVal (dupIter 0 (1-m) 1 (kF-1)).1 (dupIter 0 (1-m) 1 (kF-1)).2.1 (dupIter 0 (1-m) 1 (kF-1)).2.2 +
      1/3 * n * (rjAcc kC (1-m) (1-n) kJ + ((4:ℝ)^kJ)⁻¹ *
         rjTail (dupIter 0 (1-m) 1 (kJ-1)).1 (dupIter 0 (1-m) 1 (kJ-1)).2.1 (dupIter 0 (1-m) 1 (kJ-1)).2.2 (dupP 0 (1-m) 1 (1-n) (kJ-1)))) := by
  obtain ⟨a, rfl⟩ : ∃ a, kF = a + 1 := ⟨kF - 1, by omega⟩
  obtain ⟨b, rfl⟩ : ∃ b, kJ = b + 1 := ⟨kJ - 1, by omega⟩
  unfold carlsonPi
  simp only [Num.one_def, Num.fin_sub]
  rw [carlsonRF_fin a _ (by linarith), carlsonRJ_fin kC hC _ _ (by linarith) (by linarith)]
  simp

/-- For `n ≥ 1` the result is `+inf`. -/
theorem carlsonPi_inf (kF kJ : ℕ) (kC : ℕ → ℕ) (hF : 1 ≤ kF) (n m : ℝ) (hn : 1 ≤ n) (hm : m ≤ 1) :
    carlsonPi kF kJ kC (.fin n) (.fin m) = .pinf := by
  obtain ⟨a, rfl⟩ : ∃ a, kF = a + 1 := ⟨kF - 1, by omega⟩
  unfold carlsonPi carlsonRJ
  simp only [Num.one_def, Num.fin_sub, Num.zero_def, Num.lt_fin, if_neg (show ¬ 0 < 1 - n by linarith)]
  rw [carlsonRF_fin a _ (by linarith), Num.fin_mul]
  have : Num.fin (1/3 * n) * Num.pinf = Num.pinf := by
    change Num.infSign _ = _
    unfold Num.infSign
    rw [if_pos (by positivity)]
  rw [this]; rfl
end Wiz
