import Verif.Model.Blockage
import Verif.Props.Momentum
import Verif.Spec.Interp
import Mathlib.Tactic.FieldSimp
import Mathlib.Tactic.Linarith

/-! # C94: the relative errors between two velocity profiles -/
namespace Wiz
open Spec Real Classical

/-- `np.interp` takes a weighted mean of two samples; the samples and the weight depend on the abscissae only -/
theorem interp1_convex (x : ℝ) : ∀ (X : List ℝ), X ≠ [] → X.Pairwise (· < ·) →
    ∃ i j : ℕ, ∃ w : ℝ, i < X.length ∧ j < X.length ∧ 0 ≤ w ∧ w ≤ 1 ∧ ∀ U : List ℝ, U.length = X.length →
      interp1 x (List.zip X (U.map .fin)) = .fin ((1 - w) * U.getD i 0 + w * U.getD j 0) := by
  intro X
  induction X with
  | nil => intro h; exact absurd rfl h
  | cons p X ih =>
    intro _ hX
    have hp := List.pairwise_cons.mp hX
    cases X with
    | nil =>
      refine ⟨0, 0, 0, by simp, by simp, le_rfl, zero_le_one, fun U hU => ?_⟩
      match U, hU with
      | [u], _ => simp [interp1]
    | cons q X =>
      have hpq : p < q := hp.1 q (by simp)
      by_cases h1 : x < p
      · refine ⟨0, 0, 0, by simp, by simp, le_rfl, zero_le_one, fun U hU => ?_⟩
        match U, hU with
        | u :: v :: U, _ => simp [interp1, h1]
      · by_cases h2 : x < q
        · refine ⟨0, 1, (x - p) / (q - p), by simp, by simp, div_nonneg (by linarith) (by linarith), ?_, fun U hU => ?_⟩
          · rw [div_le_one (by linarith)]; linarith
          · match U, hU with
            | u :: v :: U, _ =>
              simp only [List.map_cons, List.zip_cons_cons, interp1, if_neg h1, if_pos h2]
              rw [Num.fin_sub, Num.fin_div (by linarith), Num.fin_mul, Num.fin_add]
              have : q - p ≠ 0 := by linarith
              simp only [List.getD_cons_zero, List.getD_cons_succ]
              congr 1
              field_simp
              ring
        · obtain ⟨i, j, w, hi, hj, hw0, hw1, hv⟩ := ih (by simp) hp.2
          refine ⟨i + 1, j + 1, w, by simpa using hi, by simpa using hj, hw0, hw1, fun U hU => ?_⟩
          match U, hU with
          | u :: v :: U, hU =>
            have := hv (v :: U) (by simpa using hU)
            rw [List.getD_cons_succ, List.getD_cons_succ, ← this]
            simp only [List.map_cons, List.zip_cons_cons]
            rw [interp1, if_neg h1, if_neg h2]

/-- `np.interp` is piecewise-linear interpolation -/
theorem interp1_linear (x : ℝ) : ∀ (X U : List ℝ) (L : ℝ → ℝ), X ≠ [] → X.Pairwise (· < ·) → U.length = X.length → Interpolates X U L →
    interp1 x (List.zip X (U.map .fin)) = .fin (L x) := by
  intro X
  induction X with
  | nil => intro U L h; exact absurd rfl h
  | cons p X ih =>
    intro U L _ hX hU hL
    have hp := List.pairwise_cons.mp hX
    cases X with
    | nil =>
      match U, hU with
      | [u], _ =>
        rcases le_total x p with h | h
        · rw [hL.left p u rfl rfl x h]; rfl
        · rw [hL.right p u rfl rfl x h]; rfl
    | cons q X =>
      have hpq : p < q := hp.1 q (by simp)
      match U, hU with
      | u :: v :: U, hU =>
        by_cases h1 : x < p
        · simp only [List.map_cons, List.zip_cons_cons, interp1, if_pos h1]
          rw [hL.left p u rfl rfl x h1.le]
        · by_cases h2 : x < q
          · simp only [List.map_cons, List.zip_cons_cons, interp1, if_neg h1, if_pos h2]
            rw [hL.between 0 p q u v rfl rfl rfl rfl x (by linarith) h2.le, Num.fin_sub, Num.fin_div (by linarith), Num.fin_mul, Num.fin_add]
            congr 1; ring
          · have hL' : Interpolates (q :: X) (v :: U) (fun y => if y < q then v else L y) := by
              refine ⟨?_, ?_, ?_⟩
              · intro a b ha hb y hy
                obtain rfl : q = a := by simpa using ha
                obtain rfl : v = b := by simpa using hb
                by_cases hc : y < q
                · simp [hc]
                · have : y = q := le_antisymm hy (not_lt.mp hc)
                  subst this
                  simp only [if_neg hc]
                  rw [hL.between 0 p y u v rfl rfl rfl rfl y hpq.le le_rfl, div_self (by linarith)]; ring
              · intro b w hb hw y hy
                have hqb : q ≤ b := by
                  have := List.mem_of_getLast? hb
                  rcases List.mem_cons.mp this with rfl | h
                  · exact le_rfl
                  · exact ((List.pairwise_cons.mp hp.2).1 b h).le
                simp only [if_neg (not_lt.mpr (hqb.trans hy))]
                exact hL.right b w (by rw [List.getLast?_cons_cons]; exact hb) (by rw [List.getLast?_cons_cons]; exact hw) y hy
              · intro k a b s t ha hb hs ht y h3 h4
                have hqa : q ≤ a := by
                  have := List.mem_of_getElem? ha
                  rcases List.mem_cons.mp this with rfl | h
                  · exact le_rfl
                  · exact ((List.pairwise_cons.mp hp.2).1 a h).le
                simp only [if_neg (not_lt.mpr (hqa.trans h3))]
                exact hL.between (k + 1) a b s t (by simpa using ha) (by simpa using hb) (by simpa using hs) (by simpa using ht) y h3 h4
            have := ih (v :: U) _ (by simp) hp.2 (by simpa using hU) hL'
            simp only [if_neg h2] at this
            rw [← this]
            simp only [List.map_cons, List.zip_cons_cons]
            rw [interp1, if_neg h1, if_neg h2]

theorem sum_range_list (f : ℕ → ℝ) (n : ℕ) : ((List.range n).map f).sum = ∑ k ∈ Finset.range n, f k := by
  induction n with
  | zero => simp
  | succ n ih => rw [List.range_succ, List.map_append, List.sum_append, ih, Finset.sum_range_succ]; simp

/-- with positive reference samples `relerrinduction` is 100 times the mean of the relative differences at the 100 probes,
both profiles being given by `v1`, `v2` there -/
theorem relErr_eval (X U1 U2 : List ℝ) (hX : X ≠ []) (h1 : U1.length = X.length) (x1 x2 : ℝ) (v1 v2 : ℝ → ℝ)
    (hpos : ∀ u ∈ U1, 0 < u) (hv : ∀ x, 0 < v1 x) (e1 : ∀ x, interp1 x (List.zip X (U1.map .fin)) = .fin (v1 x))
    (e2 : ∀ x, interp1 x (List.zip X (U2.map .fin)) = .fin (v2 x)) :
    relErrInduction X (U1.map .fin) (U2.map .fin) x1 x2 =
      .fin (100 * ((∑ k ∈ Finset.range 100, |v1 (x1 + k * ((x2 - x1) / 99)) - v2 (x1 + k * ((x2 - x1) / 99))| / v1 (x1 + k * ((x2 - x1) / 99))) / 100)) := by
  have hne : U1 ≠ [] := by rintro rfl; simp at h1; exact hX (List.length_eq_zero_iff.mp h1.symm)
  have hlen : U1.length - 1 < U1.length := by have := List.length_pos_iff.mpr hne; omega
  obtain ⟨c, hc, hlast⟩ : ∃ c : ℝ, 0 < c ∧ (U1.map Num.fin).getD ((U1.map Num.fin).length - 1) .nan = .fin c := by
    refine ⟨U1[U1.length - 1], hpos _ (List.getElem_mem hlen), ?_⟩
    rw [List.length_map, List.getD_eq_getElem?_getD, List.getElem?_map, List.getElem?_eq_getElem hlen]; rfl
  unfold relErrInduction interpAt
  simp only [hlast, List.map_map, List.zipWith_map]
  rw [List.zipWith_self]
  have hterm : ∀ x, Num.abs (((fun u => u / Num.fin c) ∘ fun x => interp1 x (List.zip X (U1.map .fin))) x - ((fun u => u / Num.fin c) ∘ fun x => interp1 x (List.zip X (U2.map .fin))) x)
      / ((fun u => u / Num.fin c) ∘ fun x => interp1 x (List.zip X (U1.map .fin))) x = .fin (|v1 x - v2 x| / v1 x) := by
    intro x
    simp only [Function.comp_apply, e1, e2]
    rw [Num.fin_div hc.ne', Num.fin_div hc.ne', Num.fin_sub, Num.abs_fin, Num.fin_div (div_pos (hv x) hc).ne']
    congr 1
    rw [← sub_div, abs_div, abs_of_pos hc]
    have := (hv x).ne'
    field_simp
  have : (linspace x1 x2 100).map (fun x => Num.abs (((fun u => u / Num.fin c) ∘ fun x => interp1 x (List.zip X (U1.map .fin))) x - ((fun u => u / Num.fin c) ∘ fun x => interp1 x (List.zip X (U2.map .fin))) x)
      / ((fun u => u / Num.fin c) ∘ fun x => interp1 x (List.zip X (U1.map .fin))) x) = ((linspace x1 x2 100).map fun x => |v1 x - v2 x| / v1 x).map Num.fin := by
    rw [List.map_map]; exact List.map_congr_left fun x _ => hterm x
  rw [this, npMean_fin _ (by simp [linspace])]
  rw [Num.fin_mul, mul_comm]
  congr 2
  rw [List.length_map]
  have hl : ((linspace x1 x2 100).length : ℝ) = 100 := by simp [linspace]
  rw [hl]
  congr 1
  unfold linspace
  rw [List.map_map, sum_range_list]
  refine Finset.sum_congr rfl fun k _ => ?_
  have : ((100:ℕ):ℝ) - 1 = 99 := by norm_num
  simp only [Function.comp_apply, this]

/-- at the samples of positive profiles, interpolation is positive -/
theorem interp_pos (X U : List ℝ) (hX : X ≠ []) (hinc : X.Pairwise (· < ·)) (h1 : U.length = X.length) (hpos : ∀ u ∈ U, 0 < u) (x : ℝ) :
    ∃ v, 0 < v ∧ interp1 x (List.zip X (U.map .fin)) = .fin v := by
  obtain ⟨i, j, w, hi, hj, h0, hw, h⟩ := interp1_convex x X hX hinc
  refine ⟨_, ?_, h U h1⟩
  have p : ∀ k < X.length, 0 < U.getD k 0 := by
    intro k hk
    rw [← h1] at hk
    rw [List.getD_eq_getElem?_getD, List.getElem?_eq_getElem hk]
    exact hpos _ (List.getElem_mem hk)
  have := p i hi
  have := p j hj
  rcases lt_or_eq_of_le hw with h2 | rfl
  · have : 0 < (1 - w) * U.getD i 0 := mul_pos (by linarith) (p i hi)
    have : 0 ≤ w * U.getD j 0 := mul_nonneg h0 (p j hj).le
    linarith
  · simpa using this

/-- C94: for abscissae in increasing order and a positive reference profile, `relerrinduction` returns 100 times the mean
over 100 equidistant probes (both ends included) of `|u1-u2|/u1`, where `u1`, `u2` are the piecewise-linear functions
through the samples. -/
theorem C94_mean (X U1 U2 : List ℝ) (hX : X ≠ []) (hinc : X.Pairwise (· < ·)) (h1 : U1.length = X.length) (h2 : U2.length = X.length)
    (hpos : ∀ u ∈ U1, 0 < u) (u1 u2 : ℝ → ℝ) (i1 : Interpolates X U1 u1) (i2 : Interpolates X U2 u2) (x1 x2 : ℝ) :
    let p := fun k : ℕ => x1 + k * ((x2 - x1) / 99)
    relErrInduction X (U1.map .fin) (U2.map .fin) x1 x2 = .fin (100 * ((∑ k ∈ Finset.range 100, |u1 (p k) - u2 (p k)| / u1 (p k)) / 100)) := by
  refine relErr_eval X U1 U2 hX h1 x1 x2 u1 u2 hpos (fun x => ?_) (fun x => interp1_linear x X U1 u1 hX hinc h1 i1) (fun x => interp1_linear x X U2 u2 hX hinc h2 i2)
  obtain ⟨v, hv, e⟩ := interp_pos X U1 hX hinc h1 hpos x
  rw [interp1_linear x X U1 u1 hX hinc h1 i1] at e
  rwa [Num.fin.inj e]

/-- C94: one abscissa (`relerrinduction_mid` at 0, `relerrinduction_25` at -2.5). -/
theorem C94_point (X U1 U2 : List ℝ) (hX : X ≠ []) (hinc : X.Pairwise (· < ·)) (h1 : U1.length = X.length) (h2 : U2.length = X.length)
    (hpos : ∀ u ∈ U1, 0 < u) (u1 u2 : ℝ → ℝ) (i1 : Interpolates X U1 u1) (i2 : Interpolates X U2 u2) (x : ℝ) :
    relErrInductionAt X (U1.map .fin) (U2.map .fin) x = .fin (100 * (|u1 x - u2 x| / u1 x)) := by
  obtain ⟨v, hv, e⟩ := interp_pos X U1 hX hinc h1 hpos x
  rw [interp1_linear x X U1 u1 hX hinc h1 i1] at e
  have hp : 0 < u1 x := by rwa [Num.fin.inj e]
  unfold relErrInductionAt
  simp only [interp1_linear x X U1 u1 hX hinc h1 i1, interp1_linear x X U2 u2 hX hinc h2 i2]
  rw [Num.fin_sub, Num.abs_fin, Num.fin_div hp.ne']
  have := npMean_fin [|u1 x - u2 x| / u1 x] (by simp)
  rw [List.map_cons, List.map_nil] at this
  rw [this, Num.fin_mul]
  simp [mul_comm]

/-- C94: if the second profile is within the fraction `ε` of the first at every sample, the error is a number between 0 and
`100·ε`, whatever the probes. -/
theorem C94_bound (X U1 U2 : List ℝ) (hX : X ≠ []) (hinc : X.Pairwise (· < ·)) (h1 : U1.length = X.length) (h2 : U2.length = X.length)
    (hpos : ∀ u ∈ U1, 0 < u) (ε : ℝ) (hε : ∀ (k : ℕ) (u v : ℝ), U1[k]? = some u → U2[k]? = some v → |u - v| ≤ ε * u) (x1 x2 : ℝ) :
    ∃ e, relErrInduction X (U1.map .fin) (U2.map .fin) x1 x2 = .fin e ∧ 0 ≤ e ∧ e ≤ 100 * ε := by
  have hv : ∀ x, ∃ a b : ℝ, 0 < a ∧ |a - b| ≤ ε * a ∧ interp1 x (List.zip X (U1.map .fin)) = .fin a ∧ interp1 x (List.zip X (U2.map .fin)) = .fin b := by
    intro x
    obtain ⟨i, j, w, hi, hj, h0, hw, h⟩ := interp1_convex x X hX hinc
    obtain ⟨a, ha, ea⟩ := interp_pos X U1 hX hinc h1 hpos x
    refine ⟨a, _, ha, ?_, ea, h U2 h2⟩
    rw [h U1 h1] at ea
    rw [← Num.fin.inj ea]
    have p : ∀ k < X.length, |U1.getD k 0 - U2.getD k 0| ≤ ε * U1.getD k 0 := by
      intro k hk
      have k1 : k < U1.length := h1 ▸ hk
      have k2 : k < U2.length := h2 ▸ hk
      simp only [List.getD_eq_getElem?_getD, List.getElem?_eq_getElem k1, List.getElem?_eq_getElem k2, Option.getD_some]
      exact hε k _ _ (List.getElem?_eq_getElem k1) (List.getElem?_eq_getElem k2)
    have q1 := p i hi
    have q2 := p j hj
    calc |(1 - w) * U1.getD i 0 + w * U1.getD j 0 - ((1 - w) * U2.getD i 0 + w * U2.getD j 0)|
        = |(1 - w) * (U1.getD i 0 - U2.getD i 0) + w * (U1.getD j 0 - U2.getD j 0)| := by congr 1; ring
      _ ≤ |(1 - w) * (U1.getD i 0 - U2.getD i 0)| + |w * (U1.getD j 0 - U2.getD j 0)| := abs_add_le _ _
      _ = (1 - w) * |U1.getD i 0 - U2.getD i 0| + w * |U1.getD j 0 - U2.getD j 0| := by
        rw [abs_mul, abs_mul, abs_of_nonneg h0, abs_of_nonneg (by linarith : 0 ≤ 1 - w)]
      _ ≤ (1 - w) * (ε * U1.getD i 0) + w * (ε * U1.getD j 0) :=
        add_le_add (mul_le_mul_of_nonneg_left q1 (by linarith)) (mul_le_mul_of_nonneg_left q2 h0)
      _ = _ := by ring
  choose a b ha hab ea eb using hv
  refine ⟨_, relErr_eval X U1 U2 hX h1 x1 x2 a b hpos ha ea eb, ?_, ?_⟩
  · exact mul_nonneg (by norm_num) (div_nonneg (Finset.sum_nonneg fun k _ => div_nonneg (abs_nonneg _) (ha _).le) (by norm_num))
  · apply mul_le_mul_of_nonneg_left _ (by norm_num)
    rw [div_le_iff₀ (by norm_num)]
    calc ∑ k ∈ Finset.range 100, |a (x1 + k * ((x2 - x1) / 99)) - b (x1 + k * ((x2 - x1) / 99))| / a (x1 + k * ((x2 - x1) / 99))
        ≤ ∑ _k ∈ Finset.range 100, ε := Finset.sum_le_sum fun k _ => by rw [div_le_iff₀ (ha _)]; exact hab _
      _ = ε * 100 := by rw [Finset.sum_const, Finset.card_range]; simp [mul_comm]

/-- C94: a profile that is `c` times the reference has the error `100·|1-c|`; equal profiles have none. -/
theorem C94_scaled (X U : List ℝ) (hX : X ≠ []) (hinc : X.Pairwise (· < ·)) (h1 : U.length = X.length) (hpos : ∀ u ∈ U, 0 < u) (c x1 x2 : ℝ) :
    relErrInduction X (U.map .fin) ((U.map fun u => c * u).map .fin) x1 x2 = .fin (100 * |1 - c|) := by
  have hv : ∀ x, ∃ a : ℝ, 0 < a ∧ interp1 x (List.zip X (U.map .fin)) = .fin a ∧ interp1 x (List.zip X ((U.map fun u => c * u).map .fin)) = .fin (c * a) := by
    intro x
    obtain ⟨i, j, w, hi, hj, h0, hw, h⟩ := interp1_convex x X hX hinc
    obtain ⟨a, ha, ea⟩ := interp_pos X U hX hinc h1 hpos x
    refine ⟨a, ha, ea, ?_⟩
    rw [h U h1] at ea
    rw [h _ (by simpa using h1), ← Num.fin.inj ea]
    have p : ∀ k < X.length, (U.map fun u => c * u).getD k 0 = c * U.getD k 0 := by
      intro k hk
      have k1 : k < U.length := h1 ▸ hk
      simp [List.getD_eq_getElem?_getD, k1]
    rw [p i hi, p j hj]
    congr 1; ring
  choose a ha ea eb using hv
  rw [relErr_eval X U _ hX h1 x1 x2 a (fun x => c * a x) hpos ha ea eb]
  congr 2
  have : ∀ k ∈ Finset.range 100, |a (x1 + k * ((x2 - x1) / 99)) - c * a (x1 + k * ((x2 - x1) / 99))| / a (x1 + k * ((x2 - x1) / 99)) = |1 - c| := by
    intro k _
    have hp := ha (x1 + k * ((x2 - x1) / 99))
    rw [show ∀ z : ℝ, z - c * z = (1 - c) * z from fun z => by ring, abs_mul, abs_of_pos hp, mul_div_assoc, div_self hp.ne', mul_one]
  rw [Finset.sum_congr rfl this, Finset.sum_const, Finset.card_range]
  simp

/-- a profile 5% off: error 5 -/
example : relErrInduction [-5, -2, 0] [.fin 1, .fin 0.9, .fin 0.7] [.fin (0.95 * 1), .fin (0.95 * 0.9), .fin (0.95 * 0.7)] (-4.99) (-1) = .fin 5 := by
  have := C94_scaled [-5, -2, 0] [1, 0.9, 0.7] (by simp) (by norm_num) rfl (by intro u hu; simp at hu; rcases hu with rfl | rfl | rfl <;> norm_num) 0.95 (-4.99) (-1)
  simp only [List.map_cons, List.map_nil] at this
  rw [this, abs_of_pos (by norm_num)]
  norm_num

/-- the piecewise-linear function through two samples, as in `C94_mean` -/
example : Interpolates [0, 1] [2, 4] (fun x => if x ≤ 0 then 2 else if 1 ≤ x then 4 else 2 + 2 * x) := by
  refine ⟨?_, ?_, ?_⟩
  · intro a u ha hu x hx
    obtain rfl : (0:ℝ) = a := by simpa using ha
    obtain rfl : (2:ℝ) = u := by simpa using hu
    simp [hx]
  · intro a u ha hu x hx
    obtain rfl : (1:ℝ) = a := by simpa using ha
    obtain rfl : (4:ℝ) = u := by simpa using hu
    simp [show ¬ x ≤ 0 by linarith, hx]
  · intro k a b u v ha hb hu hv x h1 h2
    match k with
    | 0 =>
      obtain rfl : (0:ℝ) = a := by simpa using ha
      obtain rfl : (1:ℝ) = b := by simpa using hb
      obtain rfl : (2:ℝ) = u := by simpa using hu
      obtain rfl : (4:ℝ) = v := by simpa using hv
      by_cases h : x ≤ 0
      · obtain rfl : x = 0 := le_antisymm h h1
        simp
      · by_cases h' : 1 ≤ x
        · obtain rfl : x = 1 := le_antisymm h2 h'
          norm_num
        · simp only [if_neg h, if_neg h']; ring
    | k + 1 => simp at hb

end Wiz
