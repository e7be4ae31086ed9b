import Verif.Props.TurbineLoading
import Verif.Props.BlockageError
import Verif.Props.Solver
import Verif.Props.TurbineState

/-! # C36: loadings spread over several cylinders -/
namespace Wiz
open Spec Real Classical

/-- the solver runs to its end whatever the circulation, wind and speed, if lengths agree and the default cylinders are sound -/
theorem discr_runs (n : ℕ) (r : ℕ → ℝ) (G : List Num) (R : ℝ) (U0 Ω nB : Num) (sw bt hi : Bool) (hn : 0 < n) (hG : G.length = n)
    (h0 : 0 < r 0) (hinc : ∀ i j, i < j → j < n → r i < r j) (hR : n = 1 → r 0 ≤ R) :
    ∃ w, wakeVorticityDiscr (farr n r) G (.fin R) U0 Ω nB sw bt hi none = .ok w := by
  obtain ⟨h1, h2, h3⟩ := rcyl_ok n r R hn h0 hinc hR
  rw [discr_default n r G R U0 Ω nB sw bt hi hn]
  unfold wakeVorticityDiscr
  simp only [farr_length, hG, ne_eq, not_true, or_false]
  rw [if_neg (by omega), if_neg (by rw [enclose n r _ hn]; exact not_not.mpr h3),
    if_neg (by rw [idx_farr _ _ _ hn]; exact (h2 0 hn).ne')]
  cases sw <;> exact ⟨_, rfl⟩

/-- the stations of `n` cylinders -/
theorem stations (n : ℕ) (hn : 2 ≤ n) (R : ℝ) (hR : 0 < R) :
    ((linspace 0.005 0.995 n).map fun x => x * R).map Num.fin = farr n (fun i => (0.005 + i * (0.99 / ((n:ℝ) - 1))) * R) ∧
    0 < (0.005 + ((0:ℕ):ℝ) * (0.99 / ((n:ℝ) - 1))) * R ∧
    ∀ i j : ℕ, i < j → j < n → (0.005 + (i:ℝ) * (0.99 / ((n:ℝ) - 1))) * R < (0.005 + (j:ℝ) * (0.99 / ((n:ℝ) - 1))) * R := by
  refine ⟨?_, ?_, ?_⟩
  · unfold linspace farr arr
    rw [List.map_map, List.map_map]
    apply List.map_congr_left
    intro i _
    simp only [Function.comp_apply]
    norm_num
  · simp; positivity
  · intro i j h _
    have h1 : (i:ℝ) < j := by exact_mod_cast h
    have h2 : (2:ℝ) ≤ n := by exact_mod_cast hn
    have h3 : (0:ℝ) < 0.99 / ((n:ℝ) - 1) := div_pos (by norm_num) (by linarith)
    apply mul_lt_mul_of_pos_right _ hR
    have := mul_lt_mul_of_pos_right h1 h3
    linarith

theorem loading_runs_full (mini : (ℝ → Num) → ℝ) (w : WT) (a : LoadArgs) (r : Option (List ℝ)) (Ct Γ : Option (List Num)) (Λ : Num)
    (v : List Num × Option (List Num) × Option Num) (hre : reinterp w.R a = .ok (r, Ct, Γ)) (hΛ : a.Lambda.or w.Lambda = some Λ)
    (hv : loadingSolve mini w.R (.fin (V3.norm w.U0_g)) (Λ * .fin (V3.norm w.U0_g) / .fin w.R) r Ct Γ a.gamma_t_Ct = .ok v) :
    (w.updateLoading mini a).1 = .ok () ∧ (w.updateLoading mini a).2.r = r ∧ (w.updateLoading mini a).2.Ct = Ct ∧
    (w.updateLoading mini a).2.Lambda = some Λ ∧ (w.updateLoading mini a).2.gamma_t = some v.1 ∧
    (w.updateLoading mini a).2.gamma_l = v.2.1 ∧ (w.updateLoading mini a).2.Gamma_r = v.2.2 := by
  obtain ⟨gt, gl, Gr⟩ := v
  unfold WT.updateLoading
  simp only
  rw [hre]
  simp only
  cases hL : a.Lambda with
  | some l =>
    rw [hL] at hΛ
    obtain rfl : l = Λ := by simpa using hΛ
    simp only
    rw [hv]
    exact ⟨rfl, rfl, rfl, rfl, rfl, rfl, rfl⟩
  | none =>
    rw [hL] at hΛ
    have hΛ : w.Lambda = some Λ := by simpa using hΛ
    simp only [hΛ]
    rw [hv]
    exact ⟨rfl, rfl, rfl, rfl, rfl, rfl, rfl⟩

theorem loading_runs (mini : (ℝ → Num) → ℝ) (w : WT) (a : LoadArgs) (r : Option (List ℝ)) (Ct Γ : Option (List Num)) (Λ : Num)
    (v : List Num × Option (List Num) × Option Num) (hre : reinterp w.R a = .ok (r, Ct, Γ)) (hΛ : a.Lambda.or w.Lambda = some Λ)
    (hv : loadingSolve mini w.R (.fin (V3.norm w.U0_g)) (Λ * .fin (V3.norm w.U0_g) / .fin w.R) r Ct Γ a.gamma_t_Ct = .ok v) :
    (w.updateLoading mini a).1 = .ok () ∧ (w.updateLoading mini a).2.r = r ∧ (w.updateLoading mini a).2.Ct = Ct := by
  obtain ⟨k1, k2, k3, -⟩ := loading_runs_full mini w a r Ct Γ Λ v hre hΛ hv
  exact ⟨k1, k2, k3⟩

/-- C36: `update_loading` with a real thrust distribution over increasing radii, at least two cylinders and a known
tip-speed ratio succeeds on every turbine, and records at the station of each cylinder the value of the
piecewise-linear function through the given samples. -/
theorem C36_spread_thrust (mini : (ℝ → Num) → ℝ) (w : WT) (hR : 0 < w.R) (n : ℕ) (hn : 2 ≤ n) (r Ct : List ℝ) (hr : r ≠ []) (hinc : r.Pairwise (· < ·))
    (hl : Ct.length = r.length) (L : ℝ → ℝ) (hL : Interpolates r Ct L) (Λ? : Option Num) (hΛ : (Λ?.or w.Lambda).isSome)
    (f : Option (List Num → List Num)) :
    let a : LoadArgs := { r := some r, Ct := some (Ct.map .fin), Lambda := Λ?, nCyl := some n, gamma_t_Ct := f }
    let x := fun i : ℕ => (0.005 + i * (0.99 / ((n:ℝ) - 1))) * w.R
    (w.updateLoading mini a).1 = .ok () ∧
    (w.updateLoading mini a).2.r = some ((List.range n).map x) ∧
    (w.updateLoading mini a).2.Ct = some ((List.range n).map fun i => .fin (L (x i))) := by
  intro a x
  obtain ⟨s1, s2, s3⟩ := stations n hn w.R hR
  have hv : (linspace 0.005 0.995 n).map (fun y => y * w.R) = (List.range n).map x := by
    unfold linspace
    rw [List.map_map]
    apply List.map_congr_left
    intro i _
    simp only [Function.comp_apply, x]
    norm_num
  have hre : reinterp w.R a = .ok (some ((List.range n).map x), some ((List.range n).map fun i => .fin (L (x i))), none) := by
    unfold reinterp
    simp only [a]
    rw [if_neg (by omega)]
    unfold interpArr
    simp only
    rw [if_neg (by simp [hl, hr]), hv, List.map_map]
    simp only
    congr 3
    apply congrArg
    apply List.map_congr_left
    intro i _
    exact interp1_linear (x i) r Ct L hr hinc hl hL
  obtain ⟨Λ, hΛ'⟩ := Option.isSome_iff_exists.mp hΛ
  have hsolve : ∀ Ω, ∃ v, loadingSolve mini w.R (.fin (V3.norm w.U0_g)) Ω (some ((List.range n).map x)) (some ((List.range n).map fun i => .fin (L (x i)))) none f = .ok v := by
    intro Ω
    unfold loadingSolve
    cases f with
    | some f => exact ⟨_, rfl⟩
    | none =>
      simp only
      have hr' : ((List.range n).map x).map Num.fin = farr n x := by rw [← hv]; exact s1
      have : ∃ v, wakeVorticityFromCt mini (((List.range n).map x).map .fin) ((List.range n).map fun i => .fin (L (x i))) (.fin w.R) (.fin (V3.norm w.U0_g)) Ω = .ok v := by
        rw [hr']
        unfold wakeVorticityFromCt
        apply discr_runs n x _ w.R _ _ _ _ _ _ (by omega) _ s2 s3 (by omega)
        rw [List.length_map]
        unfold circulationFromPrescribedCt
        split <;> simp [farr_length]
      obtain ⟨v, hv⟩ := this
      rw [hv]
      exact ⟨_, rfl⟩
  obtain ⟨v, hv⟩ := hsolve (Λ * .fin (V3.norm w.U0_g) / .fin w.R)
  exact loading_runs mini w a _ _ _ Λ v hre (by rw [← hΛ']) hv

/-- C36: the same for a real circulation distribution. -/
theorem C36_spread_circulation (mini : (ℝ → Num) → ℝ) (w : WT) (hR : 0 < w.R) (n : ℕ) (hn : 2 ≤ n) (r Γ : List ℝ) (hr : r ≠ []) (hinc : r.Pairwise (· < ·))
    (hl : Γ.length = r.length) (L : ℝ → ℝ) (hL : Interpolates r Γ L) (Λ? : Option Num) (hΛ : (Λ?.or w.Lambda).isSome) :
    let a : LoadArgs := { r := some r, Gamma := some (Γ.map .fin), Lambda := Λ?, nCyl := some n }
    let x := fun i : ℕ => (0.005 + i * (0.99 / ((n:ℝ) - 1))) * w.R
    (w.updateLoading mini a).1 = .ok () ∧
    (w.updateLoading mini a).2.r = some ((List.range n).map x) ∧
    (w.updateLoading mini a).2.Ct = none ∧
    ∃ Λ v, (w.updateLoading mini a).2.Lambda = some Λ ∧
      wakeVorticityFromGamma ((List.range n).map fun i => .fin (x i)) ((List.range n).map fun i => .fin (L (x i))) (.fin w.R)
        (.fin (V3.norm w.U0_g)) (Λ * .fin (V3.norm w.U0_g) / .fin w.R) = .ok v ∧
      (w.updateLoading mini a).2.gamma_t = some v.gamma_t ∧ (w.updateLoading mini a).2.gamma_l = v.gamma_l ∧ (w.updateLoading mini a).2.Gamma_r = v.Gamma_r := by
  intro a x
  obtain ⟨s1, s2, s3⟩ := stations n hn w.R hR
  have hv : (linspace 0.005 0.995 n).map (fun y => y * w.R) = (List.range n).map x := by
    unfold linspace
    rw [List.map_map]
    apply List.map_congr_left
    intro i _
    simp only [Function.comp_apply, x]
    norm_num
  have hre : reinterp w.R a = .ok (some ((List.range n).map x), none, some ((List.range n).map fun i => .fin (L (x i)))) := by
    unfold reinterp
    simp only [a]
    rw [if_neg (by omega)]
    unfold interpArr
    simp only
    rw [if_neg (by simp [hl, hr]), hv, List.map_map]
    simp only
    congr 3
    apply congrArg
    apply List.map_congr_left
    intro i _
    exact interp1_linear (x i) r Γ L hr hinc hl hL
  obtain ⟨Λ, hΛ'⟩ := Option.isSome_iff_exists.mp hΛ
  have hr' : ((List.range n).map x).map Num.fin = farr n x := by rw [← hv]; exact s1
  have hr2 : ((List.range n).map fun i => Num.fin (x i)) = ((List.range n).map x).map Num.fin := by rw [List.map_map]; rfl
  obtain ⟨v, hsolve⟩ : ∃ v, wakeVorticityFromGamma (((List.range n).map x).map .fin) ((List.range n).map fun i => .fin (L (x i))) (.fin w.R) (.fin (V3.norm w.U0_g))
      (Λ * .fin (V3.norm w.U0_g) / .fin w.R) = .ok v := by
    rw [hr']
    unfold wakeVorticityFromGamma
    exact discr_runs n x _ w.R _ _ _ _ _ _ (by omega) (by simp) s2 s3 (by omega)
  have hls : loadingSolve mini w.R (.fin (V3.norm w.U0_g)) (Λ * .fin (V3.norm w.U0_g) / .fin w.R) (some ((List.range n).map x)) none
      (some ((List.range n).map fun i => .fin (L (x i)))) none = .ok (v.gamma_t, v.gamma_l, v.Gamma_r) := by
    unfold loadingSolve
    simp only
    rw [hsolve]
  obtain ⟨k1, k2, k3, k4, k5, k6, k7⟩ := loading_runs_full mini w a _ _ _ Λ _ hre (by rw [← hΛ']) hls
  exact ⟨k1, k2, k3, Λ, v, k4, by rw [hr2]; exact hsolve, k5, k6, k7⟩

/-- C36: with several cylinders, radii and loading of different lengths, no radii or empty arrays raise (and by
`C36_atomic` change nothing). -/
theorem C36_spread_rejects (mini : (ℝ → Num) → ℝ) (w : WT) (a : LoadArgs) (n : ℕ) (hn : a.nCyl = some n) (h1 : n ≠ 1)
    (h : a.r = none ∨ ∃ r, a.r = some r ∧ (r = [] ∨ (∃ c, a.Ct = some c ∧ c.length ≠ r.length) ∨ a.Ct = none ∧ ∃ g, a.Gamma = some g ∧ g.length ≠ r.length)) :
    ∃ e, (w.updateLoading mini a).1 = .error e := by
  have hre : ∃ e, reinterp w.R a = .error e := by
    unfold reinterp
    rw [hn]
    simp only
    rw [if_neg h1]
    rcases h with h | ⟨r, hr, h⟩
    · rw [h]
      cases a.Ct <;> exact ⟨_, rfl⟩
    · rw [hr]
      rcases h with rfl | ⟨c, hc, hl⟩ | ⟨hc, g, hg, hl⟩
      · cases a.Ct with
        | some c => exact ⟨"ValueError", by simp [interpArr]⟩
        | none => cases a.Gamma with
          | none => exact ⟨_, rfl⟩
          | some g => exact ⟨"ValueError", by simp [interpArr]⟩
      · rw [hc]
        exact ⟨"ValueError", by simp [interpArr, Ne.symm hl]⟩
      · rw [hc, hg]
        exact ⟨"ValueError", by simp [interpArr, Ne.symm hl]⟩
  obtain ⟨e, he⟩ := hre
  refine ⟨e, ?_⟩
  unfold WT.updateLoading
  simp only
  rw [he]

/-- a thrust distribution given at two radii, spread over five cylinders of a turbine of radius 50 -/
example (mini : (ℝ → Num) → ℝ) : ((WT.new 50 ⟨0, 0, 0⟩ ⟨1, 0, 0⟩ ⟨0, 0, 1⟩ ⟨10, 0, 0⟩ (some .pinf) false "VC").updateLoading mini
    { r := some [0, 50], Ct := some [.fin 0.9, .fin 0.5], nCyl := some 5 }).1 = .ok () := by
  have hi : Interpolates [0, 50] [0.9, 0.5] (fun x => if x ≤ 0 then 0.9 else if 50 ≤ x then 0.5 else 0.9 + (0.5 - 0.9) * (x / 50)) := by
    refine ⟨?_, ?_, ?_⟩
    · intro a u ha hu x hx
      obtain rfl : (0:ℝ) = a := by simpa using ha
      obtain rfl : (0.9:ℝ) = u := by simpa using hu
      simp [hx]
    · intro a u ha hu x hx
      obtain rfl : (50:ℝ) = a := by simpa using ha
      obtain rfl : (0.5:ℝ) = u := by simpa using hu
      simp [show ¬ x ≤ 0 by linarith, hx]
    · intro k a b u v ha hb hu hv x h1 h2
      match k with
      | 0 =>
        obtain rfl : (0:ℝ) = a := by simpa using ha
        obtain rfl : (50:ℝ) = b := by simpa using hb
        obtain rfl : (0.9:ℝ) = u := by simpa using hu
        obtain rfl : (0.5:ℝ) = v := by simpa using hv
        by_cases h : x ≤ 0
        · obtain rfl : x = 0 := le_antisymm h h1
          simp
        · by_cases h' : 50 ≤ x
          · obtain rfl : x = 50 := le_antisymm h2 h'
            norm_num
          · simp only [if_neg h, if_neg h']; ring
      | k + 1 => simp at hb
  exact (C36_spread_thrust mini _ (by show (0:ℝ) < 50; norm_num) 5 (by norm_num) [0, 50] [0.9, 0.5] (by simp) (by norm_num) rfl _ hi none rfl none).1

end Wiz
