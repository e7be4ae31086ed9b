import Verif.Lemmas.Scale
import Verif.Model.Solver
import Verif.Model.WindTurbine

/-! # The loading does not depend on the unit of length -/
namespace Wiz
open Classical

section
variable {k : ℝ} (hk : 0 < k)

theorem idx_map (l : List Num) (i : ℕ) : idx (l.map (sc k)) i = sc k (idx l i) := by
  unfold idx
  rw [List.getD_eq_getElem?_getD, List.getD_eq_getElem?_getD, List.getElem?_map]
  cases l[i]? <;> rfl

include hk

theorem le_sc (a b : Num) : sc k a ≤ sc k b ↔ a ≤ b := by
  cases a <;> cases b <;> simp only [sc_pinf hk, sc_ninf hk, sc_nan, sc_fin, Num.le_fin, mul_le_mul_iff_right₀ hk] <;> rfl

theorem numMax_sc (a b : Num) : numMax (sc k a) (sc k b) = sc k (numMax a b) := by
  unfold numMax
  simp only [lt_sc hk, le_sc hk]
  split
  · rfl
  · split <;> rfl

theorem amax_sc (l : List Num) : ∀ a : Num, amax (sc k a) (l.map (sc k)) = sc k (amax a l) := by
  induction l with
  | nil => intro a; rfl
  | cons b l ih => intro a; simp only [List.map_cons, amax, numMax_sc hk, ih]

theorem arr_sc (n : ℕ) (f : ℕ → Num) : arr n (fun i => sc k (f i)) = (arr n f).map (sc k) := by
  unfold arr; rw [List.map_map]; rfl

theorem defaultRcyl_sc (r : List Num) (R : Num) : defaultRcyl (r.map (sc k)) (sc k R) = (defaultRcyl r R).map (sc k) := by
  unfold defaultRcyl
  simp only [List.length_map, idx_map]
  split
  · rfl
  · rw [← arr_sc hk]
    congr 1
    funext i
    split
    · rw [← sc_sub hk, ← sc_div hk, ← sc_add hk]
    · rw [← sc_add hk, ← sc_div hk]

theorem kr_sc (G U0 Om nB : Num) : sc (k*k) G * nB * Om / (.fin Real.pi * (sc k U0)^2) = G * nB * Om / (.fin Real.pi * U0^2) := by
  have hkk := mul_pos hk hk
  rw [sc_pow_two hk, ← sc_mul_right hkk, ← sc_mul hkk, ← sc_mul hkk, sc_div_sc hkk]

theorem apCyl_sc (n : ℕ) (G r : ℕ → Num) (Om : Num) (i : ℕ) :
    apCylConv n (fun i => sc (k*k) (G i)) (fun i => sc k (r i)) Om i = apCylConv n G r Om i := by
  have hkk := mul_pos hk hk
  unfold apCylConv
  simp only [← sc_mul_right hk, sc_pow_two hk, ← sc_add hkk, sc_div_sc hkk]

/-- gamma_t, gamma_l, Gamma_r of a loading -/
def load3 (v : WakeVort) : List Num × Option (List Num) × Option Num := (v.gamma_t, v.gamma_l, v.Gamma_r)
/-- the same in other units -/
noncomputable def scLoad (k G : ℝ) (v : List Num × Option (List Num) × Option Num) : List Num × Option (List Num) × Option Num :=
  (v.1.map (sc k), v.2.1.map (List.map (sc k)), v.2.2.map (sc G))

theorem discr_scale (r G : List Num) (R U0 Om nB : Num) (bS bT bH : Bool) :
    mapOk load3 (wakeVorticityDiscr (r.map (sc k)) (G.map (sc (k*k))) (sc k R) (sc k U0) Om nB bS bT bH none) =
      mapOk (fun v => scLoad k (k*k) (load3 v)) (wakeVorticityDiscr r G R U0 Om nB bS bT bH none) := by
  have hkk := mul_pos hk hk
  unfold wakeVorticityDiscr
  simp only [defaultRcyl_sc hk, List.length_map, idx_map]
  have t : ∀ l : List Num, (l.map (sc k)).tail = l.tail.map (sc k) := fun l => by cases l <;> rfl
  split
  · rfl
  rw [t, t, amax_sc hk, amax_sc hk]
  simp only [lt_sc hk, eqv_zero_sc hk]
  split
  · rfl
  split
  · rfl
  have eG : ∀ i, sc (k*k) (idx G i) * nB = sc (k*k) (idx G i * nB) := fun i => (sc_mul hkk _ _).symm
  simp only [kr_sc hk]
  have eap : ∀ i, apCylConv r.length (fun i => sc (k*k) (idx G i) * nB) (idx ((defaultRcyl r R).map (sc k))) Om i =
      apCylConv r.length (fun i => idx G i * nB) (idx (defaultRcyl r R)) Om i := by
    intro i
    rw [show (idx ((defaultRcyl r R).map (sc k))) = fun i => sc k (idx (defaultRcyl r R) i) from funext fun i => idx_map _ i]
    simp only [eG]
    exact apCyl_sc hk _ _ _ _ _
  have e0 : ∀ i, 0 * (sc (k*k) (idx G i) * nB) = 0 * (idx G i * nB) := by
    intro i
    rw [eG, ← sc_mul_right hkk, sc_mul hkk, zero_sc]
  have el : ∀ i, Om * sc k (idx (defaultRcyl r R) i) / sc k U0 = Om * idx (defaultRcyl r R) i / U0 := by
    intro i; rw [← sc_mul_right hk, sc_div_sc hk]
  simp only [eap, e0, el]
  cases bS
  · simp only [Bool.false_eq_true, if_false, mapOk, load3, scLoad, Option.map_none]
    rw [← arr_sc hk]
    simp only [sc_mul_right hk]
  · simp only [if_true, mapOk, load3, scLoad, Option.map_some]
    have em : k * k * k⁻¹ = k := by field_simp
    have etl : ∀ i, (sc (k*k) (idx G i * nB) - if i = r.length - 1 then 0 else sc (k*k) (idx G (i+1) * nB)) / (2 * .fin Real.pi * sc k (idx r i)) =
        sc k ((idx G i * nB - if i = r.length - 1 then 0 else idx G (i+1) * nB) / (2 * .fin Real.pi * idx r i)) := by
      intro i
      have : (if i = r.length - 1 then 0 else sc (k*k) (idx G (i+1) * nB)) = sc (k*k) (if i = r.length - 1 then 0 else idx G (i+1) * nB) := by
        split
        · exact zero_sc.symm
        · rfl
      rw [this, ← sc_sub hkk, ← sc_mul_right hk, div_sc hk, ← sc_div hkk, sc_sc (inv_pos.2 hk) hkk, mul_comm, em]
    simp only [etl, eG, ← sc_neg, ← arr_sc hk, sc_mul_right hk]

theorem fromCt_scale (mini : (ℝ → Num) → ℝ) (r Ct : List Num) (R U0 Om : Num) :
    mapOk load3 (wakeVorticityFromCt mini (r.map (sc k)) Ct (sc k R) (sc k U0) Om) =
      mapOk (fun v => scLoad k (k*k) (load3 v)) (wakeVorticityFromCt mini r Ct R U0 Om) := by
  have hkk := mul_pos hk hk
  unfold wakeVorticityFromCt
  simp only
  have e1 : capOmega Om * sc k R / sc k U0 = capOmega Om * R / U0 := by rw [← sc_mul_right hk, sc_div_sc hk]
  have e2 : ((r.map (sc k)).map fun x => x / sc k R) = r.map fun x => x / R := by
    rw [List.map_map]; apply List.map_congr_left; intro x _; exact sc_div_sc hk _ _
  have e3 : ∀ l : List Num, (l.map fun x => x * .fin Real.pi * (sc k U0)^2 / capOmega Om) = (l.map fun x => x * .fin Real.pi * U0^2 / capOmega Om).map (sc (k*k)) := by
    intro l
    rw [List.map_map]; apply List.map_congr_left; intro x _
    simp only [Function.comp]
    rw [sc_pow_two hk, ← sc_mul_right hkk, ← sc_div hkk]
  rw [e1, e2, e3]
  exact discr_scale hk _ _ _ _ _ _ _ _ _

theorem fromGamma_scale (r G : List Num) (R U0 Om : Num) :
    mapOk load3 (wakeVorticityFromGamma (r.map (sc k)) (G.map (sc (k*k))) (sc k R) (sc k U0) Om) =
      mapOk (fun v => scLoad k (k*k) (load3 v)) (wakeVorticityFromGamma r G R U0 Om) := by
  unfold wakeVorticityFromGamma
  simp only
  have e1 : capOmega Om * sc k R / sc k U0 = capOmega Om * R / U0 := by rw [← sc_mul_right hk, sc_div_sc hk]
  rw [e1]
  exact discr_scale hk _ _ _ _ _ _ _ _ _
end

end Wiz
