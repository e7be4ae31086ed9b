import Verif.Props.Momentum
import Verif.Props.SkewedGround
/-! # The velocity of a skewed plain evaluation with one cylinder -/
namespace Wiz
open Spec Real Classical

theorem skew_value (mini : (ℝ → Num) → ℝ) (R : ℝ) (hub shaft vert U0 : V3 ℝ) (L : Option Num) (G : Bool)
    (M : String) (ho : Orthonormal shaft vert) (hR : 0 < R) (h : List Op) (pts : List (V3 ℝ)) (o : Opts) (γ χ : ℝ) :
    let w := (WT.new R hub shaft vert U0 L G M).run mini h
    let s := w.e_shaft_g
    let a := V3.cross vert s
    PlainEval w o → w.gamma_t = some [.fin γ] → (w.computeU pts o).2.chi = some (.fin χ) → 1e-7 < |χ| → cos χ ≠ 0 →
    ∃ u, (w.computeU pts o).1 = .ok u ∧ u.length = pts.length ∧ ∀ (i : ℕ) (p q : V3 ℝ), pts[i]? = some p →
      q = ⟨V3.dot (p - w.r_hub) a, V3.dot (p - w.r_hub) vert, V3.dot (p - w.r_hub) s⟩ →
      (∀ θ t, 0 ≤ t → q ≠ wakePoint R (tan χ) θ t) →
      ∀ c : V3 ℝ, c = turnRuleV (π/2) 179 (tangGenerator γ R (tan χ) q) →
      u[i]? = some (V3.fin (V3.smul c.x a + V3.smul c.y vert + V3.smul c.z s + (if o.only_ind then 0 else w.U0_g))) := by
  intro w s a hp hg hchi hsk hcos
  have hRw : w.R = R := (frame_run mini shaft vert R h _ (frame_new R hub shaft vert U0 L G M)).R
  have hskN : Num.fin 1e-7 < Num.abs (.fin χ) := by rw [Num.abs_fin, Num.lt_fin]; exact hsk
  have htan : Num.tan (.fin χ) = .fin (tan χ) := by
    show (if cos χ = 0 then Num.nan else Num.fin (tan χ)) = _
    rw [if_neg hcos]
  have hv : ∃ u, (w.computeU pts o).1 = .ok u := by
    have hc : Num.fin χ = usedChi w := by rw [computeU_state] at hchi; exact (Option.some.inj hchi).symm
    have hy : yawed (usedChi w) := by rw [← hc]; exact hskN
    rw [computeU_val, hg]
    simp only
    have : w.inducedC (usedChi w) [.fin γ] pts o = if ¬ Num.Eqv (.fin γ) 0 then .ok (addFields (pts.map fun _ => 0) (svcTang (relC w pts) (.fin γ) w.R (Num.tan (usedChi w)) 180 false)) else .ok (pts.map fun _ => 0) := by
      rw [inducedC_single _ _ _ _ _ hp.root, hp.ground]
      simp only [Bool.false_eq_true, if_false, overY]
      rw [singleBody_noLongi _ _ _ _ _ _ _ hp.longi]
      simp only [hp.tang, true_and]
      by_cases hz : ¬ Num.Eqv (.fin γ) 0
      · rw [if_pos hz, if_pos hz]
        unfold tangPart
        rw [if_pos hy, if_pos hp.model]
        rfl
      · rw [if_neg hz, if_neg hz]
    rw [this]
    split_ifs <;> exact ⟨_, rfl⟩
  obtain ⟨u, hu⟩ := hv
  obtain ⟨ul, hval⟩ := C16_field mini R hub shaft vert U0 L G M ho h pts o hp.no_wake (.fin γ) (.fin χ) u hg hchi hu
  refine ⟨u, hu, ul, ?_⟩
  intro i p q hpi hq hoff c hc
  have hi : i < pts.length := by
    by_contra hn
    rw [List.getElem?_eq_none (not_lt.mp hn)] at hpi
    exact nomatch hpi
  have hY : (rotorAxes a vert s w.r_hub pts)[i]? = some q := by
    simp only [rotorAxes, List.getElem?_map, hpi, Option.map_some, hq]
  have hget := (C65_cartesian (rotorAxes a vert s w.r_hub pts) γ R (tan χ) hR 179 i q hY hoff).1
  rw [← hc] at hget
  have hgetD : (svcTang (rotorAxes a vert s w.r_hub pts) (.fin γ) R (.fin (tan χ)) 180 false).getD i 0 = V3.fin c := getElem_getD hget
  have h1 := hval i hi
  have hzero : (if o.tang = true ∧ ¬ Num.Eqv (.fin γ) 0 then
      ([w.r_hub].map fun c => (wakeTang (.fin χ) (o.Model.getD w.Model) (.fin γ) R o.R_far_field (rotorAxes a vert s c pts)).getD i 0).sum else 0) = V3.fin c := by
    have hw : ∀ Y, wakeTang (.fin χ) (o.Model.getD w.Model) (.fin γ) R o.R_far_field Y = svcTang Y (.fin γ) R (.fin (tan χ)) 180 false := by
      intro Y; unfold wakeTang; rw [if_pos (show skewed (.fin χ) from hskN), htan]
    split_ifs with hz
    · rw [List.map_cons, List.map_nil, List.sum_cons, List.sum_nil, add_zero, hw, hgetD]
    · have hγ : γ = 0 := by
        by_contra hne
        exact hz ⟨hp.tang, by simpa [Num.Eqv] using hne⟩
      have hz0 : ∀ θ, tangGenerator γ R (tan χ) q θ = 0 := by
        intro θ; unfold tangGenerator; rw [hγ]; ext <;> simp
      have h0 : c = 0 := by
        rw [hc]
        ext <;> simp [turnRuleV, turnRule, hz0]
      rw [h0]; rfl
  rw [hp.ground] at h1
  simp only [Bool.false_eq_true, if_false, hp.root, hp.longi, false_and] at h1
  have hr0 : (match w.Gamma_r with | some _ => (0 : V3 Num) | none => 0) = 0 := by cases w.Gamma_r <;> rfl
  have hl0 : (match w.gamma_l with | some [_] => (0 : V3 Num) | _ => 0) = 0 := by split <;> rfl
  change u.getD i 0 = transform (M3.fin (M3.ofCols a vert s)) ((match w.Gamma_r with | some _ => (0 : V3 Num) | none => 0) +
    (if o.tang = true ∧ ¬ Num.Eqv (.fin γ) 0 then
      ([w.r_hub].map fun c => (wakeTang (.fin χ) (o.Model.getD w.Model) (.fin γ) R o.R_far_field (rotorAxes a vert s c pts)).getD i 0).sum else 0) +
    (match w.gamma_l with | some [_] => (0 : V3 Num) | _ => 0)) + _ at h1
  rw [hr0, hl0, hzero, zero_add, add_zero, transform_fin] at h1
  have hui : u[i]? = some (u.getD i 0) := by
    have : i < u.length := by rw [ul]; exact hi
    rw [List.getElem?_eq_getElem this, List.getD_eq_getElem?_getD, List.getElem?_eq_getElem this, Option.getD_some]
  rw [hui, h1]
  congr 1
  have : M3.mulVec (M3.ofCols a vert s) c = V3.smul c.x a + V3.smul c.y vert + V3.smul c.z s := by
    ext <;> simp [M3.mulVec, M3.ofCols] <;> ring
  rw [this]
  cases o.only_ind
  · ext <;> simp <;> rfl
  · ext <;> simp

end Wiz
