import Verif.Lemmas.FlowFrame
import Verif.Props.TurbineValue
/-! # The velocity of a one-cylinder turbine as a field -/
namespace Wiz
open Spec Classical
noncomputable section

theorem sum_fin {α : Type} (l : List α) (f : α → V3 ℝ) : (l.map fun c => V3.fin (f c)).sum = V3.fin (l.map f).sum := by
  induction l with
  | nil => rfl
  | cons a l ih => simp only [List.map_cons, List.sum_cons, ih]; ext <;> simp

theorem mulVec_fromAxes (a b s v : V3 ℝ) : M3.mulVec (M3.ofCols a b s) v = fromAxes a b s v := by
  unfold fromAxes M3.mulVec M3.ofCols
  ext <;> simp <;> ring

theorem fromAxes_add (a b s u v : V3 ℝ) : fromAxes a b s (u + v) = fromAxes a b s u + fromAxes a b s v := by
  unfold fromAxes; ext <;> simp <;> ring
theorem fromAxes_zero (a b s : V3 ℝ) : fromAxes a b s 0 = 0 := by
  unfold fromAxes; ext <;> simp
theorem fromAxes_sum {α : Type} (a b s : V3 ℝ) (l : List α) (f : α → V3 ℝ) :
    fromAxes a b s (l.map f).sum = (l.map fun c => fromAxes a b s (f c)).sum := by
  induction l with
  | nil => exact fromAxes_zero a b s
  | cons x l ih => simp only [List.map_cons, List.sum_cons, fromAxes_add, ih]
theorem sum_add {α : Type} (l : List α) (f g : α → V3 ℝ) :
    (l.map fun c => f c + g c).sum = (l.map f).sum + (l.map g).sum := by
  induction l with
  | nil => ext <;> simp
  | cons x l ih => simp only [List.map_cons, List.sum_cons, ih]; ext <;> simp <;> ring

theorem sum_zero3 {α : Type} (l : List α) : (l.map fun _ => (0 : V3 ℝ)).sum = 0 := by
  induction l with
  | nil => rfl
  | cons x l ih => simp only [List.map_cons, List.sum_cons, ih]; ext <;> simp

theorem zero_add3 (p : V3 ℝ) : 0 + p = p := by ext <;> simp

/-- `compute_u` at one point, from the fields of the wake components in rotor axes -/
theorem turbine_field (mini : (ℝ → Num) → ℝ) (R : ℝ) (hub shaft vert U0 : V3 ℝ) (L : Option Num) (G : Bool)
    (M : String) (ho : Orthonormal shaft vert) (h : List Op) (P : V3 ℝ) (o : Opts) (hnw : o.no_wake = false) (hro : o.root = false) :
    let w := (WT.new R hub shaft vert U0 L G M).run mini h
    let s := w.e_shaft_g
    let a := V3.cross vert s
    let centres := if o.ground.getD w.Ground then [w.r_hub, groundImage vert w.r_hub] else [w.r_hub]
    ∀ (g : ℝ) (gl : Option ℝ) (chi : Num) (vt : V3 ℝ → V3 ℝ) (vl : ℝ → V3 ℝ → V3 ℝ), w.gamma_t = some [.fin g] →
      w.gamma_l = gl.map (fun x => [Num.fin x]) →
      (w.computeU [P] o).2.chi = some chi → (∃ u, (w.computeU [P] o).1 = .ok u) →
      (∀ c ∈ centres, o.tang = true → wakeTang chi (o.Model.getD w.Model) (.fin g) R o.R_far_field [inAxes a vert s c P] = [V3.fin (vt (inAxes a vert s c P))]) →
      (∀ c ∈ centres, ∀ x, o.longi = true → gl = some x → wakeLongi chi (.fin x) R [inAxes a vert s c P] = [V3.fin (vl x (inAxes a vert s c P))]) →
      (w.computeU [P] o).1 = .ok [V3.fin ((centres.map fun c => fromAxes a vert s
        ((if o.tang = true ∧ g ≠ 0 then vt (inAxes a vert s c P) else 0) +
         gl.elim 0 fun x => if o.longi = true ∧ x ≠ 0 then vl x (inAxes a vert s c P) else 0)).sum + if o.only_ind then 0 else w.U0_g)] := by
  intro w s a centres g gl chi vt vl hg hgl hchi ⟨u, hu⟩ ht hl
  obtain ⟨q1, q2⟩ := C16_field mini R hub shaft vert U0 L G M ho h [P] o hnw (.fin g) chi u hg hchi hu
  have q2 := q2 0 (by simp)
  rw [hu]
  have hlist : u = [u.getD 0 0] := by
    match u, q1 with
    | [x], _ => rfl
  rw [hlist, q2]
  congr 2
  have hax : ∀ c, rotorAxes a vert s c [P] = [inAxes a vert s c P] := fun c => rfl
  have hz : (0 : V3 Num) = V3.fin 0 := rfl
  have e1 : (match w.Gamma_r with
      | some Gr => if o.root = true ∧ ¬ Num.Eqv Gr 0 then
          (centres.map fun c => (wakeRoot chi Gr (rotorAxes a vert s c [P])).getD 0 0).sum else 0
      | none => 0) = V3.fin 0 := by
    rw [hro]
    split
    · rw [if_neg (fun h => Bool.false_ne_true h.1)]; rfl
    · rfl
  have e2 : (if o.tang = true ∧ ¬ Num.Eqv (Num.fin g) 0 then
      (centres.map fun c => (wakeTang chi (o.Model.getD w.Model) (.fin g) R o.R_far_field (rotorAxes a vert s c [P])).getD 0 0).sum else 0)
      = V3.fin (centres.map fun c => if o.tang = true ∧ g ≠ 0 then vt (inAxes a vert s c P) else 0).sum := by
    rw [Num.zero_def, Num.eqv_fin]
    by_cases hc : o.tang = true ∧ g ≠ 0
    · rw [if_pos hc, ← sum_fin]
      congr 1
      apply List.map_congr_left
      intro c hcm
      rw [hax, ht c hcm hc.1, if_pos hc]; rfl
    · rw [if_neg hc]
      simp only [if_neg hc, sum_zero3]
      rfl
  have e3 : (match w.gamma_l with
      | some [gl'] => if o.longi = true ∧ ¬ Num.Eqv gl' 0 then
          (centres.map fun c => (wakeLongi chi gl' R (rotorAxes a vert s c [P])).getD 0 0).sum else 0
      | _ => 0) = V3.fin (centres.map fun c => gl.elim 0 fun x => if o.longi = true ∧ x ≠ 0 then vl x (inAxes a vert s c P) else 0).sum := by
    rw [hgl]
    cases gl with
    | none =>
      simp only [Option.map_none, Option.elim_none, sum_zero3]
      rfl
    | some x =>
      simp only [Option.map_some, Option.elim_some]
      rw [Num.zero_def, Num.eqv_fin]
      by_cases hc : o.longi = true ∧ x ≠ 0
      · rw [if_pos hc, ← sum_fin]
        congr 1
        apply List.map_congr_left
        intro c hcm
        rw [hax, hl c hcm x hc.1 rfl, if_pos hc]; rfl
      · rw [if_neg hc]
        simp only [if_neg hc, sum_zero3]
        rfl
  refine Eq.trans (congrArg (fun z => transform (M3.fin (M3.ofCols a vert s)) z + _) (congrArg₂ (· + ·) (congrArg₂ (· + ·) e1 e2) e3)) ?_
  have e4 : ∀ x y : V3 ℝ, V3.fin x + V3.fin y = V3.fin (x + y) := fun x y => by ext <;> simp
  rw [e4, e4, zero_add3, transform_fin, mulVec_fromAxes, ← sum_add, fromAxes_sum]
  have e5 : (if o.only_ind = true then (0 : V3 Num) else V3.fin (WT.run mini (WT.new R hub shaft vert U0 L G M) h).U0_g)
      = V3.fin (if o.only_ind = true then 0 else w.U0_g) := by split <;> rfl
  rw [e5, e4]

end
end Wiz
