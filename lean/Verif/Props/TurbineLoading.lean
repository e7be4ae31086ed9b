import Verif.Props.TurbineState
import Verif.Props.Solver

/-! # C34, C36: what `update_loading` stores -/
namespace Wiz
open Spec Real Classical

/-- C36: the vorticity stored by a successful call.  With `gamma_t_Ct` it is that function of the recorded
thrust coefficient, without longitudinal and root vorticity; with a thrust coefficient it is the result of the
thrust solver on the recorded stations and thrust, for the wind speed `|U0|` and the rotational speed
`Λ|U0|/R` of the recorded tip-speed ratio; with a circulation, of the circulation solver, on the given
circulation (`nCyl=None`), its mean (one cylinder) or its interpolation. -/
theorem C36_strengths (mini : (ℝ → Num) → ℝ) (w : WT) (a : LoadArgs) (h : (w.updateLoading mini a).1 = .ok ()) :
    let w' := (w.updateLoading mini a).2
    let U : Num := .fin (V3.norm w.U0_g)
    ∃ Lam, w'.Lambda = some Lam ∧
      (∀ f, a.gamma_t_Ct = some f → ∃ c, w'.Ct = some c ∧ w'.gamma_t = some (f c) ∧ w'.gamma_l = none ∧ w'.Gamma_r = none) ∧
      (a.gamma_t_Ct = none → a.Ct ≠ none → ∃ c r v, w'.Ct = some c ∧ w'.r = some r ∧
        wakeVorticityFromCt mini (r.map .fin) c (.fin w.R) U (Lam * U / .fin w.R) = .ok v ∧
        w'.gamma_t = some v.gamma_t ∧ w'.gamma_l = v.gamma_l ∧ w'.Gamma_r = v.Gamma_r) ∧
      (a.gamma_t_Ct = none → a.Ct = none → ∃ Γ0 Γ r v, a.Gamma = some Γ0 ∧ w'.r = some r ∧
        (a.nCyl = none → Γ = Γ0) ∧ (a.nCyl = some 1 → Γ = [npMean Γ0]) ∧
        (∀ n, a.nCyl = some n → n ≠ 1 → ∃ r0, a.r = some r0 ∧ Γ = r.map fun x => interp1 x (List.zip r0 Γ0)) ∧
        wakeVorticityFromGamma (r.map .fin) Γ (.fin w.R) U (Lam * U / .fin w.R) = .ok v ∧
        w'.gamma_t = some v.gamma_t ∧ w'.gamma_l = v.gamma_l ∧ w'.Gamma_r = v.Gamma_r) := by
  intro w' U
  simp only [w', U]
  unfold WT.updateLoading at h ⊢
  simp only at h ⊢
  split at h
  · exact nomatch h
  · rename_i r Ct Gamma e1
    split at h
    · exact nomatch h
    · rename_i lam e2
      split at h
      · exact nomatch h
      · rename_i gt gl Gr e3
        simp only [e1, e2, e3]
        unfold loadingSolve at e3
        refine ⟨lam, rfl, ?_, ?_, ?_⟩
        · intro f hf
          rw [hf] at e3
          simp only at e3
          cases hc : Ct with
          | none => rw [hc] at e3; exact nomatch e3
          | some c =>
            rw [hc] at e3
            have e3 := Except.ok.inj e3
            simp only [Prod.mk.injEq] at e3
            exact ⟨c, rfl, by rw [e3.1], e3.2.1.symm, e3.2.2.symm⟩
        · intro hf hCt
          rw [hf] at e3
          simp only at e3
          have hCt' : Ct ≠ none := by
            cases hac : a.Ct with
            | none => exact absurd hac hCt
            | some c0 =>
              unfold reinterp at e1
              rw [hac] at e1
              split at e1
              · have := Except.ok.inj e1; simp only [Prod.mk.injEq] at this; rw [← this.2.1]; simp
              · split at e1
                · have := Except.ok.inj e1; simp only [Prod.mk.injEq] at this; rw [← this.2.1]; simp
                · simp only at e1
                  split at e1
                  · have := Except.ok.inj e1; simp only [Prod.mk.injEq] at this; rw [← this.2.1]; simp
                  · exact nomatch e1
          cases hc : Ct with
          | none => exact absurd hc hCt'
          | some c =>
            rw [hc] at e3
            simp only at e3
            cases hr : r with
            | none => rw [hr] at e3; exact nomatch e3
            | some r =>
              rw [hr] at e3
              simp only at e3
              split at e3
              · rename_i v hv
                have e3 := Except.ok.inj e3
                simp only [Prod.mk.injEq] at e3
                exact ⟨c, r, v, rfl, rfl, hv, by rw [e3.1], e3.2.1.symm, e3.2.2.symm⟩
              · exact nomatch e3
        · intro hf hCt
          rw [hf] at e3
          simp only at e3
          have key : Ct = none ∧ ∀ Γ, Gamma = some Γ → ∃ Γ0, a.Gamma = some Γ0 ∧ (a.nCyl = none → Γ = Γ0) ∧ (a.nCyl = some 1 → Γ = [npMean Γ0]) ∧
              (∀ n, a.nCyl = some n → n ≠ 1 → ∃ r0 r', a.r = some r0 ∧ r = some r' ∧ Γ = r'.map fun x => interp1 x (List.zip r0 Γ0)) := by
            unfold reinterp at e1
            rw [hCt] at e1
            split at e1
            · rename_i hn
              have := Except.ok.inj e1; simp only [Prod.mk.injEq] at this
              refine ⟨this.2.1.symm, fun Γ hΓ => ⟨Γ, by rw [this.2.2, hΓ], fun _ => rfl, ?_, ?_⟩⟩
              · intro h; rw [hn] at h; exact nomatch h
              · intro n h; rw [hn] at h; exact nomatch h
            · rename_i n hn
              split at e1
              · rename_i hn1
                have := Except.ok.inj e1; simp only [Prod.mk.injEq] at this
                refine ⟨this.2.1.symm, fun Γ hΓ => ?_⟩
                have hg := this.2.2
                rw [hΓ] at hg
                cases hG : a.Gamma with
                | none => rw [hG] at hg; exact nomatch hg
                | some Γ0 =>
                  rw [hG] at hg
                  refine ⟨Γ0, rfl, ?_, ?_, ?_⟩
                  · intro h; rw [hn] at h; exact nomatch h
                  · intro _; exact (Option.some.inj hg).symm
                  · intro n' h h'; rw [hn] at h; have := Option.some.inj h; omega
              · rename_i hn1
                simp only at e1
                split at e1
                · rename_i g' hg'
                  have := Except.ok.inj e1; simp only [Prod.mk.injEq] at this
                  refine ⟨this.2.1.symm, fun Γ hΓ => ?_⟩
                  have hg := this.2.2
                  rw [hΓ] at hg
                  have hg := Option.some.inj hg
                  subst hg
                  unfold interpArr at hg'
                  split at hg'
                  · rename_i r0 y hr0 hy
                    split at hg'
                    · exact nomatch hg'
                    · refine ⟨y, hy, ?_, ?_, ?_⟩
                      · intro h; rw [hn] at h; exact nomatch h
                      · intro h; rw [hn] at h; have := Option.some.inj h; omega
                      · intro n' h h'
                        refine ⟨r0, _, hr0, this.1.symm, ?_⟩
                        exact (Except.ok.inj hg').symm
                  · exact nomatch hg'
                · exact nomatch e1
          rw [key.1] at e3
          simp only at e3
          cases hG : Gamma with
          | none => rw [hG] at e3; exact nomatch e3
          | some Γ =>
            rw [hG] at e3
            simp only at e3
            obtain ⟨Γ0, k1, k2, k3, k4⟩ := key.2 Γ hG
            cases hr : r with
            | none => rw [hr] at e3; exact nomatch e3
            | some r =>
              rw [hr] at e3 k4
              simp only at e3
              split at e3
              · rename_i v hv
                have e3 := Except.ok.inj e3
                simp only [Prod.mk.injEq] at e3
                refine ⟨Γ0, Γ, r, v, k1, rfl, k2, k3, ?_, hv, by rw [e3.1], e3.2.1.symm, e3.2.2.symm⟩
                intro n hn hn1
                obtain ⟨r0, r', q1, q2, q3⟩ := k4 n hn hn1
                have := Option.some.inj q2
                subst this
                exact ⟨r0, q1, q3⟩
              · exact nomatch e3

end Wiz
