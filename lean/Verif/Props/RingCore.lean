import Verif.Props.VortexRing
/-! # Values on the ring itself (C52, C54) -/
namespace Wiz
open Spec Real Classical

/-- C52 (on the ring): without regularisation both routines return `Γ/(4R)` along the axis in the neighbourhood
`|r-R| < 1e-7 R, |z| < 1e-7` of the ring, and no radial velocity. -/
theorem C52_on_ring (p : V3 ℝ) (Γ R : ℝ) (reg : String) (hR : 0 < R) (h : |√(p.x^2 + p.y^2) - R| < 1e-7 * R ∧ |p.z| < 1e-7) :
    ringU p Γ R 0 = V3.fin ⟨0, 0, Γ / (4*R)⟩ ∧ ringPolar (√(p.x^2 + p.y^2)) p.z Γ R 0 0 reg = .ok (.fin 0, .fin (Γ / (4*R))) := by
  refine ⟨(C52_finite p Γ R hR).2 h, ?_⟩
  unfold ringPolar
  simp only [sub_zero, if_true, h, and_self, Num.zero_def, Num.ofNat_def, Num.fin_mul, Num.fin_div (show 4*R ≠ 0 by positivity)]

/-- C54 (core): with `epsilon > 0`, on the ring `ring_u` gives `Γ/(4πR) (log(8R/ε) - 1/4)` (its `epsilon` is the core radius)
and `ring_u_polar` with Saffman's regularisation gives `Γ/(4πR) (log(16R/ε) - 1/4)` (its `epsilon` is the core diameter): for the
same `epsilon` they differ by `Γ log 2/(4πR)`, and they agree when `ring_u_polar` is given twice the `epsilon`. -/
theorem C54_core_value (p : V3 ℝ) (Γ R ε : ℝ) (hR : 0 < R) (hε : 0 < ε) (hx : √(p.x^2 + p.y^2) = R) (hz : p.z = 0) :
    ∃ u v v2 : ℝ, ringU p Γ R ε = V3.fin ⟨0, 0, u⟩ ∧ ringPolar (√(p.x^2 + p.y^2)) p.z Γ R 0 ε "Saffman" = .ok (.fin 0, .fin v) ∧
      ringPolar (√(p.x^2 + p.y^2)) p.z Γ R 0 (2*ε) "Saffman" = .ok (.fin 0, .fin v2) ∧
      u = Γ/(4*π*R) * (log (8*R/ε) - 1/4) ∧ v = Γ/(4*π*R) * (log (16*R/ε) - 1/4) ∧ v - u = Γ * log 2/(4*π*R) ∧ v2 = u := by
  have hpi := pi_pos
  have h1 : |polarR p.x p.y - R| < 1e-7 * R ∧ |p.z| < 1e-7 := by
    unfold polarR
    rw [hx, hz, sub_self, abs_zero]
    exact ⟨by positivity, by norm_num⟩
  have hs : ∀ e : ℝ, 0 < e → ringPolar (√(p.x^2 + p.y^2)) p.z Γ R 0 e "Saffman" = .ok (.fin 0, .fin (Γ/(4*π*R) * (log (16*R/e) - 1/4))) := by
    intro e he
    unfold ringPolar
    rw [hx, hz]
    simp only [sub_zero, sub_self, he.ne', if_false, if_true]
    rw [show ((0:ℝ)^2 + 0^2) = 0 by norm_num, Num.sqrt_fin le_rfl, sqrt_zero, if_pos (Num.lt_fin.mpr (by positivity))]
    have hl : 0 < 16 * R/e := by positivity
    simp only [Num.zero_def, Num.one_def, Num.ofNat_def, Num.fin_mul, Num.fin_div he.ne', Num.log, if_pos hl, Num.fin_sub,
      Num.fin_div (show 4*π*R ≠ 0 by positivity), Num.fin_div (show (4:ℝ) ≠ 0 by norm_num)]
  refine ⟨_, _, _, ?_, hs ε hε, hs (2*ε) (by positivity), rfl, rfl, ?_, ?_⟩
  · have hl : 0 < 8 * R/ε := by positivity
    unfold ringU ringUPolarOut
    simp only [h1, and_self, if_true, hε.ne', if_false]
    simp only [Num.zero_def, Num.one_def, Num.ofNat_def, Num.fin_mul, Num.fin_div hε.ne', Num.log, if_pos hl, Num.fin_sub,
      Num.fin_div (show 4*π*R ≠ 0 by positivity), Num.fin_div (show (4:ℝ) ≠ 0 by norm_num)]
    simp [V3.fin]
  · have e : log (16*R/ε) = log 2 + log (8*R/ε) := by
      rw [← log_mul (by norm_num) (by positivity)]; congr 1; ring
    rw [e]; ring
  · rw [show 16*R/(2*ε) = 8*R/ε by field_simp; norm_num]

example : √((3:ℝ)^2 + 4^2) = 5 := by
  rw [show (3:ℝ)^2 + 4^2 = 5^2 by norm_num, sqrt_sq (by norm_num)]
end Wiz
