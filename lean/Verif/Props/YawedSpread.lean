import Verif.Props.YawedStations
import Verif.Props.Resolution
/-! # C149 for a thrust distribution spread on several cylinders -/
set_option autoImplicit false
namespace Wiz
open Spec Classical Real
noncomputable section

/-- C149, from the thrust, with the stations that the code chooses: a yawed turbine loaded with a thrust-coefficient distribution (increasing radii `r`, values `Ct`, `T` its piecewise-linear
interpolant) spread on `n≥2` cylinders.  The stations are at `x_i=(0.005+0.99 i/(n-1))R` with the thrust coefficients `T(x_i)`, and the rotor disk is slowed down along the wind as above. -/
theorem C149_spread (mini : (ℝ → Num) → ℝ) (R : ℝ) (hub shaft vert U0 : V3 ℝ) (L : Option Num) (gr : Bool)
    (M : String) (ho : Orthonormal shaft vert) (hR : 0 < R) (h : List Op) (pts : List (V3 ℝ)) (hp : pts ≠ []) (o : Opts) (hnw : o.no_wake = false)
    (hlo : o.longi = false) (hro : o.root = false) (hta : o.tang = true) (U : ℝ) (hU : 0 < U) (d : V3 ℝ) (hd : V3.dot d d = 1) (hdv : V3.dot d vert = 0)
    (n : ℕ) (r Ct : List ℝ) (hr : r ≠ []) (hincr : r.Pairwise (· < ·)) (hlen : Ct.length = r.length) (T : ℝ → ℝ) (hT : Interpolates r Ct T)
    (x : ℕ → ℝ) (hx : ∀ i, x i = (0.005 + i * (0.99 / ((n:ℝ) - 1))) * R) (K E : ℕ → ℝ) (lam : ℝ) (hl : 0 < lam) (hl20 : lam < 20) (hn : 2 ≤ n)
    (hc : ∀ i < n, 0 < T (x i)) (hK : ∀ i, K i = mini (fun k => .fin |k * (1 + k / (4 * (lam * x i / R)^2)) - T (x i)|))
    (hmin : ∀ i < n, 0 ≤ K i ∧ K i * (1 + K i / (4 * (lam * x i / R)^2)) = T (x i))
    (hE : ∀ k < n, E k = T (x k) - (K k)^2/4 * (1/(lam * x k / R)^2 - 1/(lam * rcyl n x R k / R)^2) -
      ∑ j ∈ Finset.Ico (k+1) (n-1), (K (j+1)/2)^2 * (1/(lam * rcyl n x R j / R)^2 - 1/(lam * rcyl n x R (j+1) / R)^2))
    (Q : ℝ → ℝ) (hQ : ∀ x, Q x = π^2/(3 * 179^2) * (x * (x + 2)) * (1 + 10 * x + 18 * x^2)) :
    let a : LoadArgs := { r := some r, Ct := some (Ct.map .fin), Lambda := some (.fin lam), nCyl := some n }
    let w := (WT.new R hub shaft vert U0 L gr M).run mini (h ++ [.loading a])
    let s := w.e_shaft_g
    o.ground.getD w.Ground = false → o.Model.getD w.Model = "VC" → w.chi = none → w.U0_g = V3.smul U d → 0 < V3.dot d s → 1e-7 < |V3.dot d (V3.cross vert s)| →
    ∃ u, (w.computeU pts o).1 = .ok u ∧ (∀ k < n, E k < T (x k) ∧ aOfCt (E k) < aOfCt (T (x k))) ∧
      ∀ (i : ℕ) (p : V3 ℝ) (k : ℕ) (ρ : ℝ), pts[i]? = some p → V3.dot (p - w.r_hub) s = 0 → ρ = V3.norm (p - w.r_hub) → k ≤ n → (∀ j < k, x j < ρ) → (∀ j < n, k ≤ j → ρ < x j) →
      ∃ v : V3 ℝ, u[i]? = some (V3.fin v) ∧
        |V3.dot (v - if o.only_ind then 0 else w.U0_g) d + (if k < n then U * aOfCt (E k) else 0)| ≤
          √2 * ∑ j ∈ Finset.range n, 2 * U * |aOfCt (E j) - (if j = n - 1 then 0 else aOfCt (E (j+1)))| * Q (x j / (|x j - ρ| * V3.dot d s)) := by
  obtain ⟨-, s2, s3⟩ := stations n hn R hR
  exact yawed_thrust mini R hub shaft vert U0 L gr M ho hR h pts hp o hnw hlo hro hta U hU d hd hdv n x (fun i => T (x i)) K E lam hl hl20 hn (by rw [hx]; exact s2)
    (fun i j hij hj => by rw [hx, hx]; exact s3 i j hij hj) hc hK hmin hE _ _ (spread_reinterp R hR n hn r Ct hr hincr hlen T hT _ x hx) rfl rfl rfl Q hQ

/-- a concrete case: a constant thrust coefficient 0.8 spread on two cylinders of a 50 m rotor (at 0.25 m and 49.75 m), tip-speed ratio 5, exact minimiser, in a wind of 10 m/s at 36.87 degrees from its shaft; at the hub -/
example : ∃ mini : (ℝ → Num) → ℝ,
    let w := (WT.new 50 ⟨1,2,3⟩ ⟨0,0,1⟩ ⟨0,1,0⟩ ⟨6,0,8⟩ none false "VC").run mini
      ([] ++ [.loading { r := some [0, 50], Ct := some ([0.8, 0.8].map Num.fin), Lambda := some (.fin 5), nCyl := some 2 }])
    ∃ u v e0 e1, (w.computeU [⟨1,2,3⟩] {}).1 = .ok u ∧ u[0]? = some (V3.fin v) ∧ e0 < 0.8 ∧ e1 < 0.8 ∧
      |V3.dot v ⟨0.6,0,0.8⟩ - 10 * (1 - aOfCt e0)| ≤ √2 * (20 * (|aOfCt e0 - aOfCt e1| + |aOfCt e1|) * 0.02) := by
  have hroot : ∀ l : ℝ, 0 < l → ∃ K : ℝ, 0 ≤ K ∧ |K * (1 + K / (4*l^2)) - 0.8| = 0 := by
    intro l hl
    obtain ⟨K, ⟨a, _, e⟩, _⟩ := C26_unique_root l 0.8 hl (by norm_num)
    exact ⟨K, a.le, by rw [e]; simp⟩
  refine ⟨fun f => if h : ∃ K, 0 ≤ K ∧ f K = .fin 0 then h.choose else 0, ?_⟩
  intro w
  obtain ⟨mini, hmini⟩ : ∃ mini : (ℝ → Num) → ℝ, mini = fun f => if h : ∃ K, 0 ≤ K ∧ f K = .fin 0 then h.choose else 0 := ⟨_, rfl⟩
  obtain ⟨x, hx⟩ : ∃ x : ℕ → ℝ, ∀ i, x i = (0.005 + i * (0.99 / (((2:ℕ):ℝ) - 1))) * 50 := ⟨_, fun _ => rfl⟩
  have hx0 : ∀ i, 0 < x i := fun i => by rw [hx]; have : (0:ℝ) < ((2:ℕ):ℝ) - 1 := by norm_num
                                         positivity
  obtain ⟨K, hK⟩ : ∃ K : ℕ → ℝ, ∀ i : ℕ, K i = mini (fun k => .fin |k * (1 + k / (4 * (5 * x i / 50)^2)) - 0.8|) := ⟨_, fun _ => rfl⟩
  have hm : ∀ i < 2, 0 ≤ K i ∧ K i * (1 + K i / (4 * (5 * x i / 50)^2)) = 0.8 := by
    intro i _
    rw [hK]
    have := hx0 i
    have hl : 0 < (5 * x i / 50) := by positivity
    generalize (5 * x i / 50) = l at *
    obtain ⟨K, k1, k2⟩ := hroot l hl
    have hex : ∃ K, 0 ≤ K ∧ (fun k => Num.fin |k * (1 + k / (4 * l^2)) - 0.8|) K = .fin 0 := ⟨K, k1, by simp only [k2]⟩
    have e : mini (fun k => Num.fin |k * (1 + k / (4 * l^2)) - 0.8|) = hex.choose := by rw [hmini]; simp only; rw [dif_pos hex]
    rw [e]
    have := Num.fin.inj hex.choose_spec.2
    exact ⟨hex.choose_spec.1, sub_eq_zero.mp (abs_eq_zero.mp this)⟩
  obtain ⟨a, ha⟩ : ∃ a : LoadArgs, a = { r := some [0, 50], Ct := some ([0.8, 0.8].map Num.fin), Lambda := some (.fin 5), nCyl := some 2 } := ⟨_, rfl⟩
  have hw : w = (WT.new 50 ⟨1,2,3⟩ ⟨0,0,1⟩ ⟨0,1,0⟩ ⟨6,0,8⟩ none false "VC").run mini ([] ++ [.loading a]) := by rw [ha, hmini]
  clear_value w
  clear hmini
  obtain ⟨e1, e2, -, -, e5, -, -, -, -, -, e11, e12, e13, e14⟩ := loading_frame mini
    ((WT.new 50 ⟨1,2,3⟩ ⟨0,0,1⟩ ⟨0,1,0⟩ ⟨6,0,8⟩ none false "VC").run mini []) a
  have f2 : w.r_hub = ⟨1,2,3⟩ := by rw [hw]; exact e2
  have f5 : w.e_shaft_g = ⟨0,0,1⟩ := by
    rw [hw]
    refine e5.trans ?_
    have := (frame_run mini ⟨0,0,1⟩ ⟨0,1,0⟩ 50 [] _ (frame_new 50 ⟨1,2,3⟩ ⟨0,0,1⟩ ⟨0,1,0⟩ ⟨6,0,8⟩ none false "VC")).e_shaft_g
    rw [turn_eq] at this
    refine this.trans ?_
    change turn _ 0 _ = _
    unfold turn
    ext <;> simp
  have f11 : w.U0_g = ⟨6,0,8⟩ := by rw [hw]; exact e11
  have f12 : w.Ground = false := by rw [hw]; exact e12
  have f13 : w.chi = none := by rw [hw]; exact e13
  have f14 : w.Model = "VC" := by rw [hw]; exact e14
  obtain ⟨E, hE⟩ : ∃ E : ℕ → ℝ, ∀ k < 2, E k = 0.8 - (K k)^2/4 * (1/(5 * x k / 50)^2 - 1/(5 * rcyl 2 x 50 k / 50)^2) -
      ∑ j ∈ Finset.Ico (k+1) (2-1), (K (j+1)/2)^2 * (1/(5 * rcyl 2 x 50 j / 50)^2 - 1/(5 * rcyl 2 x 50 (j+1) / 50)^2) := ⟨_, fun _ _ => rfl⟩
  obtain ⟨Q, hQ⟩ : ∃ Q : ℝ → ℝ, ∀ x, Q x = π^2/(3 * 179^2) * (x * (x + 2)) * (1 + 10 * x + 18 * x^2) := ⟨_, fun _ => rfl⟩
  have H := C149_spread mini 50 ⟨1,2,3⟩ ⟨0,0,1⟩ ⟨0,1,0⟩ ⟨6,0,8⟩ none false "VC" ⟨by simp [V3.dot], by simp [V3.dot], by simp [V3.dot]⟩ (by norm_num)
    [] [⟨1,2,3⟩] (by simp) {} rfl rfl rfl rfl 10 (by norm_num) ⟨0.6,0,0.8⟩ (by simp [V3.dot]; norm_num) (by simp [V3.dot]) 2 [0, 50] [0.8, 0.8] (by simp) (by simp) rfl _ (interpolates_const 0 50 0.8) x hx K E 5
    (by norm_num) (by norm_num) le_rfl (fun _ _ => by norm_num) hK hm hE Q hQ
  rw [← ha] at H
  simp only [← hw] at H
  obtain ⟨u, hu, H1, H2⟩ := H (by rw [f12]; rfl) (by rw [f14]; rfl) f13 (by rw [f11]; ext <;> simp <;> norm_num)
    (by rw [f5]; simp [V3.dot]; norm_num) (by rw [f5]; simp [V3.dot, V3.cross]; norm_num)
  have z0 : (⟨1,2,3⟩ : V3 ℝ) - ⟨1,2,3⟩ = 0 := by ext <;> simp
  rw [f2, f5, f11] at H2
  obtain ⟨v, v1, v2⟩ := H2 0 ⟨1,2,3⟩ 0 0 rfl (by rw [z0]; simp [V3.dot]) (by rw [z0, norm_zero3]) (by norm_num) (by intro j hj; omega) (by intro j _ _; exact hx0 j)
  rw [if_pos (show (0:ℕ) < 2 by norm_num)] at v2
  refine ⟨u, v, _, _, hu, v1, (H1 0 (by norm_num)).1, (H1 1 (by norm_num)).1, ?_⟩
  have hd : V3.dot (v - if ({} : Opts).only_ind then 0 else ⟨6,0,8⟩) ⟨0.6,0,0.8⟩ = V3.dot v ⟨0.6,0,0.8⟩ - 10 := by
    simp [V3.dot]; ring
  rw [hd] at v2
  rw [Finset.sum_range_succ, Finset.sum_range_one] at v2
  have hq : Q 1.25 ≤ 0.02 := by
    rw [hQ]
    have hpi := pi_gt_three
    have hpi2 := pi_lt_d2
    norm_num at *
    nlinarith
  have xx : ∀ i, x i / (|x i - 0| * V3.dot (⟨0.6,0,0.8⟩ : V3 ℝ) ⟨0,0,1⟩) = 1.25 := by
    intro i
    have := hx0 i
    rw [sub_zero, abs_of_pos this, show V3.dot (⟨0.6,0,0.8⟩ : V3 ℝ) ⟨0,0,1⟩ = 0.8 by simp [V3.dot]]
    field_simp; norm_num
  rw [if_neg (show ¬ ((0:ℕ) = 2 - 1) by norm_num), if_pos (show (1:ℕ) = 2 - 1 by norm_num), xx, xx, sub_zero] at v2
  rw [show ∀ x y : ℝ, x - 10 * (1 - y) = x - 10 + 10 * y by intros; ring]
  refine v2.trans (mul_le_mul_of_nonneg_left ?_ (sqrt_nonneg _))
  have k0 := mul_le_mul_of_nonneg_left hq (abs_nonneg (aOfCt (E 0) - aOfCt (E 1)))
  have k1 := mul_le_mul_of_nonneg_left hq (abs_nonneg (aOfCt (E 1)))
  rw [zero_add]
  linarith

end
end Wiz
