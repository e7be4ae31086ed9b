import Verif.Model.CurledWake
import Verif.Spec.CurledWake
import Verif.Lemmas.VortexLine
import Verif.Lemmas.SkewedConv

namespace Wiz
open Spec Classical Filter Topology

theorem trapz_fin {α : Type} (x f : α → ℝ) : ∀ l : List α,
    trapz (l.map fun s => Num.fin (f s)) (l.map x) = .fin (trapezoid x f l)
  | [] => rfl
  | [_] => rfl
  | a :: b :: l => by
    have h := trapz_fin x f (b :: l)
    simp only [List.map_cons] at h ⊢
    rw [trapz, h, trapezoid]
    simp only [Num.fin_add, Num.fin_mul, Num.ofNat_def]
    rw [Num.fin_div (by norm_num), Num.fin_add]

theorem trapezoid_congr {α : Type} (x : α → ℝ) {f g : α → ℝ} : ∀ {l : List α}, (∀ s ∈ l, f s = g s) →
    trapezoid x f l = trapezoid x g l
  | [], _ => rfl
  | [_], _ => rfl
  | a :: b :: l, h => by
    rw [trapezoid, trapezoid, h a (by simp), h b (by simp), trapezoid_congr x (l := b :: l) (fun s hs => h s (by simp_all))]

theorem trapezoid_tendsto {α : Type} (x : α → ℝ) (F : ℝ → α → ℝ) (G : α → ℝ) : ∀ (l : List α),
    (∀ s ∈ l, Tendsto (fun t => F t s) atTop (𝓝 (G s))) →
    Tendsto (fun t => trapezoid x (F t) l) atTop (𝓝 (trapezoid x G l))
  | [], _ => tendsto_const_nhds
  | [_], _ => tendsto_const_nhds
  | a :: b :: l, h => by
    simp only [trapezoid]
    exact (((h a (by simp)).add (h b (by simp))).const_mul _ |>.div_const _).add
      (trapezoid_tendsto x F G (b :: l) fun s hs => h s (by simp_all))

def coreList (smooth : Bool) (l : List RimSample) : Option (List ℝ) :=
  if smooth then some (l.map RimSample.core) else none

theorem curledKs_eval (smooth : Bool) (l : List RimSample) (d : RimSample → ℝ) (hc : smooth = true → ∀ s ∈ l, s.core ≠ 0) :
    curledKs (l.map fun s => Num.fin (d s)) (coreList smooth l) = l.map fun s => Num.fin (gaussCore smooth (d s) s.core) := by
  cases smooth
  · simp only [coreList, curledKs, gaussCore, List.map_map]
    rfl
  · simp only [coreList, if_true, curledKs, List.zipWith_map, List.zipWith_self, gaussCore]
    apply List.map_congr_left
    intro s hs
    have h0 := hc rfl s hs
    simp only [Num.fin_neg, Num.fin_pow]
    rw [Num.fin_div (by positivity), Num.exp_fin, Num.one_def, Num.fin_sub]

theorem map_zip {α β γ δ : Type} (f : β → γ → δ) (g : α → β) (h : α → γ) (l : List α) :
    List.zipWith f (l.map g) (l.map h) = l.map fun a => f (g a) (h a) := by
  rw [List.zipWith_map, List.zipWith_self]

theorem veU_eval (cp : V2 ℝ) (R ψ : ℝ) (smooth : Bool) (l : List RimSample) (hc : smooth = true → ∀ s ∈ l, s.core ≠ 0)
    (hoff : ∀ s ∈ l, cp ≠ rimShadow R ψ s.theta) :
    veU cp R (l.map RimSample.theta) ψ (l.map RimSample.gamma) (coreList smooth l) = V2.fin
      ⟨trapezoid RimSample.theta (fun s => gaussCore smooth (dist2 cp (rimShadow R ψ s.theta)) s.core
          * (pointVortex (R * s.gamma) cp (rimShadow R ψ s.theta)).x) l,
       trapezoid RimSample.theta (fun s => gaussCore smooth (dist2 cp (rimShadow R ψ s.theta)) s.core
          * (pointVortex (R * s.gamma) cp (rimShadow R ψ s.theta)).y) l⟩ := by
  have hd : ∀ s ∈ l, dist2 cp (rimShadow R ψ s.theta) ≠ 0 := by
    intro s hs h
    apply hoff s hs
    unfold dist2 at h
    have h1 := sq_nonneg (cp.x - (rimShadow R ψ s.theta).x)
    have h2 := sq_nonneg (cp.y - (rimShadow R ψ s.theta).y)
    ext
    · have := pow_eq_zero_iff (two_ne_zero) |>.mp (by linarith : (cp.x - (rimShadow R ψ s.theta).x)^2 = 0); linarith
    · have := pow_eq_zero_iff (two_ne_zero) |>.mp (by linarith : (cp.y - (rimShadow R ψ s.theta).y)^2 = 0); linarith
  have hpi := Real.pi_pos
  unfold veU
  simp only [List.map_map, map_zip, Function.comp_def]
  rw [show (fun s : RimSample => Num.fin ((cp.y - R * Real.sin s.theta)^2 + (cp.x - R * Real.cos s.theta * Real.cos ψ)^2))
    = fun s => Num.fin (dist2 cp (rimShadow R ψ s.theta)) from by
      funext s; unfold dist2 rimShadow; rw [add_comm], curledKs_eval smooth l _ hc]
  simp only [map_zip]
  have key : ∀ s ∈ l, Num.fin (R * s.gamma) / Num.fin (2 * Real.pi) /
        Num.fin ((cp.x - R * Real.cos s.theta * Real.cos ψ)^2 + (cp.y - R * Real.sin s.theta)^2) *
        Num.fin (gaussCore smooth (dist2 cp (rimShadow R ψ s.theta)) s.core)
      = Num.fin (R * s.gamma / (2 * Real.pi * dist2 cp (rimShadow R ψ s.theta)) * gaussCore smooth (dist2 cp (rimShadow R ψ s.theta)) s.core) := by
    intro s hs
    have h := hd s hs
    have e : (cp.x - R * Real.cos s.theta * Real.cos ψ)^2 + (cp.y - R * Real.sin s.theta)^2 = dist2 cp (rimShadow R ψ s.theta) := rfl
    rw [e, Num.fin_div (by positivity), Num.fin_div h, Num.fin_mul, div_div]
  have ex : (l.map fun s : RimSample => - Num.fin (cp.y - R * Real.sin s.theta) *
        (Num.fin (R * s.gamma) / Num.fin (2 * Real.pi) /
        Num.fin ((cp.x - R * Real.cos s.theta * Real.cos ψ)^2 + (cp.y - R * Real.sin s.theta)^2) *
        Num.fin (gaussCore smooth (dist2 cp (rimShadow R ψ s.theta)) s.core)))
      = l.map fun s => Num.fin (gaussCore smooth (dist2 cp (rimShadow R ψ s.theta)) s.core
          * (pointVortex (R * s.gamma) cp (rimShadow R ψ s.theta)).x) := by
    apply List.map_congr_left
    intro s hs
    rw [key s hs, Num.fin_neg, Num.fin_mul, Num.fin_inj, pointVortex]
    simp only [rimShadow]
    ring
  have ey : (l.map fun s : RimSample => Num.fin (cp.x - R * Real.cos s.theta * Real.cos ψ) *
        (Num.fin (R * s.gamma) / Num.fin (2 * Real.pi) /
        Num.fin ((cp.x - R * Real.cos s.theta * Real.cos ψ)^2 + (cp.y - R * Real.sin s.theta)^2) *
        Num.fin (gaussCore smooth (dist2 cp (rimShadow R ψ s.theta)) s.core)))
      = l.map fun s => Num.fin (gaussCore smooth (dist2 cp (rimShadow R ψ s.theta)) s.core
          * (pointVortex (R * s.gamma) cp (rimShadow R ψ s.theta)).y) := by
    apply List.map_congr_left
    intro s hs
    rw [key s hs, Num.fin_mul, Num.fin_inj, pointVortex]
    simp only [rimShadow]
    ring
  rw [ex, ey, trapz_fin, trapz_fin]
  rfl

theorem windwardLine_eval (Γ : ℝ) (A P : V3 ℝ) (h : P.y ≠ A.y ∨ P.z ≠ A.z ∨ P.x < A.x) :
    0 < V3.norm (P - A) * (V3.norm (P - A) - (P.x - A.x)) ∧
    windwardLine Γ A P = ⟨0, -(Γ/(4*Real.pi)/(V3.norm (P - A) * (V3.norm (P - A) - (P.x - A.x))) * (P.z - A.z)),
      Γ/(4*Real.pi)/(V3.norm (P - A) * (V3.norm (P - A) - (P.x - A.x))) * (P.y - A.y)⟩ := by
  have hdot : V3.dot (P - A) ⟨1, 0, 0⟩ = P.x - A.x := by simp [V3.dot]
  have hn : V3.norm (P - A) = Real.sqrt ((P.x - A.x)^2 + (P.y - A.y)^2 + (P.z - A.z)^2) := rfl
  have hd : 0 < V3.norm (P - A) - (P.x - A.x) := by
    rw [hn, sub_pos]
    rcases h with h | h | h
    · have : 0 < (P.y - A.y)^2 := by have := sub_ne_zero.mpr h; positivity
      exact Real.lt_sqrt_of_sq_lt (by nlinarith [sq_nonneg (P.z - A.z)])
    · have : 0 < (P.z - A.z)^2 := by have := sub_ne_zero.mpr h; positivity
      exact Real.lt_sqrt_of_sq_lt (by nlinarith [sq_nonneg (P.y - A.y)])
    · exact lt_of_lt_of_le (by linarith) (Real.sqrt_nonneg _)
  have hp : 0 < V3.norm (P - A) := by
    rw [hn]
    apply Real.sqrt_pos.mpr
    rcases h with h | h | h
    · have : 0 < (P.y - A.y)^2 := by have := sub_ne_zero.mpr h; positivity
      nlinarith [sq_nonneg (P.z - A.z), sq_nonneg (P.x - A.x)]
    · have : 0 < (P.z - A.z)^2 := by have := sub_ne_zero.mpr h; positivity
      nlinarith [sq_nonneg (P.y - A.y), sq_nonneg (P.x - A.x)]
    · have : 0 < (P.x - A.x)^2 := by have := sub_ne_zero.mpr h.ne; positivity
      nlinarith [sq_nonneg (P.y - A.y), sq_nonneg (P.z - A.z)]
  refine ⟨mul_pos hp hd, ?_⟩
  have e : windwardLine Γ A P = biotSavart Γ (Set.Ioi 0) (fun s => V3.smul s ⟨1, 0, 0⟩) (fun _ => ⟨1, 0, 0⟩) (P - A) := by
    unfold windwardLine biotSavart bsKernel
    have : ∀ s : ℝ, P - (A + V3.smul s ⟨1, 0, 0⟩) = (P - A) - V3.smul s ⟨1, 0, 0⟩ := by
      intro s; ext <;> simp <;> ring
    simp only [this]
  rw [e, biotSavart_halfline (P - A) ⟨1, 0, 0⟩ (by simp [V3.dot]) hp (by rw [hdot]; exact hd), hdot]
  ext <;> simp [V3.cross, V3.smul]
  ring

theorem vclU_eval (cp : V3 ℝ) (R ψ : ℝ) (smooth : Bool) (l : List RimSample) (hc : smooth = true → ∀ s ∈ l, s.core ≠ 0)
    (hoff : ∀ s ∈ l, cp.y ≠ (yawedRim R ψ s.theta).y ∨ cp.z ≠ (yawedRim R ψ s.theta).z ∨ cp.x < (yawedRim R ψ s.theta).x) :
    vclU cp R (l.map RimSample.theta) ψ (l.map RimSample.gamma) (coreList smooth l) = V2.fin
      ⟨trapezoid RimSample.theta (fun s => gaussCore smooth (dist2 ⟨cp.y, cp.z⟩ (rimShadow R ψ s.theta)) s.core
          * (windwardLine (R * s.gamma) (yawedRim R ψ s.theta) cp).y) l,
       trapezoid RimSample.theta (fun s => gaussCore smooth (dist2 ⟨cp.y, cp.z⟩ (rimShadow R ψ s.theta)) s.core
          * (windwardLine (R * s.gamma) (yawedRim R ψ s.theta) cp).z) l⟩ := by
  have hpi := Real.pi_pos
  unfold vclU
  simp only [List.map_map, map_zip, Function.comp_def]
  rw [show (fun s : RimSample => Num.fin ((cp.z - R * Real.sin s.theta)^2 + (cp.y - R * Real.cos s.theta * Real.cos ψ)^2))
    = fun s => Num.fin (dist2 ⟨cp.y, cp.z⟩ (rimShadow R ψ s.theta)) from by
      funext s; unfold dist2 rimShadow; rw [add_comm], curledKs_eval smooth l _ hc]
  simp only [map_zip]
  have key : ∀ s ∈ l,
      Num.fin (R * s.gamma) / Num.fin (4 * Real.pi) /
        (Num.sqrt (Num.fin ((cp.x - -R * Real.cos s.theta * Real.sin ψ)^2) +
            Num.fin ((cp.y - R * Real.cos s.theta * Real.cos ψ)^2 + (cp.z - R * Real.sin s.theta)^2)) *
          (Num.sqrt (Num.fin ((cp.x - -R * Real.cos s.theta * Real.sin ψ)^2) +
            Num.fin ((cp.y - R * Real.cos s.theta * Real.cos ψ)^2 + (cp.z - R * Real.sin s.theta)^2)) -
            Num.fin (cp.x - -R * Real.cos s.theta * Real.sin ψ))) *
        Num.fin (gaussCore smooth (dist2 ⟨cp.y, cp.z⟩ (rimShadow R ψ s.theta)) s.core)
      = Num.fin (R * s.gamma / (4 * Real.pi) / (V3.norm (cp - yawedRim R ψ s.theta) *
          (V3.norm (cp - yawedRim R ψ s.theta) - (cp.x - (yawedRim R ψ s.theta).x)))
          * gaussCore smooth (dist2 ⟨cp.y, cp.z⟩ (rimShadow R ψ s.theta)) s.core) := by
    intro s hs
    have h := (windwardLine_eval (R * s.gamma) _ _ (hoff s hs)).1
    have e0 : (cp.x - -R * Real.cos s.theta * Real.sin ψ) = cp.x - (yawedRim R ψ s.theta).x := by
      simp only [yawedRim]; ring
    have e : (cp.x - (yawedRim R ψ s.theta).x)^2 +
        ((cp.y - R * Real.cos s.theta * Real.cos ψ)^2 + (cp.z - R * Real.sin s.theta)^2)
        = (cp.x - (yawedRim R ψ s.theta).x)^2 + (cp.y - (yawedRim R ψ s.theta).y)^2 + (cp.z - (yawedRim R ψ s.theta).z)^2 := by
      simp only [yawedRim]; ring
    rw [e0, Num.fin_add, e, Num.sqrt_fin (by positivity)]
    rw [show Real.sqrt ((cp.x - (yawedRim R ψ s.theta).x)^2 + (cp.y - (yawedRim R ψ s.theta).y)^2 + (cp.z - (yawedRim R ψ s.theta).z)^2)
      = V3.norm (cp - yawedRim R ψ s.theta) from rfl, Num.fin_sub, Num.fin_mul, Num.fin_div (by positivity), Num.fin_div h.ne', Num.fin_mul]
  have ey : (l.map fun s : RimSample => Num.fin (R * Real.sin s.theta - cp.z) * (
      Num.fin (R * s.gamma) / Num.fin (4 * Real.pi) /
        (Num.sqrt (Num.fin ((cp.x - -R * Real.cos s.theta * Real.sin ψ)^2) +
            Num.fin ((cp.y - R * Real.cos s.theta * Real.cos ψ)^2 + (cp.z - R * Real.sin s.theta)^2)) *
          (Num.sqrt (Num.fin ((cp.x - -R * Real.cos s.theta * Real.sin ψ)^2) +
            Num.fin ((cp.y - R * Real.cos s.theta * Real.cos ψ)^2 + (cp.z - R * Real.sin s.theta)^2)) -
            Num.fin (cp.x - -R * Real.cos s.theta * Real.sin ψ))) *
        Num.fin (gaussCore smooth (dist2 ⟨cp.y, cp.z⟩ (rimShadow R ψ s.theta)) s.core)))
      = l.map fun s => Num.fin (gaussCore smooth (dist2 ⟨cp.y, cp.z⟩ (rimShadow R ψ s.theta)) s.core
          * (windwardLine (R * s.gamma) (yawedRim R ψ s.theta) cp).y) := by
    apply List.map_congr_left
    intro s hs
    rw [key s hs, Num.fin_mul, Num.fin_inj, (windwardLine_eval (R * s.gamma) _ _ (hoff s hs)).2]
    simp only [show (yawedRim R ψ s.theta).z = R * Real.sin s.theta from rfl]
    ring
  have ez : (l.map fun s : RimSample => Num.fin (cp.y - R * Real.cos s.theta * Real.cos ψ) * (
      Num.fin (R * s.gamma) / Num.fin (4 * Real.pi) /
        (Num.sqrt (Num.fin ((cp.x - -R * Real.cos s.theta * Real.sin ψ)^2) +
            Num.fin ((cp.y - R * Real.cos s.theta * Real.cos ψ)^2 + (cp.z - R * Real.sin s.theta)^2)) *
          (Num.sqrt (Num.fin ((cp.x - -R * Real.cos s.theta * Real.sin ψ)^2) +
            Num.fin ((cp.y - R * Real.cos s.theta * Real.cos ψ)^2 + (cp.z - R * Real.sin s.theta)^2)) -
            Num.fin (cp.x - -R * Real.cos s.theta * Real.sin ψ))) *
        Num.fin (gaussCore smooth (dist2 ⟨cp.y, cp.z⟩ (rimShadow R ψ s.theta)) s.core)))
      = l.map fun s => Num.fin (gaussCore smooth (dist2 ⟨cp.y, cp.z⟩ (rimShadow R ψ s.theta)) s.core
          * (windwardLine (R * s.gamma) (yawedRim R ψ s.theta) cp).z) := by
    apply List.map_congr_left
    intro s hs
    rw [key s hs, Num.fin_mul, Num.fin_inj, (windwardLine_eval (R * s.gamma) _ _ (hoff s hs)).2]
    simp only [show (yawedRim R ψ s.theta).y = R * Real.cos s.theta * Real.cos ψ from rfl]
    ring
  rw [ey, ez, trapz_fin, trapz_fin]
  rfl

/-- the strength seen by a point far downstream doubles: `2/(|r|(|r|-x)) → 4/d²`. -/
theorem halfline_limit (x1 d : ℝ) (hd : 0 < d) :
    Tendsto (fun x : ℝ => 1 / (Real.sqrt ((x - x1)^2 + d) * (Real.sqrt ((x - x1)^2 + d) - (x - x1)))) atTop (𝓝 (2 / d)) := by
  have h1 : Tendsto (fun x : ℝ => d / (x - x1)^2) atTop (𝓝 0) := by
    apply Tendsto.const_div_atTop
    exact (tendsto_pow_atTop two_ne_zero).comp (tendsto_atTop_add_const_right atTop (-x1) tendsto_id)
  have h2 : Tendsto (fun x : ℝ => (1 + 1/Real.sqrt (1 + d/(x-x1)^2)) / d) atTop (𝓝 ((1 + 1/Real.sqrt (1 + 0))/d)) := by
    refine (Tendsto.const_add 1 (Tendsto.div tendsto_const_nhds ((h1.const_add 1).sqrt) ?_)).div_const d
    simp
  have e : ((1 + 1/Real.sqrt (1 + 0))/d : ℝ) = 2/d := by norm_num
  rw [e] at h2
  refine h2.congr' ?_
  filter_upwards [eventually_gt_atTop x1] with x hx
  have hX : 0 < x - x1 := by linarith
  have hs : Real.sqrt ((x-x1)^2 + d) = (x - x1) * Real.sqrt (1 + d/(x-x1)^2) := by
    rw [← Real.sqrt_sq hX.le, ← Real.sqrt_mul (by positivity), Real.sqrt_sq hX.le]
    congr 1
    field_simp
  rw [hs]
  have hS : 1 < Real.sqrt (1 + d/(x-x1)^2) := by
    rw [Real.lt_sqrt (by norm_num)]
    have : 0 < d/(x-x1)^2 := by positivity
    linarith
  have hS2 : Real.sqrt (1 + d/(x-x1)^2)^2 = 1 + d/(x-x1)^2 := Real.sq_sqrt (by positivity)
  generalize Real.sqrt (1 + d/(x-x1)^2) = S at *
  have hdd : d = (S^2 - 1) * (x-x1)^2 := by rw [hS2]; field_simp; ring
  rw [hdd]
  have : S - 1 ≠ 0 := by linarith
  have hS3 : S^2 - 1 ≠ 0 := by nlinarith
  have h5 : (x - x1) * S - (x - x1) = (x - x1) * (S - 1) := by ring
  have h6 : S^2 - 1 = (S-1)*(S+1) := by ring
  have : S + 1 ≠ 0 := by linarith
  rw [h5, h6]
  field_simp

end Wiz
