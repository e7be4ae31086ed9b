import Verif.Lemmas.CarlsonPremature
import Verif.Props.CylinderAccuracy
set_option autoImplicit false

/-! The value returned by the third-kind routine near the premature stop of its first-kind loop. -/
namespace Wiz
open Spec Real MeasureTheory Set Filter Topology

theorem rcIter_continuous (i : ℕ) : Continuous fun q : ℝ × ℝ => rcIter q.1 q.2 i := by
  induction i with
  | zero => simp only [rcIter]; fun_prop
  | succ i ih => simp only [rcIter, rcLam]; fun_prop

theorem rcIter_diag {a : ℝ} (ha : 0 < a) (i : ℕ) : rcIter a a i = (a, a) := by
  induction i with
  | zero => rfl
  | succ i ih =>
    simp only [rcIter, ih, rcLam, ← pow_two, sqrt_sq ha.le]
    ext <;> simp <;> ring

theorem rcVal_diag {a : ℝ} (ha : 0 < a) : rcVal a a = 1/√a := by
  unfold rcVal
  simp only
  rw [show (a + 2*a)/3 = a by ring, rpow_neg_half ha]
  simp

theorem rc_poly {r s : ℝ × ℝ → ℝ} {q : ℝ × ℝ} (hr : ContinuousAt r q) (hs : ContinuousAt s q) : ContinuousAt (fun q => r q *
    (1 + 3/10*s q^2 + s q^2*s q/7 + 3/8*(s q^2*s q*s q) + 9/22*(s q^2*s q*s q*s q) + 159/208*(s q^2*s q*s q*s q*s q))) q := by
  fun_prop

theorem rcVal_continuousAt {a : ℝ} (ha : 0 < a) : ContinuousAt (fun q : ℝ × ℝ => rcVal q.1 q.2) (a, a) := by
  unfold rcVal
  simp only
  have hmu : ContinuousAt (fun q : ℝ × ℝ => (q.1 + 2*q.2)/3) (a, a) := by fun_prop
  have hmu0 : (a + 2*a)/3 ≠ 0 := by positivity
  have hr : ContinuousAt (fun q : ℝ × ℝ => ((q.1 + 2*q.2)/3)^(-1/2:ℝ)) (a, a) := hmu.rpow_const (Or.inl hmu0)
  have hs : ContinuousAt (fun q : ℝ × ℝ => (q.2 - q.1)/(3*((q.1 + 2*q.2)/3))) (a, a) :=
    ContinuousAt.div (by fun_prop) (by fun_prop) (by positivity)
  exact rc_poly hr hs

/-- the degenerate loop is exact in the limit of equal arguments, whatever the number of passes -/
theorem rc_lim {a : ℝ} (ha : 0 < a) {α β : ℝ → ℝ} {l : Filter ℝ} (hα : Tendsto α l (𝓝 a)) (hβ : Tendsto β l (𝓝 a)) (i : ℕ) :
    Tendsto (fun p => rcVal (rcIter (α p) (β p) i).1 (rcIter (α p) (β p) i).2 - RC (α p) (β p)) l (𝓝 0) := by
  have h1 : Tendsto (fun p => rcVal (rcIter (α p) (β p) i).1 (rcIter (α p) (β p) i).2) l (𝓝 (1/√a)) := by
    have t1 : Tendsto (fun p => rcIter (α p) (β p) i) l (𝓝 (a, a)) := by
      have := (rcIter_continuous i).tendsto (a, a)
      simp only [rcIter_diag ha i] at this
      exact this.comp (hα.prodMk_nhds hβ)
    have := (rcVal_continuousAt ha).tendsto.comp t1
    simp only [rcVal_diag ha] at this
    exact this
  have cs : ∀ {f : ℝ → ℝ}, Tendsto f l (𝓝 a) → Tendsto (fun p => 1/√(f p)) l (𝓝 (1/√a)) := by
    intro f hf
    exact tendsto_const_nhds.div ((continuous_sqrt.tendsto a).comp hf) (sqrt_pos.mpr ha).ne'
  have lo := cs (hα.max hβ |>.congr' (Eventually.of_forall fun _ => rfl) |> fun h => by simpa using h)
  have hi := cs (hα.min hβ |>.congr' (Eventually.of_forall fun _ => rfl) |> fun h => by simpa using h)
  have pa : ∀ᶠ p in l, 0 < α p := hα.eventually (lt_mem_nhds ha)
  have pb : ∀ᶠ p in l, 0 < β p := hβ.eventually (lt_mem_nhds ha)
  have h2 : Tendsto (fun p => RC (α p) (β p)) l (𝓝 (1/√a)) := by
    refine tendsto_of_tendsto_of_tendsto_of_le_of_le' lo hi ?_ ?_
    · filter_upwards [pa, pb] with p h1 h2
      rw [RC_eq_RF h2, ← RF_const (lt_of_lt_of_le h1 (le_max_left _ _) : 0 < max (α p) (β p))]
      exact RF_mono h1.le h2 h2 (le_max_left _ _) (le_max_right _ _) (le_max_right _ _)
    · filter_upwards [pa, pb] with p h1 h2
      rw [RC_eq_RF h2, ← RF_const (lt_min h1 h2)]
      have h3 := lt_min h1 h2
      exact RF_mono h3.le h3 h3 (min_le_left _ _) (min_le_right _ _) (min_le_right _ _)
  simpa using h1.sub h2

theorem acc_close {y p δ : ℝ} (kC : ℕ → ℕ) (k : ℕ)
    (h : ∀ j < k, |rcVal (rcIter (rjAlfaR (dupIter 0 y 1 j).1 (dupIter 0 y 1 j).2.1 (dupIter 0 y 1 j).2.2 (dupP 0 y 1 p j))
        (rjBetR (dupIter 0 y 1 j).1 (dupIter 0 y 1 j).2.1 (dupIter 0 y 1 j).2.2 (dupP 0 y 1 p j)) (kC j - 1)).1
        (rcIter (rjAlfaR (dupIter 0 y 1 j).1 (dupIter 0 y 1 j).2.1 (dupIter 0 y 1 j).2.2 (dupP 0 y 1 p j))
        (rjBetR (dupIter 0 y 1 j).1 (dupIter 0 y 1 j).2.1 (dupIter 0 y 1 j).2.2 (dupP 0 y 1 p j)) (kC j - 1)).2 -
        RC (rjAlfaR (dupIter 0 y 1 j).1 (dupIter 0 y 1 j).2.1 (dupIter 0 y 1 j).2.2 (dupP 0 y 1 p j))
        (rjBetR (dupIter 0 y 1 j).1 (dupIter 0 y 1 j).2.1 (dupIter 0 y 1 j).2.2 (dupP 0 y 1 p j))| ≤ δ) :
    |rjAcc kC y p k - rjExact y p k| ≤ 4*δ*(1 - ((4:ℝ)^k)⁻¹) := by
  induction k with
  | zero => simp [rjAcc, rjExact]
  | succ k ih =>
    have ih := ih fun j hj => h j (by omega)
    simp only [rjAcc, rjExact]
    have := h k (by omega)
    have h4 : (0:ℝ) < ((4:ℝ)^k)⁻¹ := by positivity
    generalize rcVal _ _ = r at *
    generalize RC _ _ = c at *
    rw [show rjAcc kC y p k + 3 * ((4:ℝ)^k)⁻¹ * r - (rjExact y p k + 3 * ((4:ℝ)^k)⁻¹ * c) =
      (rjAcc kC y p k - rjExact y p k) + 3 * ((4:ℝ)^k)⁻¹ * (r - c) by ring]
    refine (abs_add_le _ _).trans ?_
    rw [abs_mul, abs_of_pos (by positivity : 0 < 3 * ((4:ℝ)^k)⁻¹)]
    calc |rjAcc kC y p k - rjExact y p k| + 3 * ((4:ℝ)^k)⁻¹ * |r - c| ≤ 4*δ*(1 - ((4:ℝ)^k)⁻¹) + 3 * ((4:ℝ)^k)⁻¹ * δ := by gcongr
      _ = 4*δ*(1 - ((4:ℝ)^(k+1))⁻¹) := by rw [pow_succ, mul_inv]; ring

/-- as `p → y` every degenerate term is exact -/
theorem terms_lim {y : ℝ} (hy : 0 < y) (j i : ℕ) : Tendsto (fun p => 
      rcVal (rcIter (rjAlfaR (dupIter 0 y 1 j).1 (dupIter 0 y 1 j).2.1 (dupIter 0 y 1 j).2.2 (dupP 0 y 1 p j))
        (rjBetR (dupIter 0 y 1 j).1 (dupIter 0 y 1 j).2.1 (dupIter 0 y 1 j).2.2 (dupP 0 y 1 p j)) i).1
        (rcIter (rjAlfaR (dupIter 0 y 1 j).1 (dupIter 0 y 1 j).2.1 (dupIter 0 y 1 j).2.2 (dupP 0 y 1 p j))
        (rjBetR (dupIter 0 y 1 j).1 (dupIter 0 y 1 j).2.1 (dupIter 0 y 1 j).2.2 (dupP 0 y 1 p j)) i).2 -
        RC (rjAlfaR (dupIter 0 y 1 j).1 (dupIter 0 y 1 j).2.1 (dupIter 0 y 1 j).2.2 (dupP 0 y 1 p j))
        (rjBetR (dupIter 0 y 1 j).1 (dupIter 0 y 1 j).2.1 (dupIter 0 y 1 j).2.2 (dupP 0 y 1 p j))) (𝓝 y) (𝓝 0) := by
  obtain ⟨a, b, c⟩ := dupIter_pos le_rfl hy one_pos j (x := 0)
  have hP : ∀ p, dupP 0 y 1 p j = (dupIter 0 y 1 j).1 + ((4:ℝ)^j)⁻¹*p := fun p => (cu_shape y p j).2.2
  have hPy : dupP 0 y 1 y j = (dupIter 0 y 1 j).2.1 := by rw [hP, (cu_shape y y j).1]
  have hcP : Continuous fun p => dupP 0 y 1 p j := by simp only [hP]; fun_prop
  have e := bet_sub_alfa (p := dupP 0 y 1 y j) a b.le c.le
  rw [hPy, sub_self, mul_zero, zero_mul] at e
  have hb : 0 < rjBetR (dupIter 0 y 1 j).1 (dupIter 0 y 1 j).2.1 (dupIter 0 y 1 j).2.2 (dupIter 0 y 1 j).2.1 := rjBetR_pos b
  refine rc_lim hb ?_ ?_ i
  · have : Continuous fun p => rjAlfaR (dupIter 0 y 1 j).1 (dupIter 0 y 1 j).2.1 (dupIter 0 y 1 j).2.2 (dupP 0 y 1 p j) := by
      unfold rjAlfaR; fun_prop
    have := this.tendsto y
    simp only [hPy] at this
    rwa [show rjBetR (dupIter 0 y 1 j).1 (dupIter 0 y 1 j).2.1 (dupIter 0 y 1 j).2.2 (dupIter 0 y 1 j).2.1 =
      rjAlfaR (dupIter 0 y 1 j).1 (dupIter 0 y 1 j).2.1 (dupIter 0 y 1 j).2.2 (dupIter 0 y 1 j).2.1 by linarith]
  · have : Continuous fun p => rjBetR (dupIter 0 y 1 j).1 (dupIter 0 y 1 j).2.1 (dupIter 0 y 1 j).2.2 (dupP 0 y 1 p j) := by
      unfold rjBetR; fun_prop
    have := this.tendsto y
    simp only [hPy] at this
    exact this

/-- Next to the premature stop of its first-kind loop the third-kind routine, called on a single pair `(n,m)` with `m<n<1`, is wrong by
at least `1/100`. -/
theorem premature_pi : ∃ y : ℝ, 1/10000 < y ∧ y < 1/1000 ∧ ∀ᶠ p in 𝓝[<] y, 1/10000 < p ∧ p < y ∧ ∃ P : ℝ,
    ellipticPiCarlson [(.fin (1-p), .fin (1-y))] = [.fin P] ∧ 1/100 ≤ P - ellPi (1-p) (1-y) := by
  obtain ⟨w, h1, h2, hx⟩ := crossing
  have hv := second_value h1 h2
  have hw : 0 < w := lt_of_lt_of_le (by norm_num) h1
  obtain ⟨⟨y1, y2⟩, -⟩ := xi_vals h1 h2
  have hy : 5269/50000000 ≤ w^4 := le_trans (by norm_num) (pow_le_pow_left₀ (by norm_num) h1 4)
  have hy0 : 0 < w^4 := by positivity
  have hKu : RF 0 (w^4) 1 ≤ 597/100 := (RF_mono le_rfl (by norm_num) one_pos le_rfl hy le_rfl).trans RF_upper
  refine ⟨w^4, by linarith, by linarith, ?_⟩
  have ht := fun p hp hpy k => tail_error (p := p) h1 h2 hp hpy k
  have rest : ∀ᶠ p in 𝓝 (w^4), ∀ j ∈ Finset.range 20, ∀ i ∈ Finset.range 20, 
      |rcVal (rcIter (rjAlfaR (dupIter 0 (w^4) 1 j).1 (dupIter 0 (w^4) 1 j).2.1 (dupIter 0 (w^4) 1 j).2.2 (dupP 0 (w^4) 1 p j))
        (rjBetR (dupIter 0 (w^4) 1 j).1 (dupIter 0 (w^4) 1 j).2.1 (dupIter 0 (w^4) 1 j).2.2 (dupP 0 (w^4) 1 p j)) i).1
        (rcIter (rjAlfaR (dupIter 0 (w^4) 1 j).1 (dupIter 0 (w^4) 1 j).2.1 (dupIter 0 (w^4) 1 j).2.2 (dupP 0 (w^4) 1 p j))
        (rjBetR (dupIter 0 (w^4) 1 j).1 (dupIter 0 (w^4) 1 j).2.1 (dupIter 0 (w^4) 1 j).2.2 (dupP 0 (w^4) 1 p j)) i).2 -
        RC (rjAlfaR (dupIter 0 (w^4) 1 j).1 (dupIter 0 (w^4) 1 j).2.1 (dupIter 0 (w^4) 1 j).2.2 (dupP 0 (w^4) 1 p j))
        (rjBetR (dupIter 0 (w^4) 1 j).1 (dupIter 0 (w^4) 1 j).2.1 (dupIter 0 (w^4) 1 j).2.2 (dupP 0 (w^4) 1 p j))| ≤ 1/1000 := by
    refine (Finset.eventually_all _).mpr fun j _ => (Finset.eventually_all _).mpr fun i _ => ?_
    have := (terms_lim hy0 j i).abs
    rw [abs_zero] at this
    exact (this.eventually (gt_mem_nhds (show (0:ℝ) < 1/1000 by norm_num))).mono fun p hp => hp.le
  have pos : ∀ᶠ p in 𝓝 (w^4), 1/10000 < p := lt_mem_nhds (by linarith)
  filter_upwards [nhdsWithin_le_nhds rest, nhdsWithin_le_nhds pos, self_mem_nhdsWithin] with p hr hp1 hpy
  have hpy' : p < w^4 := hpy
  refine ⟨hp1, hpy', ?_⟩
  have hp0 : 0 < p := by linarith
  obtain ⟨kF, kJ, kC, hF, hF2, ⟨hJ2, hJ20⟩, hC, -, hval⟩ := carlson_passes [(1-p, 1-w^4)] (by
    intro q hq; simp only [List.mem_singleton] at hq; rw [hq]; simp only; linarith) (1-p) (1-w^4) (by simp) (by linarith) (by linarith) (by linarith)
    (piOf [(.fin (1-p), .fin (1-w^4))]) (by
      have := piOf_map [(.fin (1-p), .fin (1-w^4))]
      simpa using this)
  have hpi := piOf_map [(.fin (1-p), .fin (1-w^4))]
  simp only [List.map_cons, List.map_nil] at hpi
  rw [hval, carlsonPi_fin kF kJ kC (by omega) (by omega) (fun j => (hC j).1) (1-p) (1-w^4) (by linarith) (by linarith)] at hpi
  refine ⟨_, hpi, ?_⟩
  simp only [sub_sub_cancel]
  rw [ellPi_eq (1-p) (1-w^4) (by linarith) (by linarith)]
  simp only [sub_sub_cancel]
  -- the first-kind part stops after two or three passes
  have hF3 : kF ≤ 3 := by
    by_contra hc
    obtain ⟨q, hq, hlt⟩ := hF.2.2.1 3 (by norm_num) (by omega)
    simp only [List.mem_singleton] at hq
    subst hq
    simp only [sub_sub_cancel, Nat.add_one_sub_one, Nat.reduceSub] at hlt
    rw [carlsonRF_fin 2 _ hy0.le, carlsonRF_fin 1 _ hy0.le, ← hx, Num.fin_sub, sub_self, Num.abs_fin, abs_zero, Num.lt_fin] at hlt
    norm_num at hlt
  have hRF : 602/100 ≤ rfVal (dupIter 0 (w^4) 1 (kF-1)).1 (dupIter 0 (w^4) 1 (kF-1)).2.1 (dupIter 0 (w^4) 1 (kF-1)).2.2 := by
    have : kF - 1 = 1 ∨ kF - 1 = 2 := by omega
    rcases this with h | h
    · rw [h]; exact hv
    · rw [h, ← hx]; exact hv
  have hacc := acc_close (y := w^4) (p := p) (δ := 1/1000) kC kJ fun j hj =>
    hr j (Finset.mem_range.mpr (by omega)) (kC j - 1) (Finset.mem_range.mpr (by have := (hC j).1; have := (hC j).2; omega))
  have hacc' : -(4/1000) ≤ rjAcc kC (w^4) p kJ - rjExact (w^4) p kJ := by
    have h0 : (0:ℝ) < ((4:ℝ)^kJ)⁻¹ := by positivity
    have := (abs_le.mp hacc).1
    linarith
  have htel := rj_telescope hy0 hp0 kJ
  obtain ⟨k, rfl⟩ : ∃ k, kJ = k + 2 := ⟨kJ - 2, by omega⟩
  have htail := ht p hp0 hpy'.le k
  simp only [show k + 2 - 1 = k + 1 by omega] at *
  rw [htel]
  clear htel ht hr hx hv hacc hval hpi hF rest
  generalize rjTail (dupIter 0 (w^4) 1 (k+1)).1 (dupIter 0 (w^4) 1 (k+1)).2.1 (dupIter 0 (w^4) 1 (k+1)).2.2 (dupP 0 (w^4) 1 p (k+1)) = T at *
  generalize RJ (dupIter 0 (w^4) 1 (k+2)).1 (dupIter 0 (w^4) 1 (k+2)).2.1 (dupIter 0 (w^4) 1 (k+2)).2.2 (dupP 0 (w^4) 1 p (k+2)) = J at *
  generalize ((4:ℝ)^(k+2))⁻¹ = c at *
  generalize rjAcc kC (w^4) p (k+2) = A at *
  generalize rjExact (w^4) p (k+2) = E at *
  generalize rfVal _ _ _ = F at *
  have hsum : -(60/1000) ≤ (A - E) + c*(T - J) := by linarith
  have h1p : 0 ≤ 1 - p := by linarith
  have h1p' : 1 - p ≤ 1 := by linarith
  have : -(60/1000) ≤ (1-p)*((A - E) + c*(T - J)) := by
    rcases le_total 0 ((A - E) + c*(T - J)) with h | h
    · exact le_trans (by norm_num) (mul_nonneg h1p h)
    · nlinarith
  nlinarith
end Wiz
