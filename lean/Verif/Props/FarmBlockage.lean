import Verif.Model.FarmBlockage
import Verif.Props.SolidAngle
import Verif.Props.WindFarmGrid

/-! # C115: blockage of a grid farm, and the wind-farm blockage scripts -/
namespace Wiz
open Classical Real Spec

/-- one cylinder seen from upstream -/
theorem one_up (pts : List (V3 ℝ)) (γ R : ℝ) (hR : 0 < R) (i : ℕ) (p : V3 ℝ) (hi : pts[i]? = some p) (hz : p.z < 0)
    (hne : √(p.x^2 + p.y^2) ≠ R) (hoff : ¬ (|√(p.x^2 + p.y^2) - R| < 1e-8 * R ∧ |p.z| < 1e-8 * R)) :
    ∃ (u : V3 ℝ) (e : ℝ), (vcTang pts (.fin γ) R 0)[i]? = some (V3.fin u) ∧
      u.z = γ/(4*π) * diskSolidAngle R (if √(p.x^2 + p.y^2) < 1e-7 * R then ⟨0, 0, p.z⟩ else p) + e ∧
      (√(p.x^2 + p.y^2) < 1e-7 * R → e = 0) ∧
      (1e-7 * R ≤ √(p.x^2 + p.y^2) → ∃ (kF kJ : ℕ) (kC : ℕ → ℕ) (r n m c : ℝ),
        (1 ≤ kF ∧ kF ≤ 20) ∧ (1 ≤ kJ ∧ kJ ≤ 20) ∧ (∀ j, 1 ≤ kC j ∧ kC j ≤ 20) ∧
        r = √(p.x^2 + p.y^2) ∧ n = 4*r*R/(R+r)^2 ∧ m = 4*r*R/((R+r)^2 + p.z^2) ∧
        carlsonPi kF kJ kC (.fin n) (.fin m) = .fin c ∧ |e| ≤ |γ|/(2*π) * |c - ellPi n m|) := by
  by_cases hax : √(p.x^2 + p.y^2) < 1e-7 * R
  · refine ⟨_, 0, C111_axis pts γ R hR i p hi hz.ne hax, ?_, fun _ => rfl, fun h => absurd hax (not_lt.mpr h)⟩
    simp only [if_pos hz, if_pos hax, add_zero]
  · obtain ⟨kF, kJ, kC, hF, hJ, hC, H⟩ := C111_batch pts γ R hR
    obtain ⟨r, n, m, c, u, e1, e2, e3, e4, e5, e6⟩ := H i p hi hz.ne (not_lt.mp hax) hne hoff
    rw [if_pos hz] at e6
    refine ⟨u, u.z - γ/(4*π) * diskSolidAngle R p, e5, ?_, fun h => absurd h hax, fun _ =>
      ⟨kF, kJ, kC, r, n, m, c, hF, hJ, hC, e1, e2, e3, e4, e6⟩⟩
    rw [if_neg hax]; ring

theorem sum_z_fin {ι : Type} (l : List ι) (f : ι → V3 Num) (g : ι → ℝ) (h : ∀ c ∈ l, (f c).z = .fin (g c)) :
    ((l.map f).sum).z = .fin ((l.map g).sum) := by
  induction l with
  | nil => rfl
  | cons c l ih =>
    simp only [List.map_cons, List.sum_cons, V3.add_z]
    rw [h c (by simp), ih fun c hc => h c (by simp [hc])]
    rfl

theorem cells_sum (nx nz : ℕ) (f : ℕ × ℕ → ℝ) :
    ((cells nx nz).map f).sum = ∑ i ∈ Finset.range nz, ∑ j ∈ Finset.range nx, f (i, j) := by
  induction nz with
  | zero => simp [cells]
  | succ n ih =>
    have e : cells nx (n + 1) = cells nx n ++ (List.range nx).map fun j => (n, j) := by
      simp [cells, List.range_succ, List.flatMap_append]
    rw [e, List.map_append, List.sum_append, ih, Finset.sum_range_succ, List.map_map]
    congr 1

theorem cells_mem (nx nz : ℕ) (q : ℕ × ℕ) (h : q ∈ cells nx nz) : q.1 < nz ∧ q.2 < nx := by
  simp only [cells, List.mem_flatMap, List.mem_map, List.mem_range] at h
  obtain ⟨i, hi, j, hj, rfl⟩ := h
  exact ⟨hi, hj⟩

theorem cellX_eq (nx : ℕ) (xS : ℝ) (i j : ℕ) : cellX nx xS (i, j) = ((j : ℝ) - ((nx / 2 : ℕ) : ℝ)) * xS := by
  unfold cellX
  have : Int.floor (((nx : ℤ) : ℝ) / 2) = ((nx / 2 : ℕ) : ℤ) := by
    have := Int.floor_div_natCast ((nx : ℤ) : ℝ) 2
    rw [Int.floor_intCast] at this
    simpa using this
  rw [this, Int.cast_sub, Int.cast_sub, Int.cast_add, Int.cast_natCast, Int.cast_natCast, Int.cast_one]
  ring

theorem cellZ_eq (zS : ℝ) (i j : ℕ) : cellZ zS (i, j) = (i : ℝ) * zS := by unfold cellZ; push_cast; ring

/-- the strength used by the grid farm -/
theorem gridStrength (ct u0 : ℝ) (hct : ct ≤ 1) :
    (-2 * .fin u0 * (.fin 0.5 * (1 - Num.sqrt (1 - .fin ct))) : Num) = .fin (-(u0 * (1 - √(1 - ct)))) := by
  have : (1 - Num.fin ct : Num) = .fin (1 - ct) := by simp
  rw [this, Num.sqrt_fin (by linarith)]
  have e : (-2 * .fin u0 * (.fin 0.5 * (1 - Num.fin √(1-ct))) : Num) = .fin (-2 * u0 * (0.5 * (1 - √(1 - ct)))) := by simp
  rw [e]; congr 1; ring

/-- `C115_farm` with the errors made unique -/
theorem farm_core (pts : List (V3 ℝ)) (R ct u0 : ℝ) (hR : 0 < R) (hct : ct ≤ 1) (nx nz : ℕ) (xS zS h : ℝ) (mirror : Bool)
    (k : ℕ) (p : V3 ℝ) (hk : pts[k]? = some p) (d : Bool → ℕ → ℕ → V3 ℝ) (r : Bool → ℕ → ℕ → ℝ)
    (hd : ∀ b i j, d b i j = p - ⟨((j:ℝ) - ((nx/2 : ℕ) : ℝ))*xS, if b then -h else h, (i:ℝ)*zS⟩)
    (hr : ∀ b i j, r b i j = √((d b i j).x^2 + (d b i j).y^2))
    (hup : ∀ b i j, (b = true → mirror = true) → i < nz → j < nx → (d b i j).z < 0 ∧ r b i j ≠ R ∧ ¬ (|r b i j - R| < 1e-8 * R ∧ |(d b i j).z| < 1e-8 * R)) :
    ∃ (u : List (V3 Num)) (w : ℝ) (e : Bool → ℕ → ℕ → ℝ),
      gridlayoutCTconst pts R (.fin ct) (.fin u0) nx xS nz (some zS) h mirror = .ok u ∧
      (u.getD k 0).z = .fin w ∧
      w = ∑ b ∈ (if mirror then {false, true} else {false} : Finset Bool), ∑ i ∈ Finset.range nz, ∑ j ∈ Finset.range nx,
        (-(u0 * (1 - √(1 - ct)))/(4*π) * diskSolidAngle R (if r b i j < 1e-7 * R then ⟨0, 0, (d b i j).z⟩ else d b i j) + e b i j) ∧
      ∀ b i j, (b = true → mirror = true) → i < nz → j < nx →
        0 < diskSolidAngle R (if r b i j < 1e-7 * R then ⟨0, 0, (d b i j).z⟩ else d b i j) ∧
        (u0 * (1 - √(1 - ct)) = 0 → e b i j = 0) ∧
        (u0 * (1 - √(1 - ct)) ≠ 0 → ∃ v : V3 ℝ, (vcTang (pts.map fun q => q - (⟨((j:ℝ) - ((nx/2 : ℕ) : ℝ))*xS, if b then -h else h, (i:ℝ)*zS⟩ : V3 ℝ))
            (.fin (-(u0 * (1 - √(1 - ct))))) R 0)[k]? = some (V3.fin v) ∧
          v.z = -(u0 * (1 - √(1 - ct)))/(4*π) * diskSolidAngle R (if r b i j < 1e-7 * R then ⟨0, 0, (d b i j).z⟩ else d b i j) + e b i j) ∧
        (r b i j < 1e-7 * R → e b i j = 0) ∧
        (1e-7 * R ≤ r b i j → ∃ (kF kJ : ℕ) (kC : ℕ → ℕ) (n m c : ℝ),
          (1 ≤ kF ∧ kF ≤ 20) ∧ (1 ≤ kJ ∧ kJ ≤ 20) ∧ (∀ j, 1 ≤ kC j ∧ kC j ≤ 20) ∧
          n = 4*r b i j*R/(R+r b i j)^2 ∧ m = 4*r b i j*R/((R+r b i j)^2 + (d b i j).z^2) ∧
          carlsonPi kF kJ kC (.fin n) (.fin m) = .fin c ∧
          |e b i j| ≤ |u0 * (1 - √(1 - ct))|/(2*π) * |c - ellPi n m|) := by
  set γ : ℝ := -(u0 * (1 - √(1 - ct))) with hγ
  have hγa : |u0 * (1 - √(1 - ct))| = |γ| := by rw [hγ, abs_neg]
  have hrel : ∀ (b : Bool) (i j : ℕ), (pts.map fun q => q - (⟨((j:ℝ) - ((nx/2 : ℕ) : ℝ))*xS, if b then -h else h, (i:ℝ)*zS⟩ : V3 ℝ))[k]? = some (d b i j) := by
    intro b i j; rw [List.getElem?_map, hk, Option.map_some, hd]
  have one : ∀ (b : Bool) (i j : ℕ), ∃ (v : V3 ℝ) (e : ℝ), (b = true → mirror = true) → i < nz → j < nx →
      (vcTang (pts.map fun q => q - (⟨((j:ℝ) - ((nx/2 : ℕ) : ℝ))*xS, if b then -h else h, (i:ℝ)*zS⟩ : V3 ℝ)) (.fin γ) R 0)[k]? = some (V3.fin v) ∧
      v.z = γ/(4*π) * diskSolidAngle R (if r b i j < 1e-7 * R then ⟨0, 0, (d b i j).z⟩ else d b i j) + e ∧
      (r b i j < 1e-7 * R → e = 0) ∧
      (1e-7 * R ≤ r b i j → ∃ (kF kJ : ℕ) (kC : ℕ → ℕ) (n m c : ℝ),
          (1 ≤ kF ∧ kF ≤ 20) ∧ (1 ≤ kJ ∧ kJ ≤ 20) ∧ (∀ j, 1 ≤ kC j ∧ kC j ≤ 20) ∧
          n = 4*r b i j*R/(R+r b i j)^2 ∧ m = 4*r b i j*R/((R+r b i j)^2 + (d b i j).z^2) ∧
          carlsonPi kF kJ kC (.fin n) (.fin m) = .fin c ∧ |e| ≤ |γ|/(2*π) * |c - ellPi n m|) := by
    intro b i j
    by_cases hij : (b = true → mirror = true) ∧ i < nz ∧ j < nx
    · obtain ⟨h1, h2, h3⟩ := hup b i j hij.1 hij.2.1 hij.2.2
      rw [hr] at h2 h3
      obtain ⟨v, e, a1, a2, a3, a4⟩ := one_up _ γ R hR k _ (hrel b i j) h1 h2 h3
      rw [← hr] at a2 a3 a4
      refine ⟨v, e, fun _ _ _ => ⟨a1, a2, a3, fun hax => ?_⟩⟩
      obtain ⟨kF, kJ, kC, r', n, m, c, b1, b2, b3, b4, b5, b6, b7, b8⟩ := a4 hax
      subst b4
      exact ⟨kF, kJ, kC, n, m, c, b1, b2, b3, b5, b6, b7, b8⟩
    · exact ⟨0, 0, fun a b c => absurd ⟨a, b, c⟩ hij⟩
  choose v e H using one
  have hom : ∀ b i j, (b = true → mirror = true) → i < nz → j < nx → 0 < diskSolidAngle R (if r b i j < 1e-7 * R then ⟨0, 0, (d b i j).z⟩ else d b i j) := by
    intro b i j hb hi hj
    have hz := (hup b i j hb hi hj).1
    split_ifs
    · exact (C111_solid_angle 0 R hR ⟨0, 0, (d b i j).z⟩ hz.ne).1
    · exact (C111_solid_angle 0 R hR (d b i j) hz.ne).1
  have hgrid := gridCT_eq pts R (.fin ct) (.fin u0) nx nz xS zS h mirror
  rw [gridStrength ct u0 hct, ← hγ] at hgrid
  have cyf : ∀ f : Num × ℝ → V3 Num, (([((Num.fin γ), R)].filter fun c => 0 < Num.abs c.1).map f).sum = if γ = 0 then 0 else f (.fin γ, R) := by
    intro f
    by_cases h0 : γ = 0
    · rw [if_pos h0, h0, List.filter_cons_of_neg (by simp)]; rfl
    · rw [if_neg h0, List.filter_cons_of_pos (by simpa using h0)]; simp
  -- the error, zero if there is no vorticity at all
  refine ⟨_, _, fun b i j => if γ = 0 then 0 else e b i j, hgrid, ?_, rfl, fun b i j hb hi hj => ⟨hom b i j hb hi hj, fun h0 => ?_, fun h0 => ?_, fun hax => ?_, fun hax => ?_⟩⟩
  · obtain ⟨-, s1⟩ := C50_tang_sum pts ((cells nx nz).map (cellGroup nx xS zS h (.fin γ) R) ++
      (if mirror then (cells nx nz).map (cellGroup nx xS zS (-h) (.fin γ) R) else [])) 0 false
    rw [s1 k]
    have part : ∀ b : Bool, (b = true → mirror = true) → ((((cells nx nz).map (cellGroup nx xS zS (if b then -h else h) (.fin γ) R)).map fun g =>
        ((g.cyls.filter fun c => 0 < Num.abs c.1).map fun c => (vcTang (pts.map fun p => p - g.pos) c.1 c.2 0).getD k 0).sum + (0 : V3 Num)).sum).z =
        .fin (∑ i ∈ Finset.range nz, ∑ j ∈ Finset.range nx,
        (γ/(4*π) * diskSolidAngle R (if r b i j < 1e-7 * R then ⟨0, 0, (d b i j).z⟩ else d b i j) + if γ = 0 then 0 else e b i j)) := by
      intro b hb
      rw [List.map_map, sum_z_fin _ _ (fun q => γ/(4*π) * diskSolidAngle R (if r b q.1 q.2 < 1e-7 * R then ⟨0, 0, (d b q.1 q.2).z⟩ else d b q.1 q.2)
        + if γ = 0 then 0 else e b q.1 q.2), cells_sum]
      intro q hq
      obtain ⟨hi, hj⟩ := cells_mem nx nz q hq
      obtain ⟨h1, h2, -, -⟩ := H b q.1 q.2 hb hi hj
      simp only [Function.comp_def, cellGroup, cyf, add_zero]
      by_cases h0 : γ = 0
      · rw [if_pos h0, if_pos h0, h0]; simp
      · rw [if_neg h0, if_neg h0, cellX_eq, cellZ_eq, List.getD_eq_getElem?_getD, h1, Option.getD_some, ← h2]; rfl
    cases mirror
    · simp only [Bool.false_eq_true, if_false, List.append_nil, Finset.sum_singleton]
      have := part false (by simp)
      simpa using this
    · simp only [if_true, List.map_append, List.sum_append, V3.add_z, Bool.false_eq_true, if_false]
      have p1 := part false (by simp)
      have p2 := part true (fun _ => rfl)
      simp only [Bool.false_eq_true, if_false, if_true] at p1 p2
      rw [p1, p2, Finset.sum_pair (by decide)]
      rfl
  · simp only; rw [if_pos (by rw [hγ, h0, neg_zero])]
  · have h0' : γ ≠ 0 := by rw [hγ]; exact neg_ne_zero.mpr h0
    simp only; rw [if_neg h0']
    exact ⟨v b i j, (H b i j hb hi hj).1, (H b i j hb hi hj).2.1⟩
  · simp only; split_ifs
    · rfl
    · exact (H b i j hb hi hj).2.2.1 hax
  · obtain ⟨kF, kJ, kC, n, m, c, b1, b2, b3, b5, b6, b7, b8⟩ := (H b i j hb hi hj).2.2.2 hax
    refine ⟨kF, kJ, kC, n, m, c, b1, b2, b3, b5, b6, b7, ?_⟩
    rw [hγa]
    simp only; split_ifs
    · rw [abs_zero]; have := pi_pos; positivity
    · exact b8

/-- C115: upstream of every row, the axial velocity computed by `windfarm_gridlayout_CTconst` is
`-U0 (1-√(1-CT))/4π · ΣΩ`, the sum over all the turbines (and images) of the solid angles under which the point sees their
rotors — each positive, so that every turbine and every image slows the flow down — besides, for the turbines whose axis does
not pass through the point, the truncation of the third-kind integral. -/
theorem C115_farm (pts : List (V3 ℝ)) (R ct u0 : ℝ) (hR : 0 < R) (hct : ct ≤ 1) (nx nz : ℕ) (xS zS h : ℝ) (mirror : Bool)
    (k : ℕ) (p : V3 ℝ) (hk : pts[k]? = some p) (d : Bool → ℕ → ℕ → V3 ℝ) (r : Bool → ℕ → ℕ → ℝ)
    (hd : ∀ b i j, d b i j = p - ⟨((j:ℝ) - ((nx/2 : ℕ) : ℝ))*xS, if b then -h else h, (i:ℝ)*zS⟩)
    (hr : ∀ b i j, r b i j = √((d b i j).x^2 + (d b i j).y^2))
    (hup : ∀ b i j, (b = true → mirror = true) → i < nz → j < nx → (d b i j).z < 0 ∧ r b i j ≠ R ∧ ¬ (|r b i j - R| < 1e-8 * R ∧ |(d b i j).z| < 1e-8 * R)) :
    ∃ (u : List (V3 Num)) (w : ℝ) (e : Bool → ℕ → ℕ → ℝ),
      gridlayoutCTconst pts R (.fin ct) (.fin u0) nx xS nz (some zS) h mirror = .ok u ∧
      (u.getD k 0).z = .fin w ∧
      w = ∑ b ∈ (if mirror then {false, true} else {false} : Finset Bool), ∑ i ∈ Finset.range nz, ∑ j ∈ Finset.range nx,
        (-(u0 * (1 - √(1 - ct)))/(4*π) * diskSolidAngle R (if r b i j < 1e-7 * R then ⟨0, 0, (d b i j).z⟩ else d b i j) + e b i j) ∧
      ∀ b i j, (b = true → mirror = true) → i < nz → j < nx →
        0 < diskSolidAngle R (if r b i j < 1e-7 * R then ⟨0, 0, (d b i j).z⟩ else d b i j) ∧
        (r b i j < 1e-7 * R → e b i j = 0) ∧
        (1e-7 * R ≤ r b i j → ∃ (kF kJ : ℕ) (kC : ℕ → ℕ) (n m c : ℝ),
          (1 ≤ kF ∧ kF ≤ 20) ∧ (1 ≤ kJ ∧ kJ ≤ 20) ∧ (∀ j, 1 ≤ kC j ∧ kC j ≤ 20) ∧
          n = 4*r b i j*R/(R+r b i j)^2 ∧ m = 4*r b i j*R/((R+r b i j)^2 + (d b i j).z^2) ∧
          carlsonPi kF kJ kC (.fin n) (.fin m) = .fin c ∧
          |e b i j| ≤ |u0 * (1 - √(1 - ct))|/(2*π) * |c - ellPi n m|) := by
  obtain ⟨u, w, e, h1, h2, h3, h4⟩ := farm_core pts R ct u0 hR hct nx nz xS zS h mirror k p hk d r hd hr hup
  exact ⟨u, w, e, h1, h2, h3, fun b i j hb hi hj => ⟨(h4 b i j hb hi hj).1, (h4 b i j hb hi hj).2.2.2⟩⟩

/-! ### The scripts -/

theorem blockRef_eval (ct R zT : ℝ) (hct : ct ≤ 1) : blockRef (.fin ct) R zT = .fin (1 - (1 - √(1-ct))/2 * (1 + zT/√(R^2+zT^2))) := by
  unfold blockRef
  have : (1 - Num.fin ct : Num) = .fin (1 - ct) := by simp
  rw [this, Num.sqrt_fin (by linarith)]
  have e : (1 - .fin 0.5 * (1 - Num.fin √(1-ct)) * (1 + .fin (zT / √(R^2 + zT^2))) : Num) = .fin (1 - 0.5 * (1 - √(1-ct)) * (1 + zT / √(R^2 + zT^2))) := by simp
  rw [e]; congr 1; ring

theorem ref_pos (ct R zT : ℝ) (hct : ct ≤ 1) (hR : 0 < R) : 0 < 1 - (1 - √(1-ct))/2 * (1 + zT/√(R^2+zT^2)) := by
  have hw : 0 < √(R^2+zT^2) := sqrt_pos.mpr (by positivity)
  have h1 : |zT| < √(R^2+zT^2) := by
    rw [lt_sqrt (abs_nonneg _), sq_abs]; nlinarith [sq_pos_of_pos hR]
  have h2 : zT/√(R^2+zT^2) < 1 := by rw [div_lt_one hw]; exact (le_abs_self _).trans_lt h1
  have h3 : -1 < zT/√(R^2+zT^2) := by rw [lt_div_iff₀ hw]; linarith [neg_abs_le zT]
  have h4 := sqrt_nonneg (1-ct)
  generalize zT/√(R^2+zT^2) = a at *
  nlinarith

theorem ref_omega (ct R zT : ℝ) (hR : 0 < R) (hz : zT < 0) :
    1 - (1 - √(1-ct))/2 * (1 + zT/√(R^2+zT^2)) = 1 - (1 - √(1-ct))/(4*π) * diskSolidAngle R ⟨0, 0, zT⟩ := by
  rw [solidAngle_axis R zT hR hz.ne, abs_of_neg hz, add_comm (R^2)]
  have := pi_pos
  have hw : 0 < √(zT^2 + R^2) := sqrt_pos.mpr (by positivity)
  field_simp
  ring

/-- C115 (reference): `u25D_th` is positive and is exactly what the farm routine returns for a single turbine without ground
on its axis, wherever the point: the plotted value is zero. -/
theorem C115_reference (zT R ct u0 S h : ℝ) (hR : 0 < R) (hct : ct ≤ 1) (hu : u0 ≠ 0) :
    (∃ v : ℝ, blockRef (.fin ct) R zT = .fin v ∧ 0 < v ∧ blockVel h zT R (.fin ct) (.fin u0) 1 S 1 h false = .ok (.fin v)) ∧
    blockSpacing none zT R (.fin ct) (.fin u0) 1 S 1 = .ok (.fin 0) := by
  have key : ∀ h, blockVel h zT R (.fin ct) (.fin u0) 1 S 1 h false = .ok (.fin (1 - (1 - √(1-ct))/2 * (1 + zT/√(R^2+zT^2)))) := by
    intro h
    have hg := gridCT_eq [⟨0, h, zT⟩] R (.fin ct) (.fin u0) 1 1 S S h false
    rw [gridStrength ct u0 hct] at hg
    unfold blockVel
    simp only [Nat.cast_one, Bool.false_eq_true, if_false, List.append_nil] at hg
    rw [hg]
    simp only
    obtain ⟨-, s1⟩ := C50_tang_sum [⟨0, h, zT⟩] ((cells 1 1).map (cellGroup 1 S S h (.fin (-(u0 * (1 - √(1 - ct))))) R)) 0 false
    rw [s1 0]
    have hc : cells 1 1 = [(0, 0)] := rfl
    have hz : ((vcTang [(⟨0, h, zT⟩ : V3 ℝ) - ⟨0, h, 0⟩] (.fin (-(u0 * (1 - √(1 - ct))))) R 0).getD 0 0).z
        = .fin (-(u0 * (1 - √(1 - ct)))/2 * (1 + zT/√(zT^2 + R^2))) := by
      rw [List.getD_eq_getElem?_getD, vcTang_axis _ _ R hR 0 ((⟨0, h, zT⟩ : V3 ℝ) - ⟨0, h, 0⟩) rfl (by simp; positivity)]
      simp
    have hcx : cellX 1 S (0, 0) = 0 := by rw [cellX_eq]; simp
    have hcz : cellZ S (0, 0) = 0 := by rw [cellZ_eq]; simp
    simp only [hc, List.map_cons, List.map_nil, cellGroup, hcx, hcz, List.sum_cons, List.sum_nil, add_zero, Bool.false_eq_true, if_false]
    have fin : ∀ a : ℝ, (Num.fin a + .fin u0) / .fin u0 = .fin ((a + u0)/u0) := by
      intro a; rw [Num.fin_add, Num.fin_div hu]
    by_cases h0 : -(u0 * (1 - √(1 - ct))) = 0
    · rw [h0, List.filter_cons_of_neg (by simp)]
      have hq : 1 - √(1-ct) = 0 := by
        rcases mul_eq_zero.mp (neg_eq_zero.mp h0) with h | h
        · exact absurd h hu
        · exact h
      simp only [List.filter_nil, List.map_nil, List.sum_nil, hq, zero_div, zero_mul, sub_zero]
      change Except.ok ((Num.fin 0 + .fin u0)/.fin u0) = _
      rw [fin]; simp [hu]
    · rw [List.filter_cons_of_pos (by simpa using abs_pos.mpr h0)]
      simp only [List.filter_nil, List.map_cons, List.map_nil, List.sum_cons, List.sum_nil, add_zero]
      rw [hz, fin]
      congr 2
      rw [add_comm (R^2)]
      field_simp
      ring
  refine ⟨⟨_, blockRef_eval ct R zT hct, ref_pos ct R zT hct hR, key h⟩, ?_⟩
  unfold blockSpacing
  simp only [Option.getD_none, Option.isSome_none, key 0, blockRef_eval ct R zT hct]
  have hp := ref_pos ct R zT hct hR
  rw [Num.fin_div hp.ne', div_self hp.ne']
  congr 1
  simp

/-- the turbines seen from the point of the scripts are either straight ahead or at least a diameter aside -/
theorem script_sight (S HH zT R : ℝ) (hR : 0 < R) (hz : zT < 0) (hS : 2*R ≤ S) (mirror : Bool) (hh : mirror = true → R ≤ HH) (nx : ℕ) (b : Bool) (i j : ℕ)
    (hb : b = true → mirror = true) (r : ℝ) (d : V3 ℝ) (hd : d = ⟨-(((j:ℝ) - ((nx/2 : ℕ) : ℝ))*S), if b then 2*HH else 0, zT - i*S⟩) (hr : r = √(d.x^2 + d.y^2)) :
    (d.z < 0 ∧ r ≠ R ∧ ¬ (|r - R| < 1e-8 * R ∧ |d.z| < 1e-8 * R)) ∧ ((b = false ∧ j = nx/2 → r = 0) ∧ (¬ (b = false ∧ j = nx/2) → 2*R ≤ r)) := by
  have hS0 : 0 ≤ S := by linarith
  have h1 : (b = false ∧ j = nx/2 → r = 0) ∧ (¬ (b = false ∧ j = nx/2) → 2*R ≤ r) := by
    constructor
    · rintro ⟨rfl, rfl⟩; rw [hr, hd]; simp
    · intro hn
      rw [hr]
      apply le_sqrt_of_sq_le
      cases b with
      | true =>
        have := hh (hb rfl)
        rw [hd]; simp only [if_true]
        nlinarith [sq_nonneg (-(((j:ℝ) - ((nx/2 : ℕ) : ℝ))*S))]
      | false =>
        have hj : j ≠ nx/2 := fun h => hn ⟨rfl, h⟩
        have h2 : 1 ≤ ((j:ℝ) - ((nx/2 : ℕ) : ℝ))^2 := by
          have h3 : (1:ℤ) ≤ ((j:ℤ) - ((nx/2 : ℕ) : ℤ))^2 := by
            have : (j:ℤ) - ((nx/2 : ℕ) : ℤ) ≠ 0 := by omega
            have := sq_pos_of_ne_zero this
            omega
          exact_mod_cast h3
        rw [hd]; simp only [Bool.false_eq_true, if_false]
        have h4 : (2*R)^2 ≤ S^2 := by apply pow_le_pow_left₀ (by positivity) hS
        nlinarith [sq_nonneg S]
  refine ⟨⟨?_, ?_, ?_⟩, h1⟩
  · rw [hd]; simp only
    have : 0 ≤ (i:ℝ)*S := by positivity
    linarith
  · by_cases hc : b = false ∧ j = nx/2
    · rw [h1.1 hc]; exact hR.ne
    · have := h1.2 hc; intro h; linarith
  · rintro ⟨a, -⟩
    rw [abs_lt] at a
    by_cases hc : b = false ∧ j = nx/2
    · rw [h1.1 hc] at a; have := a.1; norm_num at this; linarith
    · have := h1.2 hc; have := a.2; norm_num at this; linarith

theorem sides_mem (mirror : Bool) : ∀ b ∈ (if mirror then {false, true} else {false} : Finset Bool), b = true → mirror = true := by
  cases mirror <;> simp

/-- C115 (spacing studies): the value plotted for a grid of any size — without ground, or with ground at a hub height of at
least `R` — at spacings of at least one diameter, `zTarget<0` upstream, is exactly the blockage of all the rotors and images
other than the one straight behind the point, in percent of the reference: `u_th·v/100 + (1-√(1-CT))/4π·Ω₀` is the sum of the
solid angles times `(1-√(1-CT))/4π`, besides the truncation of the third-kind integral for the rotors that are not on the axis of the
point. -/
theorem C115_spacing (ground : Option ℝ) (zT R ct u0 S : ℝ) (nx nz : ℕ) (hR : 0 < R) (hct : ct ≤ 1) (hu : u0 ≠ 0) (hz : zT < 0)
    (hS : 2*R ≤ S) (hg : ∀ HH, ground = some HH → R ≤ HH) :
    ∃ (v uth : ℝ) (e : Bool → ℕ → ℕ → ℝ), blockSpacing ground zT R (.fin ct) (.fin u0) nx S nz = .ok (.fin v) ∧
      blockRef (.fin ct) R zT = .fin uth ∧ 0 < uth ∧ uth = 1 - (1 - √(1-ct))/(4*π) * diskSolidAngle R ⟨0, 0, zT⟩ ∧
      uth * v/100 + (1 - √(1-ct))/(4*π) * diskSolidAngle R ⟨0, 0, zT⟩ =
        ∑ b ∈ (if ground.isSome then {false, true} else {false} : Finset Bool), ∑ i ∈ Finset.range nz, ∑ j ∈ Finset.range nx,
        ((1 - √(1 - ct))/(4*π) * diskSolidAngle R ⟨-(((j:ℝ) - ((nx/2 : ℕ) : ℝ))*S), if b then 2*ground.getD 0 else 0, zT - i*S⟩ + e b i j) ∧
      ∀ b i j, (b = true → ground.isSome = true) → i < nz → j < nx →
        0 < diskSolidAngle R ⟨-(((j:ℝ) - ((nx/2 : ℕ) : ℝ))*S), if b then 2*ground.getD 0 else 0, zT - i*S⟩ ∧
        (b = false ∧ j = nx/2 → e b i j = 0) ∧
        (¬ (b = false ∧ j = nx/2) → ∃ (kF kJ : ℕ) (kC : ℕ → ℕ) (r n m c : ℝ),
          (1 ≤ kF ∧ kF ≤ 20) ∧ (1 ≤ kJ ∧ kJ ≤ 20) ∧ (∀ j, 1 ≤ kC j ∧ kC j ≤ 20) ∧
          r = √((((j:ℝ) - ((nx/2 : ℕ) : ℝ))*S)^2 + (if b then 2*ground.getD 0 else 0)^2) ∧
          n = 4*r*R/(R+r)^2 ∧ m = 4*r*R/((R+r)^2 + (zT - i*S)^2) ∧
          carlsonPi kF kJ kC (.fin n) (.fin m) = .fin c ∧
          |e b i j| ≤ |1 - √(1 - ct)|/(2*π) * |c - ellPi n m|) := by
  set HH := ground.getD 0 with hHH
  set mirror := ground.isSome with hmi
  have hh : mirror = true → R ≤ HH := by
    intro h; obtain ⟨a, ha⟩ := Option.isSome_iff_exists.mp h
    rw [hHH, ha]; exact hg a ha
  have hd : ∀ (b : Bool) (i j : ℕ), (⟨-(((j:ℝ) - ((nx/2 : ℕ) : ℝ))*S), if b then 2*HH else 0, zT - i*S⟩ : V3 ℝ) =
      (⟨0, HH, zT⟩ : V3 ℝ) - ⟨((j:ℝ) - ((nx/2 : ℕ) : ℝ))*S, if b then -HH else HH, (i:ℝ)*S⟩ := by
    intro b i j
    ext
    · simp
    · cases b <;> simp; ring
    · simp
  obtain ⟨u, w, e, h1, h2, h3, h4⟩ := C115_farm [⟨0, HH, zT⟩] R ct u0 hR hct nx nz S S HH mirror 0 ⟨0, HH, zT⟩ rfl
    (fun b i j => ⟨-(((j:ℝ) - ((nx/2 : ℕ) : ℝ))*S), if b then 2*HH else 0, zT - i*S⟩)
    (fun b i j => √((-(((j:ℝ) - ((nx/2 : ℕ) : ℝ))*S))^2 + (if b then 2*HH else 0)^2)) hd (fun b i j => rfl)
    (fun b i j hb hi hj => (script_sight S HH zT R hR hz hS mirror hh nx b i j hb _ _ rfl rfl).1)
  have hp := ref_pos ct R zT hct hR
  have hom := ref_omega ct R zT hR hz
  have sight := fun b i j hb => (script_sight S HH zT R hR hz hS mirror hh nx b i j hb _ _ rfl rfl).2
  simp only at sight
  -- the point of the solid angle
  have hpt : ∀ (b : Bool) (i j : ℕ), (b = true → mirror = true) →
      (if √((-(((j:ℝ) - ((nx/2 : ℕ) : ℝ))*S))^2 + (if b then 2*HH else 0)^2) < 1e-7 * R then (⟨0, 0, zT - i*S⟩ : V3 ℝ)
        else ⟨-(((j:ℝ) - ((nx/2 : ℕ) : ℝ))*S), if b then 2*HH else 0, zT - i*S⟩) =
        ⟨-(((j:ℝ) - ((nx/2 : ℕ) : ℝ))*S), if b then 2*HH else 0, zT - i*S⟩ := by
    intro b i j hb
    by_cases hc : b = false ∧ j = nx/2
    · obtain ⟨rfl, rfl⟩ := hc; simp
    · rw [if_neg]
      have := (sight b i j hb).2 hc
      exact not_lt.mpr (le_trans (by norm_num; linarith) this)
  have hre := blockRef_eval ct R zT hct
  generalize 1 - (1 - √(1-ct))/2 * (1 + zT/√(R^2+zT^2)) = U at hp hom hre
  refine ⟨(1 - (w + u0)/u0/U) * 100, U, fun b i j => -(e b i j)/u0, ?_, hre, hp, hom, ?_, ?_⟩
  · unfold blockSpacing blockVel
    rw [← hHH, ← hmi, h1]
    simp only [h2, hre, Num.fin_add, Num.fin_div hu, Num.fin_div hp.ne']
    have : (1 - Num.fin ((w + u0)/u0/U)) * 100 = Num.fin ((1 - (w + u0)/u0/U) * 100) := by
      generalize (w + u0)/u0/U = x
      simp
    rw [this]
  · have e0 : U * ((1 - (w + u0)/u0/U) * 100)/100 = U - (w + u0)/u0 := by
      generalize (w + u0)/u0 = x
      field_simp
    rw [e0, hom]
    have : (w + u0)/u0 = 1 + w/u0 := by field_simp; ring
    rw [this, h3]
    have fix := sides_mem mirror
    rw [Finset.sum_div]
    have : ∀ A B : ℝ, 1 - A - (1 + B) + A = -B := by intros; ring
    rw [this, ← Finset.sum_neg_distrib]
    apply Finset.sum_congr rfl
    intro b hb
    rw [Finset.sum_div, ← Finset.sum_neg_distrib]
    apply Finset.sum_congr rfl
    intro i _
    rw [Finset.sum_div, ← Finset.sum_neg_distrib]
    apply Finset.sum_congr rfl
    intro j _
    rw [hpt b i j (fix b hb)]
    have := pi_pos
    field_simp
    ring
  · intro b i j hb hi hj
    obtain ⟨a1, a2, a3⟩ := h4 b i j hb hi hj
    rw [hpt b i j hb] at a1
    refine ⟨a1, fun hc => ?_, fun hc => ?_⟩
    · have := (sight b i j hb).1 hc
      beta_reduce
      rw [a2 (by rw [this]; positivity)]; simp
    · have h5 := (sight b i j hb).2 hc
      obtain ⟨kF, kJ, kC, n, m, c, b1, b2, b3, b4, b5, b6, b7⟩ := a3 (le_trans (by norm_num; linarith) h5)
      refine ⟨kF, kJ, kC, _, n, m, c, b1, b2, b3, rfl, ?_, ?_, b6, ?_⟩
      · rw [b4, neg_sq]
      · rw [b5, neg_sq]
      · rw [abs_div, abs_neg, div_le_iff₀ (abs_pos.mpr hu)]
        rw [abs_mul] at b7
        refine b7.trans (le_of_eq ?_)
        ring

/-- C115 (ground effect): the value plotted, `(1-(u_th-(no ground - ground))/u_th)·100`, is exactly `100/u_th` times the
blockage `(1-√(1-CT))/4π·ΣΩ` of the images of the turbines: the ground always slows the flow down upstream, besides the
truncation of the third-kind integral. -/
theorem C115_ground (HH zT R ct u0 S : ℝ) (nx nz : ℕ) (hR : 0 < R) (hct : ct ≤ 1) (hu : u0 ≠ 0) (hz : zT < 0)
    (hS : 2*R ≤ S) (hh : R ≤ HH) :
    ∃ (v uth : ℝ) (e : ℕ → ℕ → ℝ), blockGround HH zT R (.fin ct) (.fin u0) nx S nz = .ok (.fin v) ∧
      blockRef (.fin ct) R zT = .fin uth ∧ 0 < uth ∧
      uth * v/100 = ∑ i ∈ Finset.range nz, ∑ j ∈ Finset.range nx,
        ((1 - √(1 - ct))/(4*π) * diskSolidAngle R ⟨-(((j:ℝ) - ((nx/2 : ℕ) : ℝ))*S), 2*HH, zT - i*S⟩ + e i j) ∧
      ∀ i j, i < nz → j < nx →
        0 < diskSolidAngle R ⟨-(((j:ℝ) - ((nx/2 : ℕ) : ℝ))*S), 2*HH, zT - i*S⟩ ∧
        ∃ (kF kJ : ℕ) (kC : ℕ → ℕ) (r n m c : ℝ),
          (1 ≤ kF ∧ kF ≤ 20) ∧ (1 ≤ kJ ∧ kJ ≤ 20) ∧ (∀ j, 1 ≤ kC j ∧ kC j ≤ 20) ∧
          r = √((((j:ℝ) - ((nx/2 : ℕ) : ℝ))*S)^2 + (2*HH)^2) ∧
          n = 4*r*R/(R+r)^2 ∧ m = 4*r*R/((R+r)^2 + (zT - i*S)^2) ∧
          carlsonPi kF kJ kC (.fin n) (.fin m) = .fin c ∧
          |e i j| ≤ |1 - √(1 - ct)|/(2*π) * |c - ellPi n m| := by
  have hd : ∀ (b : Bool) (i j : ℕ), (⟨-(((j:ℝ) - ((nx/2 : ℕ) : ℝ))*S), if b then 2*HH else 0, zT - i*S⟩ : V3 ℝ) =
      (⟨0, HH, zT⟩ : V3 ℝ) - ⟨((j:ℝ) - ((nx/2 : ℕ) : ℝ))*S, if b then -HH else HH, (i:ℝ)*S⟩ := by
    intro b i j
    ext
    · simp
    · cases b <;> simp; ring
    · simp
  have core := fun mirror => farm_core [⟨0, HH, zT⟩] R ct u0 hR hct nx nz S S HH mirror 0 ⟨0, HH, zT⟩ rfl
    (fun b i j => ⟨-(((j:ℝ) - ((nx/2 : ℕ) : ℝ))*S), if b then 2*HH else 0, zT - i*S⟩)
    (fun b i j => √((-(((j:ℝ) - ((nx/2 : ℕ) : ℝ))*S))^2 + (if b then 2*HH else 0)^2)) hd (fun b i j => rfl)
    (fun b i j hb hi hj => (script_sight S HH zT R hR hz hS mirror (fun _ => hh) nx b i j hb _ _ rfl rfl).1)
  obtain ⟨u, w, e, h1, h2, h3, h4⟩ := core true
  obtain ⟨u', w', e', h1', h2', h3', h4'⟩ := core false
  clear core hd
  have hp := ref_pos ct R zT hct hR
  have hre := blockRef_eval ct R zT hct
  generalize 1 - (1 - √(1-ct))/2 * (1 + zT/√(R^2+zT^2)) = U at hp hre
  -- the errors of the turbines themselves cancel
  have same : ∀ i j, i < nz → j < nx → e false i j = e' false i j := by
    intro i j hi hj
    obtain ⟨-, a1, a2, -⟩ := h4 false i j (by simp) hi hj
    obtain ⟨-, b1, b2, -⟩ := h4' false i j (by simp) hi hj
    by_cases h0 : u0 * (1 - √(1 - ct)) = 0
    · rw [a1 h0, b1 h0]
    · obtain ⟨v, c1, c2⟩ := a2 h0
      obtain ⟨v', d1, d2⟩ := b2 h0
      rw [c1] at d1
      have := congrArg V3.z (Option.some.inj d1)
      have : v.z = v'.z := Num.fin.inj this
      rw [c2, d2] at this
      exact add_left_cancel this
  have sight := fun i j => (script_sight S HH zT R hR hz hS true (fun _ => hh) nx true i j (fun _ => rfl) _ _ rfl rfl).2.2 (by simp)
  simp only [if_true] at sight
  have hlong : ∀ (i j : ℕ), ¬ √((-(((j:ℝ) - ((nx/2 : ℕ) : ℝ))*S))^2 + (2*HH)^2) < 1e-7 * R :=
    fun i j => not_lt.mpr (le_trans (by norm_num; linarith) (sight i j))
  have hw : w' - w = -∑ i ∈ Finset.range nz, ∑ j ∈ Finset.range nx,
        (-(u0 * (1 - √(1 - ct)))/(4*π) * diskSolidAngle R ⟨-(((j:ℝ) - ((nx/2 : ℕ) : ℝ))*S), 2*HH, zT - i*S⟩ + e true i j) := by
    rw [h3, h3']
    simp only [if_true, Bool.false_eq_true, if_false, Finset.sum_singleton]
    rw [Finset.sum_pair (by decide)]
    have : ∀ A B C D : ℝ, A = B → C = D → B - (A + C) = -D := by intros; subst_vars; ring
    apply this
    · apply Finset.sum_congr rfl; intro i hi
      apply Finset.sum_congr rfl; intro j hj
      rw [same i j (Finset.mem_range.mp hi) (Finset.mem_range.mp hj)]
      simp
    · apply Finset.sum_congr rfl; intro i hi
      apply Finset.sum_congr rfl; intro j hj
      simp only [if_true]
      rw [if_neg (hlong i j)]
  refine ⟨(1 - (U - ((w'+u0)/u0 - (w+u0)/u0))/U) * 100, U, fun i j => -(e true i j)/u0, ?_, hre, hp, ?_, ?_⟩
  · unfold blockGround blockVel
    rw [h1, h1']
    simp only [h2, h2', hre, Num.fin_add, Num.fin_sub, Num.fin_div hu, Num.fin_div hp.ne']
    generalize (U - ((w'+u0)/u0 - (w+u0)/u0))/U = x
    have : (1 - Num.fin x) * 100 = Num.fin ((1 - x) * 100) := by simp
    rw [this]
  · have e0 : U * ((1 - (U - ((w'+u0)/u0 - (w+u0)/u0))/U) * 100)/100 = (w' - w)/u0 := by
      have : (w'+u0)/u0 - (w+u0)/u0 = (w' - w)/u0 := by field_simp; ring
      rw [this]
      generalize (w'-w)/u0 = x
      field_simp
      ring
    rw [e0, hw, neg_div, Finset.sum_div, ← Finset.sum_neg_distrib]
    apply Finset.sum_congr rfl; intro i _
    rw [Finset.sum_div, ← Finset.sum_neg_distrib]
    apply Finset.sum_congr rfl; intro j _
    have := pi_pos
    field_simp
    ring
  · intro i j hi hj
    obtain ⟨a1, -, -, -, a3⟩ := h4 true i j (fun _ => rfl) hi hj
    simp only [if_true] at a1 a3
    rw [if_neg (hlong i j)] at a1
    refine ⟨a1, ?_⟩
    obtain ⟨kF, kJ, kC, n, m, c, b1, b2, b3, b4, b5, b6, b7⟩ := a3 (not_lt.mp (hlong i j))
    refine ⟨kF, kJ, kC, _, n, m, c, b1, b2, b3, rfl, ?_, ?_, b6, ?_⟩
    · rw [b4, neg_sq]
    · rw [b5, neg_sq]
    · rw [abs_div, abs_neg, div_le_iff₀ (abs_pos.mpr hu)]
      rw [abs_mul] at b7
      refine b7.trans (le_of_eq ?_)
      ring

/-- non-vacuity: the parameters of the scripts (`R=50`, `U0=7`, `zTarget=-5R`, `CT=0.95`, spacing `6D`, hub height `1.5R`). -/
example : ∃ v : ℝ, blockGround 75 (-250) 50 (.fin 0.95) (.fin 7) (11:ℕ) 600 (11:ℕ) = .ok (.fin v) := by
  obtain ⟨v, -, -, h, -⟩ := C115_ground 75 (-250) 50 0.95 7 600 11 11 (by norm_num) (by norm_num) (by norm_num) (by norm_num) (by norm_num) (by norm_num)
  exact ⟨v, h⟩

example : ∃ v : ℝ, blockSpacing (some 75) (-250) 50 (.fin 0.95) (.fin 7) (5:ℕ) 100 (5:ℕ) = .ok (.fin v) := by
  obtain ⟨v, -, -, h, -⟩ := C115_spacing (some 75) (-250) 50 0.95 7 100 5 5 (by norm_num) (by norm_num) (by norm_num) (by norm_num) (by norm_num)
    (by rintro HH h; cases h; norm_num)
  exact ⟨v, h⟩

end Wiz
