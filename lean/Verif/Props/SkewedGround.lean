import Verif.Props.VortexCylinderSkewed
import Verif.Props.VortexCylinderLongi

/-!
# Property C68: systems of skewed cylinders and their mirror images; Cartesian forms of C65
-/
namespace Wiz
open Classical Set Filter Topology

/-- the polar coordinates of a point describe that point -/
theorem polarPoint_toPolarPt (p : V3 ℝ) : Spec.polarPoint (toPolarPt p).r (toPolarPt p).psi (toPolarPt p).z = p := by
  unfold Spec.polarPoint toPolarPt
  ext
  · exact r_cos _ _
  · exact r_sin _ _
  · rfl

/-- C65 (Cartesian interface): `svc_tang_u`, `svc_longi_u` at control point number `i`. -/
theorem C65_cartesian (pts : List (V3 ℝ)) (γ R m : ℝ) (hR : 0 < R) (n i : ℕ) (P : V3 ℝ) (hi : pts[i]? = some P)
    (hoff : ∀ θ s, 0 ≤ s → P ≠ Spec.wakePoint R m θ s) :
    (svcTang pts (.fin γ) R (.fin m) (n+1) false)[i]? =
      some (V3.fin (Spec.turnRuleV (Real.pi/2) n (Spec.tangGenerator γ R m P))) ∧
    (svcLongi pts (.fin γ) R (.fin m) (n+1) false)[i]? =
      some (V3.fin (Spec.turnRuleV (Real.pi/((n:ℝ)+1)) n (Spec.longiGenerator γ R m P))) := by
  unfold svcTang svcLongi
  simp only [List.getElem?_map, hi, Option.map_some]
  rw [svcTang_cart _ γ R m n (by rw [polarPoint_toPolarPt]; exact hoff),
    svcLongi_cart _ γ R m n hR (by rw [polarPoint_toPolarPt]; exact hoff), polarPoint_toPolarPt]
  exact ⟨rfl, rfl⟩

example : ([⟨1*2, 0, 2⟩] : List (V3 ℝ))[0]? = some ⟨1*2, 0, 2⟩ ∧ Spec.OffWake 1 1 ⟨1*2, 0, 2⟩ :=
  ⟨rfl, offWake_axis 1 1 2 one_pos⟩

/-- the inner loop adds the contributions of the skewed cylinders with `|gamma|>0` -/
theorem addSkewCyls_spec (kernel : List (V3 ℝ) → Num → ℝ → Num → List (V3 Num)) (rel : List (V3 ℝ))
    (hk : ∀ g R m, (kernel rel g R m).length = rel.length) (cyls : List (Num × ℝ × Num)) (u : List (V3 Num))
    (hu : u.length = rel.length) :
    (addSkewCyls kernel rel cyls u).length = rel.length ∧
    ∀ i, (addSkewCyls kernel rel cyls u).getD i 0 = u.getD i 0 +
      ((cyls.filter fun c => 0 < Num.abs c.1).map fun c => (kernel rel c.1 c.2.1 c.2.2).getD i 0).sum := by
  unfold addSkewCyls
  induction cyls generalizing u with
  | nil => simp [hu]
  | cons c cs ih =>
    simp only [List.foldl_cons]
    by_cases hc : 0 < Num.abs c.1
    · simp only [if_pos hc]
      have hl : u.length = (kernel rel c.1 c.2.1 c.2.2).length := by rw [hu, hk]
      obtain ⟨i1, i2⟩ := ih (addFields u (kernel rel c.1 c.2.1 c.2.2)) (by rw [length_addFields _ _ hl, hu])
      refine ⟨i1, fun i => ?_⟩
      rw [i2, getD_addFields _ _ hl, List.filter_cons_of_pos (by simpa using hc), List.map_cons, List.sum_cons, add_assoc]
    · simp only [if_neg hc]
      obtain ⟨i1, i2⟩ := ih u hu
      refine ⟨i1, fun i => ?_⟩
      rw [i2, List.filter_cons_of_neg (by simpa using hc)]

/-- loop over groups, generic -/
theorem foldl_fields_spec {G : Type} (step : List (V3 Num) → G → List (V3 Num)) (contrib : G → ℕ → V3 Num) (n : ℕ)
    (h : ∀ u g, u.length = n → (step u g).length = n ∧ ∀ i, (step u g).getD i 0 = u.getD i 0 + contrib g i)
    (groups : List G) (u : List (V3 Num)) (hu : u.length = n) :
    (groups.foldl step u).length = n ∧
      ∀ i, (groups.foldl step u).getD i 0 = u.getD i 0 + (groups.map fun g => contrib g i).sum := by
  induction groups generalizing u with
  | nil => simp [hu]
  | cons g gs ih =>
    obtain ⟨h1, h2⟩ := h u g hu
    obtain ⟨i1, i2⟩ := ih (step u g) h1
    refine ⟨i1, fun i => ?_⟩
    rw [List.foldl_cons, i2, h2, List.map_cons, List.sum_cons, add_assoc]

/-- C68 (tangential): `svcs_tang_u` at each control point is the sum, over all groups and all skewed cylinders of
nonzero strength, of the velocity of that cylinder translated to the group's position, plus with `Ground` that of
the same cylinder translated to the mirrored position `(x,-y,z)`. -/
theorem C68_tang_sum (pts : List (V3 ℝ)) (groups : List SkewGroup) (ntheta : ℕ) (Ground : Bool) :
    (svcsTang pts groups ntheta Ground).length = pts.length ∧
    ∀ i, (svcsTang pts groups ntheta Ground).getD i 0 =
      (groups.map fun g =>
        ((g.cyls.filter fun c => 0 < Num.abs c.1).map fun c =>
          (svcTang (pts.map fun p => p - g.pos) c.1 c.2.1 c.2.2 ntheta false).getD i 0).sum +
        (if Ground then ((g.cyls.filter fun c => 0 < Num.abs c.1).map fun c =>
          (svcTang (pts.map fun p => p - ⟨g.pos.x, -g.pos.y, g.pos.z⟩) c.1 c.2.1 c.2.2 ntheta false).getD i 0).sum else 0)).sum := by
  have hm : ∀ g : SkewGroup, mirrorPts pts g.pos = pts.map fun p => p - ⟨g.pos.x, -g.pos.y, g.pos.z⟩ := by
    intro g; unfold mirrorPts
    apply List.map_congr_left; intro p _
    ext <;> simp; ring
  have key := foldl_fields_spec (fun u (g : SkewGroup) =>
    let u := addSkewCyls (fun q ga R m => svcTang q ga R m ntheta false) (relPts pts g.pos) g.cyls u
    if Ground then addSkewCyls (fun q ga R m => svcTang q ga R m ntheta false) (mirrorPts pts g.pos) g.cyls u else u)
    (fun g i => ((g.cyls.filter fun c => 0 < Num.abs c.1).map fun c =>
          (svcTang (pts.map fun p => p - g.pos) c.1 c.2.1 c.2.2 ntheta false).getD i 0).sum +
        (if Ground then ((g.cyls.filter fun c => 0 < Num.abs c.1).map fun c =>
          (svcTang (pts.map fun p => p - ⟨g.pos.x, -g.pos.y, g.pos.z⟩) c.1 c.2.1 c.2.2 ntheta false).getD i 0).sum else 0)) pts.length (by
      intro u g hu
      obtain ⟨a1, a2⟩ := addSkewCyls_spec (fun q ga R m => svcTang q ga R m ntheta false) (relPts pts g.pos)
        (fun _ _ _ => by simp [svcTang]) g.cyls u (by rw [hu]; simp [relPts])
      rw [show (relPts pts g.pos).length = pts.length by simp [relPts]] at a1
      cases Ground
      · exact ⟨a1, fun i => by simp only [a2 i, Bool.false_eq_true, if_false, add_zero]; rfl⟩
      · obtain ⟨b1, b2⟩ := addSkewCyls_spec (fun q ga R m => svcTang q ga R m ntheta false) (mirrorPts pts g.pos)
          (fun _ _ _ => by simp [svcTang]) g.cyls _ (by rw [a1]; simp [mirrorPts])
        refine ⟨by simpa [mirrorPts] using b1, fun i => ?_⟩
        simp only [if_true]
        rw [b2 i, a2 i, hm, add_assoc]; rfl) groups (pts.map fun _ => 0) (by simp)
  refine ⟨key.1, fun i => ?_⟩
  have := key.2 i
  rw [getD_zeros, zero_add] at this
  exact this

/-- C68 (longitudinal, the part that holds): `svcs_longi_u` without `Ground` is the sum over all groups and cylinders;
with `Ground` every contribution is simply counted twice. -/
theorem C68_longi_partial (pts : List (V3 ℝ)) (groups : List SkewGroup) (ntheta : ℕ) (Ground : Bool) :
    (svcsLongi pts groups ntheta Ground).length = pts.length ∧
    ∀ i, (svcsLongi pts groups ntheta Ground).getD i 0 =
      (groups.map fun g =>
        ((g.cyls.filter fun c => 0 < Num.abs c.1).map fun c =>
          (svcLongi (pts.map fun p => p - g.pos) c.1 c.2.1 c.2.2 ntheta false).getD i 0).sum +
        (if Ground then ((g.cyls.filter fun c => 0 < Num.abs c.1).map fun c =>
          (svcLongi (pts.map fun p => p - g.pos) c.1 c.2.1 c.2.2 ntheta false).getD i 0).sum else 0)).sum := by
  have key := foldl_fields_spec (fun u (g : SkewGroup) =>
    let u := addSkewCyls (fun q ga R m => svcLongi q ga R m ntheta false) (relPts pts g.pos) g.cyls u
    if Ground then addSkewCyls (fun q ga R m => svcLongi q ga R m ntheta false) (relPts pts g.pos) g.cyls u else u)
    (fun g i => ((g.cyls.filter fun c => 0 < Num.abs c.1).map fun c =>
          (svcLongi (pts.map fun p => p - g.pos) c.1 c.2.1 c.2.2 ntheta false).getD i 0).sum +
        (if Ground then ((g.cyls.filter fun c => 0 < Num.abs c.1).map fun c =>
          (svcLongi (pts.map fun p => p - g.pos) c.1 c.2.1 c.2.2 ntheta false).getD i 0).sum else 0)) pts.length (by
      intro u g hu
      obtain ⟨a1, a2⟩ := addSkewCyls_spec (fun q ga R m => svcLongi q ga R m ntheta false) (relPts pts g.pos)
        (fun _ _ _ => by simp [svcLongi]) g.cyls u (by rw [hu]; simp [relPts])
      rw [show (relPts pts g.pos).length = pts.length by simp [relPts]] at a1
      cases Ground
      · exact ⟨a1, fun i => by simp only [a2 i, Bool.false_eq_true, if_false, add_zero]; rfl⟩
      · obtain ⟨b1, b2⟩ := addSkewCyls_spec (fun q ga R m => svcLongi q ga R m ntheta false) (relPts pts g.pos)
          (fun _ _ _ => by simp [svcLongi]) g.cyls _ (by rw [a1]; simp [relPts])
        refine ⟨by simpa [relPts] using b1, fun i => ?_⟩
        simp only [if_true]
        rw [b2 i, a2 i, add_assoc]; rfl) groups (pts.map fun _ => 0) (by simp)
  refine ⟨key.1, fun i => ?_⟩
  have := key.2 i
  rw [getD_zeros, zero_add] at this
  exact this

/-- the straight wake of radius 1 with two quadrature points, seen from `(0,y,0)`, `y≠1`: a single line vortex at `(0,1)` -/
theorem svcLongi_two (y : ℝ) (hy : y = 0 ∨ y = 2) : svcLongi [⟨0, y, 0⟩] (.fin 1) 1 (.fin 0) 2 false = [V3.fin ⟨(1 - y)/2, 0, 0⟩] := by
  have hoff : Spec.OffWake 1 0 ⟨0, y, 0⟩ := by
    intro θ s _ h
    have hx := congrArg V3.x h; have hyy := congrArg V3.y h; have hz := congrArg V3.z h
    simp only [Spec.wakePoint, Spec.rim, Spec.skewDir, V3.add_x, V3.add_y, V3.add_z, V3.smul_x, V3.smul_y, V3.smul_z] at hx hyy hz
    have h1 := Real.sin_sq_add_cos_sq θ
    simp at hx hyy
    rw [← hx, ← hyy] at h1
    rcases hy with rfl | rfl <;> norm_num at h1
  have hp : Spec.polarPoint (toPolarPt ⟨0, y, 0⟩).r (toPolarPt ⟨0, y, 0⟩).psi (toPolarPt ⟨0, y, 0⟩).z = ⟨0, y, 0⟩ := polarPoint_toPolarPt _
  have hc := svcLongi_cart (toPolarPt ⟨0, y, 0⟩) 1 1 0 1 one_pos (by rw [hp]; exact hoff)
  rw [hp] at hc
  have hper := fun θ => (gen_periodic 1 0 ⟨0, y, 0⟩ 1 θ).2
  have hval : Spec.longiGenerator 1 1 0 ⟨0, y, 0⟩ (Real.pi/2) = ⟨(1-y)/(4*Real.pi), 0, 0⟩ := by
    obtain ⟨hn, hd⟩ := offWake_pos hoff (Real.pi/2)
    rw [longiGenerator_eval hn hd]
    have hnn : V3.norm ((⟨0, y, 0⟩ : V3 ℝ) - Spec.rim 1 (Real.pi/2)) = 1 := by
      rcases hy with rfl | rfl <;> simp [V3.norm, Spec.rim]
      norm_num
    have hdd : V3.dot ((⟨0, y, 0⟩ : V3 ℝ) - Spec.rim 1 (Real.pi/2)) (Spec.skewDir 0) = 0 := by
      simp [V3.dot, Spec.rim, Spec.skewDir]
    rw [hnn, hdd]
    ext <;> simp [V3.cross, Spec.skewDir, Spec.rim]
    ring
  have e0 : Real.pi/(((1:ℕ):ℝ)+1) = Real.pi/2 := by norm_num
  have ev : Spec.turnRuleV (Real.pi/(((1:ℕ):ℝ)+1)) 1 (Spec.longiGenerator 1 1 0 ⟨0, y, 0⟩) = ⟨(1-y)/2, 0, 0⟩ := by
    unfold Spec.turnRuleV
    rw [e0]
    have := Real.pi_pos
    ext <;> simp only <;> (rw [turnRule_one _ _ (by rw [hper]), hval]) <;> simp
    field_simp
    ring
  unfold svcLongi
  simp only [List.map_cons, List.map_nil]
  rw [show (2:ℕ) = 1 + 1 from rfl, hc, ev]

/-- C68 is violated by `svcs_longi_u`: with `Ground` the returned field is not the sum of the field of the cylinder and
that of the cylinder at the mirrored position (a unit cylinder at height 1, seen from the hub: 1 instead of 0). -/
theorem C68_longi_refuted : ¬ ∀ (pts : List (V3 ℝ)) (pos : V3 ℝ) (γ R m : ℝ) (ntheta i : ℕ), γ ≠ 0 → 0 < R →
    (svcsLongi pts [⟨pos, [(.fin γ, R, .fin m)]⟩] ntheta true).getD i 0 =
      (svcLongi (pts.map fun p => p - pos) (.fin γ) R (.fin m) ntheta false).getD i 0 +
      (svcLongi (pts.map fun p => p - ⟨pos.x, -pos.y, pos.z⟩) (.fin γ) R (.fin m) ntheta false).getD i 0 := by
  intro H
  have h := H [⟨0, 1, 0⟩] ⟨0, 1, 0⟩ 1 1 0 2 0 one_ne_zero one_pos
  have e1 : ([⟨0, 1, 0⟩] : List (V3 ℝ)).map (fun p => p - ⟨0, 1, 0⟩) = [⟨0, 0, 0⟩] := by
    simp only [List.map_cons, List.map_nil, List.cons.injEq, and_true]; ext <;> simp
  have e2 : ([⟨0, 1, 0⟩] : List (V3 ℝ)).map (fun p => p - ⟨0, -1, 0⟩) = [⟨0, 2, 0⟩] := by
    simp only [List.map_cons, List.map_nil, List.cons.injEq, and_true]; ext <;> simp; norm_num
  rw [(C68_longi_partial _ _ _ _).2] at h
  simp only [List.map_cons, List.map_nil, List.sum_cons, List.sum_nil, if_true, add_zero] at h
  have hf : ([(Num.fin 1, (1:ℝ), Num.fin 0)] : List (Num × ℝ × Num)).filter (fun c => 0 < Num.abs c.1) = [(Num.fin 1, 1, Num.fin 0)] := by
    simp
  rw [hf] at h
  simp only [List.map_cons, List.map_nil, List.sum_cons, List.sum_nil, add_zero] at h
  have f1 := svcLongi_two 0 (Or.inl rfl)
  have f2 := svcLongi_two 2 (Or.inr rfl)
  simp only [List.map_cons, List.map_nil] at e1 e2
  rw [e1, e2, f1, f2] at h
  have hx := congrArg V3.x h
  simp [V3.fin] at hx
  norm_num at hx

/-- C68 is violated by `vcs_longi_u`, which ignores `Ground`: unit cylinder at height 1, seen from half a radius off
its hub. -/
theorem C68_straight_longi_refuted : ¬ ∀ (pts : List (V3 ℝ)) (pos : V3 ℝ) (γ R : ℝ) (i : ℕ), γ ≠ 0 → 0 < R →
    (vcsLongi pts [⟨pos, [(.fin γ, R)]⟩] true).getD i 0 =
      (vcLongi (pts.map fun p => p - pos) (.fin γ) R false).getD i 0 +
      (vcLongi (pts.map fun p => p - ⟨pos.x, -pos.y, pos.z⟩) (.fin γ) R false).getD i 0 := by
  intro H
  have h := H [⟨1/2, 1, 0⟩] ⟨0, 1, 0⟩ 1 1 0 one_ne_zero one_pos
  have e1 : ([⟨1/2, 1, 0⟩] : List (V3 ℝ)).map (fun p => p - ⟨0, 1, 0⟩) = [⟨1/2, 0, 0⟩] := by
    simp only [List.map_cons, List.map_nil, List.cons.injEq, and_true]; ext <;> simp
  have e2 : ([⟨1/2, 1, 0⟩] : List (V3 ℝ)).map (fun p => p - ⟨0, -1, 0⟩) = [⟨1/2, 2, 0⟩] := by
    simp only [List.map_cons, List.map_nil, List.cons.injEq, and_true]; ext <;> simp; norm_num
  rw [(C50_longi_sum _ _ _).2] at h
  have hf : ([(Num.fin 1, (1:ℝ))] : List (Num × ℝ)).filter (fun c => 0 < Num.abs c.1) = [(Num.fin 1, 1)] := by
    simp
  simp only [List.map_cons, List.map_nil, List.sum_cons, List.sum_nil, add_zero] at h e1 e2
  rw [hf] at h
  simp only [List.map_cons, List.map_nil, List.sum_cons, List.sum_nil, add_zero] at h
  rw [e1, e2] at h
  have s1 : √((1/2:ℝ)^2 + 0^2) = 1/2 := by rw [show (1/2:ℝ)^2+0^2 = (1/2)^2 by norm_num, Real.sqrt_sq (by norm_num)]
  have s2 : (1:ℝ) < √((1/2:ℝ)^2 + 2^2) := by
    rw [show (1:ℝ) = √1 by simp]; exact Real.sqrt_lt_sqrt (by norm_num) (by norm_num)
  obtain ⟨v1, -, a1, b1⟩ := C77_disk_plane [⟨1/2, 0, 0⟩] 1 1 one_pos 0 _ rfl (by simp only; rw [s1]; norm_num) (by simp only; rw [s1]; norm_num)
  obtain ⟨v2, -, a2, b2⟩ := C77_disk_plane [⟨1/2, 2, 0⟩] 1 1 one_pos 0 _ rfl (by simp only; linarith) (by simp only; exact s2.ne')
  have b2 := b2 rfl
  rw [if_neg (by simp only; linarith)] at b2
  simp only [List.getD_eq_getElem?_getD, a1, a2, Option.getD_some] at h
  have hx := congrArg V3.y h
  simp only [V3.fin, V3.add_y, Num.fin_add, Num.fin.injEq] at hx
  have hpos : 0 < v2 * (1/2/√((1/2:ℝ)^2 + 2^2)) := by
    rw [b2]; positivity
  linarith

end Wiz
