import Verif.Lemmas.Turbine
import Verif.Props.VortexCylinder2

namespace Wiz
open Classical

/-- the skew angle `compute_u` works with -/
noncomputable def usedChi (w : WT) : Num := match w.chi with | some c => c | none => w.chiAuto

/-- the points relative to the hub, in cylinder axes -/
noncomputable def relC (w : WT) (pts : List (V3 ℝ)) : List (V3 ℝ) := relPts (pts.map (transformT w.T_c2g)) (transformT w.T_c2g w.r_hub)

/-- the value returned by `compute_u` -/
theorem computeU_val (w : WT) (pts : List (V3 ℝ)) (o : Opts) :
    (w.computeU pts o).1 = match w.gamma_t with
      | none => .error "Please set loading with `update_loading` before calling `compute_u`"
      | some gt => match w.inducedC (usedChi w) gt pts o with
        | .error e => .error e
        | .ok u => .ok (w.toGlobal o.only_ind (if o.no_wake then zeroWake w.R (relC w pts) u else u)) := by
  unfold WT.computeU
  simp only
  split
  · rename_i h; rw [h]
  · rename_i gt h
    rw [h]
    simp only
    have : ({ w with chi := some (usedChi w) } : WT).inducedC (usedChi w) gt pts o = w.inducedC (usedChi w) gt pts o := rfl
    change (match ({ w with chi := some (usedChi w) } : WT).inducedC (usedChi w) gt pts o with | .error e => _ | .ok u => _ : Except String (List (V3 Num)) × WT).1 = _
    rw [this]
    cases w.inducedC (usedChi w) gt pts o <;> rfl

theorem relC_length (w : WT) (pts : List (V3 ℝ)) : (relC w pts).length = pts.length := by simp [relC, relPts]

theorem addFields_length (u v : List (V3 Num)) (h : u.length = v.length) : (addFields u v).length = v.length := by
  simp [addFields, h]

theorem relC_get (w : WT) (pts : List (V3 ℝ)) (i : ℕ) (p : V3 ℝ) (hp : pts[i]? = some p) :
    (relC w pts)[i]? = some (transformT w.T_c2g p - transformT w.T_c2g w.r_hub) := by
  simp [relC, relPts, hp]

theorem transformT_sub (T : M3 ℝ) (a b : V3 ℝ) : transformT T a - transformT T b = transformT T (a - b) := by
  ext
  · simp [transformT]; ring
  · simp [transformT]; ring
  · simp [transformT]; ring

theorem inducedC_only_ind (w : WT) (chi : Num) (gt : List Num) (pts : List (V3 ℝ)) (o : Opts) (b : Bool) :
    w.inducedC chi gt pts { o with only_ind := b } = w.inducedC chi gt pts o := rfl

theorem inducedC_no_wake (w : WT) (chi : Num) (gt : List Num) (pts : List (V3 ℝ)) (o : Opts) (b : Bool) :
    w.inducedC chi gt pts { o with no_wake := b } = w.inducedC chi gt pts o := rfl

/-! lengths -/

theorem accum_length {u : List (V3 Num)} {v : Except String (List (V3 Num))} {r : List (V3 Num)} {n : ℕ} (hu : u.length = n)
    (hv : ∀ x, v = .ok x → x.length = n) (h : accum u v = .ok r) : r.length = n := by
  unfold accum at h
  cases v with
  | error e => exact nomatch h
  | ok x =>
    have h := Except.ok.inj h
    rw [← h]
    have := hv x rfl
    simp [addFields, hu, this]

theorem svcRoot_length (Y : List (V3 ℝ)) (g m : Num) (b : Bool) (x : List (V3 Num)) (h : svcRoot Y g m b = .ok x) : x.length = Y.length := by
  unfold svcRoot svcRootPolar at h
  split at h
  · have h := Except.ok.inj h; rw [← h]; simp
  · split at h
    · have h := Except.ok.inj h; rw [← h]; simp
    · split at h
      · exact nomatch h
      · split at h
        · have h := Except.ok.inj h; rw [← h]; simp
        · have h := Except.ok.inj h; rw [← h]; simp

theorem scatter_length {α β} (P : α → Prop) (d : α → β) (l : List α) (v : List β) :
    (scatter P d l v).length = l.length := by
  induction l generalizing v with
  | nil => rfl
  | cons a l ih =>
    unfold scatter
    split
    · cases v <;> simp [ih]
    · simp [ih]

theorem vcTangDoublet_length (pts : List (V3 ℝ)) (g : Num) (R c : ℝ) : (vcTangDoublet pts g R c).length = pts.length := by
  simp [vcTangDoublet, vcTangDoubletPolar, scatter_length]

theorem rootPart_length (chi m Gr : Num) (Y : List (V3 ℝ)) (x : List (V3 Num)) (h : rootPart chi m Gr Y = .ok x) : x.length = Y.length := by
  unfold rootPart at h
  split at h
  · exact svcRoot_length _ _ _ _ _ h
  · have h := Except.ok.inj h; rw [← h]; simp [vcRoot]

theorem tangPart_length (chi m : Num) (M : String) (g : Num) (R Rff : ℝ) (Y : List (V3 ℝ)) (x : List (V3 Num))
    (h : tangPart chi m M g R Rff Y = .ok x) : x.length = Y.length := by
  unfold tangPart at h
  split at h
  · split at h
    · have h := Except.ok.inj h; rw [← h]; simp [svcTang]
    · exact nomatch h
  · split at h
    · have h := Except.ok.inj h; rw [← h]; exact vcTang_length _ _ _ _
    · split at h
      · have h := Except.ok.inj h; rw [← h]; exact vcTangDoublet_length _ _ _ _
      · split at h
        · have h := Except.ok.inj h; rw [← h]; simp
        · split at h
          · have h := Except.ok.inj h; rw [← h]; simp
          · exact nomatch h

theorem longiPart_length (chi m : Num) (M : String) (g : Num) (R : ℝ) (Y : List (V3 ℝ)) (x : List (V3 Num))
    (h : longiPart chi m M g R Y = .ok x) : x.length = Y.length := by
  unfold longiPart at h
  split at h
  · have h := Except.ok.inj h; rw [← h]
    split
    · simp [svcLongi]
    · exact vcLongi_length _ _ _ _
  · exact nomatch h

theorem singleBody_length (chi m : Num) (M : String) (g : Num) (gl : Option (List Num)) (R : ℝ) (o : Opts) (Y : List (V3 ℝ))
    (u x : List (V3 Num)) (hu : u.length = Y.length) (h : singleBody chi m M g gl R o Y u = .ok x) : x.length = Y.length := by
  unfold singleBody at h
  split at h
  · exact nomatch h
  · rename_i u1 hu1
    have h1 : u1.length = Y.length := by
      split at hu1
      · exact accum_length hu (fun x hx => tangPart_length _ _ _ _ _ _ _ _ hx) hu1
      · have h := Except.ok.inj hu1; rw [← h]; exact hu
    split at h
    · split at h
      · exact accum_length h1 (fun x hx => longiPart_length _ _ _ _ _ _ _ hx) h
      · have h := Except.ok.inj h; rw [← h]; exact h1
    · exact nomatch h
    · have h := Except.ok.inj h; rw [← h]; exact h1

theorem overY_length (f : List (V3 ℝ) → List (V3 Num) → Except String (List (V3 Num))) (n : ℕ)
    (hf : ∀ Y u x, Y.length = n → u.length = n → f Y u = .ok x → x.length = n) (L : List (List (V3 ℝ))) :
    ∀ (u x : List (V3 Num)), (∀ Y ∈ L, Y.length = n) → u.length = n → overY f u L = .ok x → x.length = n := by
  induction L with
  | nil => intro u x _ hu h; have h := Except.ok.inj h; rw [← h]; exact hu
  | cons Y L ih =>
    intro u x hL hu h
    unfold overY at h
    cases hy : f Y u with
    | error e => rw [hy] at h; exact nomatch h
    | ok v =>
      rw [hy] at h
      exact ih v x (fun Z hZ => hL Z (List.mem_cons_of_mem _ hZ)) (hf Y u v (hL Y (List.mem_cons_self ..)) hu hy) h

theorem addSkewCyls_length (kernel : List (V3 ℝ) → Num → ℝ → Num → List (V3 Num)) (hk : ∀ Y g R m, (kernel Y g R m).length = Y.length)
    (rel : List (V3 ℝ)) (cyls : List (Num × ℝ × Num)) : ∀ (u : List (V3 Num)), u.length = rel.length →
    (addSkewCyls kernel rel cyls u).length = rel.length := by
  induction cyls with
  | nil => intro u hu; exact hu
  | cons c cyls ih =>
    intro u hu
    show (addSkewCyls kernel rel cyls (if 0 < Num.abs c.1 then addFields u (kernel rel c.1 c.2.1 c.2.2) else u)).length = _
    apply ih
    split
    · simp [addFields, hu, hk]
    · exact hu

theorem addCyls_length (kernel : List (V3 ℝ) → Num → ℝ → List (V3 Num)) (hk : ∀ Y g R, (kernel Y g R).length = Y.length)
    (rel : List (V3 ℝ)) (cyls : List (Num × ℝ)) : ∀ (u : List (V3 Num)), u.length = rel.length →
    (addCyls kernel rel cyls u).length = rel.length := by
  induction cyls with
  | nil => intro u hu; exact hu
  | cons c cyls ih =>
    intro u hu
    show (addCyls kernel rel cyls (if 0 < Num.abs c.1 then addFields u (kernel rel c.1 c.2) else u)).length = _
    apply ih
    split
    · simp [addFields, hu, hk]
    · exact hu

theorem relPts_length (pts : List (V3 ℝ)) (c : V3 ℝ) : (relPts pts c).length = pts.length := by simp [relPts]
theorem mirrorPts_length (pts : List (V3 ℝ)) (c : V3 ℝ) : (mirrorPts pts c).length = pts.length := by simp [mirrorPts]

theorem vcsTang_one_length (pts : List (V3 ℝ)) (c : V3 ℝ) (cy : List (Num × ℝ)) (eps : ℝ) (b : Bool) :
    (vcsTang pts [⟨c, cy⟩] eps b).length = pts.length := by
  have h1 := addCyls_length (fun q ga R => vcTang q ga R eps) (fun Y g R => vcTang_length _ _ _ _) (relPts pts c) cy (pts.map fun _ => 0) (by simp [relPts])
  have h2 := fun u hu => addCyls_length (fun q ga R => vcTang q ga R eps) (fun Y g R => vcTang_length _ _ _ _) (mirrorPts pts c) cy u hu
  simp only [vcsTang, List.foldl_cons, List.foldl_nil]
  cases b
  · simpa [relPts] using h1
  · simp only [if_true]
    rw [h2 _ (by rw [h1]; simp [relPts, mirrorPts])]; simp [mirrorPts]

theorem vcsLongi_one_length (pts : List (V3 ℝ)) (c : V3 ℝ) (cy : List (Num × ℝ)) (b : Bool) :
    (vcsLongi pts [⟨c, cy⟩] b).length = pts.length := by
  have h1 := addCyls_length (fun q ga R => vcLongi q ga R false) (fun Y g R => vcLongi_length _ _ _ _) (relPts pts c) cy (pts.map fun _ => 0) (by simp [relPts])
  simp only [vcsLongi, List.foldl_cons, List.foldl_nil]
  simpa [relPts] using h1

theorem svcsTang_one_length (pts : List (V3 ℝ)) (c : V3 ℝ) (cy : List (Num × ℝ × Num)) (n : ℕ) (b : Bool) :
    (svcsTang pts [⟨c, cy⟩] n b).length = pts.length := by
  have h1 := addSkewCyls_length (fun q ga R m => svcTang q ga R m n false) (fun Y g R m => by simp [svcTang]) (relPts pts c) cy (pts.map fun _ => 0) (by simp [relPts])
  have h2 := fun u hu => addSkewCyls_length (fun q ga R m => svcTang q ga R m n false) (fun Y g R m => by simp [svcTang]) (mirrorPts pts c) cy u hu
  simp only [svcsTang, List.foldl_cons, List.foldl_nil]
  cases b
  · simpa [relPts] using h1
  · simp only [if_true]
    rw [h2 _ (by rw [h1]; simp [relPts, mirrorPts])]; simp [mirrorPts]

theorem svcsLongi_one_length (pts : List (V3 ℝ)) (c : V3 ℝ) (cy : List (Num × ℝ × Num)) (n : ℕ) (b : Bool) :
    (svcsLongi pts [⟨c, cy⟩] n b).length = pts.length := by
  have h2 := fun u hu => addSkewCyls_length (fun q ga R m => svcLongi q ga R m n false) (fun Y g R m => by simp [svcLongi]) (relPts pts c) cy u hu
  simp only [svcsLongi, List.foldl_cons, List.foldl_nil]
  have h1 := h2 (pts.map fun _ => 0) (by simp [relPts])
  cases b
  · simpa [relPts] using h1
  · simp only [if_true]
    rw [h2 _ h1]; simp [relPts]

theorem multiPart_length (chi m : Num) (M : String) (gt : List Num) (gl : Option (List Num)) (r : Option (List ℝ)) (cyl : V3 ℝ) (gr : Bool)
    (o : Opts) (pts : List (V3 ℝ)) (u x : List (V3 Num)) (hu : u.length = pts.length) (h : multiPart chi m M gt gl r cyl gr o pts u = .ok x) :
    x.length = pts.length := by
  unfold multiPart at h
  split at h
  · split at h
    · exact nomatch h
    · split at h
      · exact nomatch h
      · split at h
        · exact nomatch h
        · rename_i r _ _
          have key : (if o.tang then
            addFields u (if yawed chi then svcsTang pts [⟨cyl, List.zipWith (fun g R => (g, R, m)) gt r⟩] 180 gr
              else vcsTang pts [⟨cyl, List.zip gt r⟩] 0 gr) else u).length = pts.length := by
            split
            · rw [length_addFields _ _ ?_, hu]
              split
              · rw [svcsTang_one_length, hu]
              · rw [vcsTang_one_length, hu]
            · exact hu
          simp only at h
          split at h
          · have h := Except.ok.inj h
            rw [← h, length_addFields _ _ ?_, key]
            rw [key]
            split
            · rw [svcsLongi_one_length]
            · rw [vcsLongi_one_length]
          · have h := Except.ok.inj h
            rw [← h, key]
  · exact nomatch h

theorem inducedC_length (w : WT) (chi : Num) (gt : List Num) (pts : List (V3 ℝ)) (o : Opts) (x : List (V3 Num))
    (h : w.inducedC chi gt pts o = .ok x) : x.length = pts.length := by
  unfold WT.inducedC at h
  simp only at h
  have hY : ∀ (c : Bool) (P : List (V3 ℝ)) (q : V3 ℝ), ∀ Y ∈ (if c then [relPts P q, mirrorPts P q] else [relPts P q]), Y.length = P.length := by
    intro c P q Y hY
    cases c
    · simp at hY; rw [hY, relPts_length]
    · simp at hY; rcases hY with h | h <;> rw [h]
      · exact relPts_length _ _
      · exact mirrorPts_length _ _
  split at h
  · exact nomatch h
  · rename_i u1 hu1
    have h1 : u1.length = pts.length := by
      split at hu1
      · split at hu1
        · refine overY_length _ _ ?_ _ _ _ ?_ ?_ hu1
          · intro Y u x hY hu hx
            exact accum_length hu (fun x hx => (rootPart_length _ _ _ _ _ hx).trans hY) hx
          · intro Y hy; rw [hY _ _ _ Y hy]; simp
          · simp
        · have h := Except.ok.inj hu1; rw [← h]; simp
      · have h := Except.ok.inj hu1; rw [← h]; simp
    split at h
    · refine overY_length _ _ ?_ _ _ _ ?_ h1 h
      · intro Y u x hY hu hx
        exact (singleBody_length _ _ _ _ _ _ _ _ _ _ (hu.trans hY.symm) hx).trans hY
      · intro Y hy; rw [hY _ _ _ Y hy]; simp
    · rw [multiPart_length _ _ _ _ _ _ _ _ _ _ _ _ (by simp [h1]) h]; simp

end Wiz
