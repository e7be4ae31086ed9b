import Verif.Model.PlaneIO

/-!
# C74: plane files
-/
namespace Wiz
open Classical

/-- one `savePlane` call: base, the four arrays, the optional reference speed -/
structure PlaneCall where
  base : List Char
  x : List Num
  y : List Num
  u : List Num
  v : List Num
  U0 : Option Num

/-- a history of `savePlane` calls -/
noncomputable def runSaves (fs : Files) (h : List PlaneCall) : Files :=
  h.foldl (fun fs c => savePlane fs c.base c.x c.y c.u c.v c.U0) fs

theorem names_disjoint {b c : List Char} (h : b ≠ c) (i j : Char) :
    b ++ [i, '.', 'n', 'p', 'y'] ≠ c ++ [j, '.', 'n', 'p', 'y'] := by
  intro e
  have := List.append_inj' e rfl
  exact h this.1

theorem suffix_x : "x.npy".toList = ['x', '.', 'n', 'p', 'y'] := rfl
theorem suffix_y : "y.npy".toList = ['y', '.', 'n', 'p', 'y'] := rfl
theorem suffix_u : "u.npy".toList = ['u', '.', 'n', 'p', 'y'] := rfl
theorem suffix_v : "v.npy".toList = ['v', '.', 'n', 'p', 'y'] := rfl

theorem names_letter {b : List Char} {i j : Char} (h : i ≠ j) :
    b ++ [i, '.', 'n', 'p', 'y'] ≠ b ++ [j, '.', 'n', 'p', 'y'] := by
  intro e
  have := List.append_cancel_left e
  exact h (List.cons.inj this).1

theorem writeAll_other (fs : Files) (ws : List (List Char × List Num)) (q : List Char) (h : ∀ w ∈ ws, w.1 ≠ q) :
    writeAll fs ws q = fs q := by
  induction ws generalizing fs with
  | nil => rfl
  | cons w ws ih =>
    have : writeAll fs (w :: ws) = writeAll (npSave fs w.1 w.2) ws := rfl
    rw [this, ih _ fun w' hw' => h w' (List.mem_cons_of_mem _ hw')]
    exact Function.update_of_ne (h w List.mem_cons_self).symm _ _

/-- `savePlane` touches no file except its own four -/
theorem C74_other_files (fs : Files) (base : List Char) (x y u v : List Num) (U0 : Option Num) (q : List Char)
    (h : ∀ i ∈ ['x', 'y', 'u', 'v'], q ≠ normpath base ++ [i, '.', 'n', 'p', 'y']) :
    savePlane fs base x y u v U0 q = fs q := by
  apply writeAll_other
  intro w hw
  simp only [planeWrites, List.mem_cons, List.not_mem_nil, or_false] at hw
  rcases hw with rfl | rfl | rfl | rfl
  · exact (h 'x' (by simp)).symm
  · exact (h 'y' (by simp)).symm
  · exact (h 'u' (by simp)).symm
  · exact (h 'v' (by simp)).symm

theorem load_after_other (fs : Files) (c : PlaneCall) (b : List Char) (h : normpath c.base ≠ normpath b) :
    loadPlane (savePlane fs c.base c.x c.y c.u c.v c.U0) b = loadPlane fs b := by
  have hx : ∀ i, savePlane fs c.base c.x c.y c.u c.v c.U0 (normpath b ++ [i, '.', 'n', 'p', 'y']) = fs (normpath b ++ [i, '.', 'n', 'p', 'y']) := by
    intro i
    apply C74_other_files
    intro j _
    exact names_disjoint h.symm i j
  simp only [loadPlane, suffix_x, suffix_y, suffix_u, suffix_v, hx]

theorem load_after_own (fs : Files) (b b' : List Char) (x y u v : List Num) (U0 : Option Num) (h : normpath b = normpath b') :
    loadPlane (savePlane fs b x y u v U0) b' =
      .ok (x, y, (match U0 with | none => u | some k => u.map fun a => a / k), (match U0 with | none => v | some k => v.map fun a => a / k)) := by
  have e : savePlane fs b x y u v U0 = npSave (npSave (npSave (npSave fs (normpath b' ++ "x.npy".toList) x) (normpath b' ++ "y.npy".toList) y)
      (normpath b' ++ "u.npy".toList) (match U0 with | none => u | some k => u.map fun a => a / k))
      (normpath b' ++ "v.npy".toList) (match U0 with | none => v | some k => v.map fun a => a / k) := by
    rw [← h]; rfl
  have n : ∀ {i j : Char}, i ≠ j → normpath b' ++ [i, '.', 'n', 'p', 'y'] ≠ normpath b' ++ [j, '.', 'n', 'p', 'y'] := fun h => names_letter h
  rw [e]
  simp only [loadPlane, npSave, suffix_x, suffix_y, suffix_u, suffix_v]
  rw [Function.update_of_ne (n (by decide)), Function.update_of_ne (n (by decide)), Function.update_of_ne (n (by decide)), Function.update_self]
  simp only
  rw [Function.update_of_ne (n (by decide)), Function.update_of_ne (n (by decide)), Function.update_self]
  simp only
  rw [Function.update_of_ne (n (by decide)), Function.update_self]
  simp only
  rw [Function.update_self]

/-- C74 (round trip): whatever was on disk and whatever was saved before, loading a base after it was
saved returns the coordinates and the velocities divided by `U0`, provided everything saved since went
to bases with other normalised paths; the spelling of the base used for loading is immaterial. -/
theorem C74_roundtrip (fs : Files) (before after : List PlaneCall) (c : PlaneCall) (base : List Char)
    (hb : normpath base = normpath c.base) (h : ∀ d ∈ after, normpath d.base ≠ normpath c.base) :
    loadPlane (runSaves fs (before ++ c :: after)) base =
      .ok (c.x, c.y, (match c.U0 with | none => c.u | some k => c.u.map fun a => a / k),
        (match c.U0 with | none => c.v | some k => c.v.map fun a => a / k)) := by
  unfold runSaves
  rw [List.foldl_append, List.foldl_cons]
  generalize List.foldl (fun fs c => savePlane fs c.base c.x c.y c.u c.v c.U0) fs before = fs1
  rw [← load_after_own fs1 c.base base c.x c.y c.u c.v c.U0 hb.symm]
  generalize savePlane fs1 c.base c.x c.y c.u c.v c.U0 = fs2
  induction after generalizing fs2 with
  | nil => rfl
  | cons d l ih =>
    rw [List.foldl_cons, ih (fun e he => h e (List.mem_cons_of_mem _ he)), load_after_other]
    rw [hb]; exact h d List.mem_cons_self

/-- the hypotheses of C74_roundtrip are met e.g. by saving under `./a` , then under `b`, then loading `a`. -/
example : normpath "a".toList = normpath "./a".toList ∧ normpath "b".toList ≠ normpath "./a".toList := by
  constructor <;> simp [normpath, initialSlashes, splitSlash, normStep, joinSlash]

/-- C74 (one tuple): giving the plane as one tuple is the same call; fewer than four entries raise before
anything is written, extra entries (e.g. the FLORIS interface returned by `get_HH_plane_vel`) are ignored. -/
theorem C74_tuple (fs : Files) (p : List (List Num)) (base : List Char) (U0 : Option Num) :
    (p.length < 4 → ∃ e, savePlaneTuple fs p base U0 = .error e) ∧
    (∀ x y u v rest, p = x :: y :: u :: v :: rest → savePlaneTuple fs p base U0 = .ok (savePlane fs base x y u v U0)) := by
  constructor
  · intro h
    match p, h with
    | [], _ => exact ⟨_, rfl⟩
    | [_], _ => exact ⟨_, rfl⟩
    | [_, _], _ => exact ⟨_, rfl⟩
    | [_, _, _], _ => exact ⟨_, rfl⟩
    | _ :: _ :: _ :: _ :: _, h => simp at h; omega
  · rintro x y u v rest rfl; rfl

/-- C74 (crash): if the process stops after the first `k` of the four writes of a save, every later load of that
base sees the new arrays for the first `k` of `x,y,u,v` and the previous ones for the others: the save is not
atomic, and a load can mix two planes without an error. -/
theorem C74_crash (fs : Files) (base : List Char) (x y u v x' y' u' v' : List Num) (k : ℕ) :
    loadPlane (writeAll (savePlane fs base x y u v none) ((planeWrites base x' y' u' v' none).take k)) base =
      .ok (if 0 < k then x' else x, if 1 < k then y' else y, if 2 < k then u' else u, if 3 < k then v' else v) := by
  have n : ∀ {i j : Char}, i ≠ j → normpath base ++ [i, '.', 'n', 'p', 'y'] ≠ normpath base ++ [j, '.', 'n', 'p', 'y'] := fun h => names_letter h
  have nxy := n (i := 'x') (j := 'y') (by decide)
  have nxu := n (i := 'x') (j := 'u') (by decide)
  have nxv := n (i := 'x') (j := 'v') (by decide)
  have nyu := n (i := 'y') (j := 'u') (by decide)
  have nyv := n (i := 'y') (j := 'v') (by decide)
  have nuv := n (i := 'u') (j := 'v') (by decide)
  have hk : k = 0 ∨ k = 1 ∨ k = 2 ∨ k = 3 ∨ 4 ≤ k := by omega
  unfold savePlane planeWrites
  simp only [suffix_x, suffix_y, suffix_u, suffix_v]
  rcases hk with rfl | rfl | rfl | rfl | hk
  all_goals try rw [List.take_of_length_le (by simpa using hk)]
  all_goals
    simp only [List.take_zero, List.take_succ_cons, writeAll, List.foldl_cons, List.foldl_nil, loadPlane, npSave, suffix_x, suffix_y, suffix_u, suffix_v]
    simp [Function.update_of_ne, Function.update_self, nxy, nxu, nxv, nyu, nyv, nuv, nxy.symm, nxu.symm, nxv.symm, nyu.symm, nyv.symm, nuv.symm]
  all_goals try omega

/-- C74 (surprise): a base that names a directory does not put the files into it: the trailing slash is removed by
the normalisation, so `out/` writes `outx.npy`; and the default base `''` writes the hidden file `.x.npy`. -/
theorem C74_directory : normpath "out/".toList ++ "x.npy".toList = "outx.npy".toList ∧
    normpath "".toList ++ "x.npy".toList = ".x.npy".toList := by
  constructor <;> simp [normpath, initialSlashes, splitSlash, normStep, joinSlash]

/-- C74 (root): a base starting with exactly two slashes is kept apart from the same base with one slash
(POSIX leaves `//` to the implementation), while three or more leading slashes are the same as one. -/
theorem C74_slashes (rest more : List Char) (h : rest.head? ≠ some '/') :
    normpath ('/' :: '/' :: rest) = '/' :: normpath ('/' :: rest) ∧
    normpath ('/' :: '/' :: '/' :: more) = normpath ('/' :: '/' :: '/' :: '/' :: more) ∧
    normpath ('/' :: '/' :: '/' :: rest) = normpath ('/' :: rest) := by
  have h2 : initialSlashes ('/' :: '/' :: rest) = 2 := by
    cases rest with
    | nil => rfl
    | cons c cs =>
      have hc : c ≠ '/' := by intro e; apply h; rw [e]; rfl
      unfold initialSlashes
      split
      · rename_i e; simp at e; exact absurd e.1 hc
      · rfl
      · rename_i x e; simp_all
        exact x _ e.symm
      · simp_all
  have h1 : initialSlashes ('/' :: rest) = 1 := by
    cases rest with
    | nil => rfl
    | cons c cs =>
      have hc : c ≠ '/' := by intro e; apply h; rw [e]; rfl
      unfold initialSlashes
      split
      · rfl
      · rename_i e; simp at e; exact absurd e.1 hc
      · rfl
      · rename_i e; exact absurd rfl (e _)
  have h3 : ∀ l, initialSlashes ('/' :: '/' :: '/' :: l) = 1 := fun l => rfl
  have hs : ∀ l, splitSlash ('/' :: l) = [] :: splitSlash l := fun l => by simp [splitSlash]
  refine ⟨?_, ?_, ?_⟩
  · simp [normpath, h1, h2, hs, normStep, List.replicate]
  · simp [normpath, h3, hs, normStep]
  · simp [normpath, h1, h3, hs, normStep]

end Wiz
