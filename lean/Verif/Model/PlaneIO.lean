import Verif.NumPy

/-!
# Model of `savePlane` / `loadPlane` (coupling_examples/helper_functions.py)

The file system is a map from path strings (lists of characters) to stored arrays: two different
strings are taken to denote different files (no links, a fixed working directory), and `np.load`
returns what `np.save` stored.  Arrays of any shape are flattened to lists.  Paths are POSIX paths.
-/
namespace Wiz
noncomputable section
open Classical

/-- `path.split('/')` (library function). -/
def splitSlash : List Char → List (List Char)
  | [] => [[]]
  | c :: cs =>
    if c = '/' then [] :: splitSlash cs
    else match splitSlash cs with
      | [] => [[c]]
      | h :: t => (c :: h) :: t

/-- `'/'.join(comps)` (library function). -/
def joinSlash : List (List Char) → List Char
  | [] => []
  | [a] => a
  | a :: b :: rest => a ++ '/' :: joinSlash (b :: rest)

/-- One pass of the loop over the components in `posixpath.normpath`; `st` is `new_comps` reversed. -/
def normStep (rooted : Bool) (st : List (List Char)) (comp : List Char) : List (List Char) :=
  if comp = [] ∨ comp = ['.'] then st
  else if comp ≠ ['.', '.'] ∨ (rooted = false ∧ st = []) ∨ st.head? = some ['.', '.'] then comp :: st
  else st.tail

/-- number of leading slashes kept by `posixpath.normpath`: two exactly when there are exactly two -/
def initialSlashes : List Char → ℕ
  | '/' :: '/' :: '/' :: _ => 1
  | '/' :: '/' :: _ => 2
  | '/' :: _ => 1
  | _ => 0

/-- `os.path.normpath` on POSIX (library function, called at coupling_examples/helper_functions.py:42 and 50). -/
def normpath (path : List Char) : List Char :=
  let k := initialSlashes path
  let comps := ((splitSlash path).foldl (normStep (decide (0 < k))) []).reverse
  let p := List.replicate k '/' ++ joinSlash comps
  if p = [] then ['.'] else p

/-- the files: what `np.load` returns for each path (`none`: no such file) -/
abbrev Files := List Char → Option (List Num)

/-- `np.save(path,a)` -/
def npSave (fs : Files) (path : List Char) (a : List Num) : Files := Function.update fs path (some a)

/-- The four calls of `np.save`, in order.  Models coupling_examples/helper_functions.py:30-46. -/
def planeWrites (base : List Char) (x y u v : List Num) (U0 : Option Num) : List (List Char × List Num) :=
  let u := match U0 with | none => u | some U0 => u.map fun a => a / U0
  let v := match U0 with | none => v | some U0 => v.map fun a => a / U0
  let base := normpath base
  [(base ++ "x.npy".toList, x), (base ++ "y.npy".toList, y), (base ++ "u.npy".toList, u), (base ++ "v.npy".toList, v)]

/-- a sequence of `np.save` calls -/
def writeAll (fs : Files) (ws : List (List Char × List Num)) : Files := ws.foldl (fun fs w => npSave fs w.1 w.2) fs

/-- `savePlane(x,y,u,v,base,U0)`.  Models coupling_examples/helper_functions.py:30-46. -/
def savePlane (fs : Files) (base : List Char) (x y u v : List Num) (U0 : Option Num) : Files :=
  writeAll fs (planeWrites base x y u v U0)

/-- `savePlane(p,base,U0=U0)`: the plane is given as one tuple (`u is None`), of which the first four entries
are used.  Models coupling_examples/helper_functions.py:31-37. -/
def savePlaneTuple (fs : Files) (p : List (List Num)) (base : List Char) (U0 : Option Num) : Except String Files :=
  match p with
  | x :: y :: u :: v :: _ => .ok (savePlane fs base x y u v U0)
  | _ => .error "IndexError"

/-- `loadPlane(base)`.  Models coupling_examples/helper_functions.py:49-55. -/
def loadPlane (fs : Files) (base : List Char) : Except String (List Num × List Num × List Num × List Num) :=
  let base := normpath base
  match fs (base ++ "x.npy".toList) with
  | none => .error "FileNotFoundError"
  | some x =>
    match fs (base ++ "y.npy".toList) with
    | none => .error "FileNotFoundError"
    | some y =>
      match fs (base ++ "u.npy".toList) with
      | none => .error "FileNotFoundError"
      | some u =>
        match fs (base ++ "v.npy".toList) with
        | none => .error "FileNotFoundError"
        | some v => .ok (x, y, u, v)

end
end Wiz
