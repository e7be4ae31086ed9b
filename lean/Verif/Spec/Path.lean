import Mathlib.Data.Nat.Notation
/-! # Specification: where a POSIX path leads

A path is read component by component from the root (if it starts with a slash) or from the working directory: `.` and empty
components stay in place, `..` goes to the parent (the root is its own parent), a name enters a directory.  A place reached from
the working directory is the number of levels above it and the names below.  Symbolic links are not considered. -/
namespace Wiz.Spec

/-- a place: levels above the start, then the names of the directories entered, innermost first -/
structure Place where
  up : ℕ
  down : List (List Char)
  deriving DecidableEq

/-- one component -/
def Place.step (absolute : Bool) (pl : Place) (comp : List Char) : Place :=
  if comp = [] ∨ comp = ['.'] then pl
  else if comp = ['.', '.'] then
    match pl.down with
    | _ :: rest => ⟨pl.up, rest⟩
    | [] => if absolute then pl else ⟨pl.up + 1, []⟩
  else ⟨pl.up, comp :: pl.down⟩

/-- the place a path leads to -/
def Place.walk (path : List Char) : Place :=
  (path.splitOn '/').foldl (Place.step (path.head? = some '/')) ⟨0, []⟩

/-- exactly two leading slashes: POSIX reserves the meaning of such paths -/
def doubleSlash (path : List Char) : Prop := ∃ rest, path = '/' :: '/' :: rest ∧ rest.head? ≠ some '/'

end Wiz.Spec
