import Mathlib.Order.Lex
import Mathlib.Data.List.Lex
import Mathlib.Data.Char
import Mathlib.Data.List.Sort
import Mathlib.Data.List.Nodup
import Mathlib.Data.List.Infix
import Mathlib.Data.List.Dedup

/-!
# Strings, names and paths

`Str` is a Unicode string as a list of code points.  Comparing code point lists lexicographically gives
the same order as comparing UTF-8 bytes (a property of UTF-8), which is what Rust's `str`, `OsStr`
and `Path` orderings do; non-UTF-8 names are not modelled.

`Path` is an absolute path given by its list of components (root = `[]`).  Rust's `Path` ordering
compares component by component, i.e. lexicographically on lists of names.
-/

namespace SB

abbrev Str := List Char
abbrev Name := Str
abbrev Path := List Name

/-- String literal to `Str`. -/
abbrev str (s : String) : Str := s.toList

/-- `Path::display` of an absolute path: `/` for the root, otherwise each component preceded by `/`
(std; used e.g. in src/sandbox/changes/change_entries.rs:244,258,270). -/
def display (p : Path) : Str :=
  if p = [] then ['/'] else p.flatMap (fun n => '/' :: n)

/-- Split a string at every `/` (`[]` pieces are kept). -/
def splitSlash : Str → List Str
  | [] => [[]]
  | c :: cs =>
    if c = '/' then [] :: splitSlash cs
    else match splitSlash cs with
      | [] => [[c]]
      | w :: ws => (c :: w) :: ws

/-- `Path::components` of a string that starts with `/`: empty pieces and `.` are dropped, `..` kept (std). -/
def components (s : Str) : List Name :=
  (splitSlash s).filter (fun n => n ≠ [] ∧ n ≠ ['.'])

/-- A name that a directory entry can have: not empty, no `/`, not `.` or `..`. -/
def NormalName (n : Name) : Prop := n ≠ [] ∧ '/' ∉ n ∧ n ≠ ['.'] ∧ n ≠ ['.', '.']

instance (n : Name) : Decidable (NormalName n) := by unfold NormalName; infer_instance

/-- A path all of whose components are normal names. -/
def NormalPath (p : Path) : Prop := ∀ n ∈ p, NormalName n

instance (p : Path) : Decidable (NormalPath p) := by unfold NormalPath; infer_instance

/-- `p` lies strictly below `d` in the directory tree. -/
def Below (d p : Path) : Prop := ∃ r : Path, r ≠ [] ∧ p = d ++ r

/-- Stable sort (Rust's `slice::sort_by` is stable; std documentation). -/
def stableSort {α} (le : α → α → Bool) (l : List α) : List α :=
  l.insertionSort (fun a b => le a b = true)

end SB
