import Verif.Model.RawNames
import Verif.Model.Stop

/-!
# Listing the storage directory, with names as bytes: src/actions/list.rs:62-105, src/actions/stop.rs:47-95, src/config/cli.rs:194-247

`Model/Sandboxes` and `Model/Stop` take the names in the storage directory as text.  Here they are bytes, as `read_dir` gives them.
-/

namespace SB

/-- `OsStr::to_string_lossy` (std) of a name. -/
def lossyText (f : RawName) : Str := lossyChunks f

/-- `&text[..k]` (std): the characters whose encoding is the first `k` bytes; `none`: panic, since byte `k` is inside a character or past the end. -/
def sliceTo : Str → Nat → Option Str
  | _, 0 => some []
  | [], _ + 1 => none
  | c :: r, k + 1 => if (utf8Char c).length ≤ k + 1 then (sliceTo r (k + 1 - (utf8Char c).length)).map (c :: ·) else none

/-- What the loops make of a file name: not a lock file; the lock file of a sandbox; a panic. -/
inductive Owner where
  | other
  | lock (name : Name)
  | panics
deriving DecidableEq, Repr

/-- src/actions/list.rs:71-73, src/actions/stop.rs:54-56: `filename.to_string_lossy()[..filename.len() - 5]`; `len` counts the bytes of the name on the disk. -/
def rawOwner (f : RawName) : Owner :=
  if (str ".lock").isSuffixOf (lossyText f) then
    match sliceTo (lossyText f) (f.length - 5) with
    | some n => .lock n
    | none => .panics
  else .other

/-- The lock files found before the first panic (as the names `NAME.lock` of their sandboxes), and whether there is one. -/
def rawTake : List RawName → List Name × Bool
  | [] => ([], false)
  | f :: r => match rawOwner f with
    | .panics => ([], true)
    | .other => rawTake r
    | .lock n => ((n ++ str ".lock") :: (rawTake r).1, (rawTake r).2)

/-- The loop of src/actions/list.rs:62-105 over the names as they are on the disk. -/
def rawListLoop (s : Sys) (glob : Str → Str → Bool) (storage : Path) (patterns : List Str) (files : List RawName) : RawEnd (List Name × List Name) :=
  match listLoop s glob storage patterns (rawTake files).1 with
  | .error _ => .failed
  | .ok r => if (rawTake files).2 then .panicked else .done r

/-- The loop of src/actions/stop.rs:47-95 over the names as they are on the disk: the machine afterwards, and whether the command panicked. -/
def rawStopLoop (fault : Fault) (glob : Str → Str → Bool) (storage : Path) (patterns : List Str) (files : List RawName) (s : Sys) : Sys × Bool :=
  (stopLoop fault glob storage patterns (rawTake files).1 s, (rawTake files).2)

/-- src/config/cli.rs:194-247 `sandbox_name_completion`, from the listing of the storage directory on: what is offered for the text typed so far.  `dir`: `Path::is_dir` of a path below the
storage directory.  Not modelled: finding the storage directory. -/
def complete (dir : RawPath → Bool) (files : List RawName) (current : RawName) : List Name :=
  match utf8Decode current with
  | none => []
  | some cur => files.filterMap (fun f => match utf8Decode f with
    | none => none
    | some t =>
      if !cur.isPrefixOf t then none
      else if dir [f] && dir [f, utf8 (str "upper")] && dir [f, utf8 (str "work")] && dir [f, utf8 (str "overlay")] then some t else none)

end SB
