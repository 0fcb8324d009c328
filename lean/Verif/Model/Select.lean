import Verif.Model.Changes

/-!
# Selecting and counting changes (src/sandbox/changes/change_entries.rs)
-/

namespace SB

/-- `st_mode` comparison of src/sandbox/changes/change_entries.rs:186: type and permission bits. -/
def sameMode (a b : Node) : Bool :=
  a.perm == b.perm &&
  (match a.kind, b.kind with
   | .reg _, .reg _ => true
   | .dir, .dir => true
   | .lnk _, .lnk _ => true
   | .chr _, .chr _ => true
   | .blk _, .blk _ => true
   | .fifo, .fifo => true
   | .sock, .sock => true
   | _, _ => false)

/-- src/sandbox/changes/change_entries.rs:165-203 `is_actually_modified` -/
def Entry.isActuallyModified (e : Entry) : Bool :=
  match e.op, e.staged, e.source with
  | .set .modify, some staged, some source =>
    if staged.node.gid ≠ source.node.gid then true
    else if staged.node.uid ≠ source.node.uid then true
    else if !sameMode staged.node source.node then true
    else !staged.node.isDir
  | _, _, _ => true

/-- Resolve `..` components textually: src/sandbox/changes/change_entries.rs:245-253. -/
def normalizeComps (cs : List Name) : Path :=
  cs.foldl (fun acc c => if c = ['.', '.'] then acc.dropLast else acc ++ [c]) []

/-- The closure of src/sandbox/changes/change_entries.rs:228-281: turn one command line pattern into a glob. -/
def compilePattern (dests : List Path) (cwd : Path) (pattern : Str) : Str :=
  let negate := pattern.head? = some '!'
  let p := if negate then pattern.tail else pattern
  let p := if p.head? = some '/' then p else display cwd ++ '/' :: p
  let p := display (normalizeComps (components p))
  let p :=
    if p.getLast? = some '/' then p ++ str "**"
    else if dests.any (fun d => (p ++ ['/']).isPrefixOf (display d)) then p ++ str "/**"
    else p
  if negate then '!' :: p else p

/-- The filter of src/sandbox/changes/change_entries.rs:287-301. -/
def selects (glob : Str → Str → Bool) (cwd : Path) (pats : List Str) (d : Path) : Bool :=
  if pats = [] then (display cwd ++ ['/']).isPrefixOf (display d)
  else pats.any (fun p => glob p (display d))

/-- src/sandbox/changes/change_entries.rs:227-302 `matching` -/
def matching (glob : Str → Str → Bool) (cwd : Path) (patterns : List Str) (cs : List Entry) : List Entry :=
  let pats := patterns.map (compilePattern (cs.map (·.dest)) cwd)
  cs.filter (fun e => selects glob cwd pats e.dest)

/-- The predicate counted by src/sandbox/changes/change_entries.rs:305-314. -/
def Entry.countable (e : Entry) : Bool :=
  match e.op with
  | .set _ => e.isActuallyModified
  | .remove => true
  | .rename => true
  | .error _ => false

/-- src/sandbox/changes/change_entries.rs:305-314 `count_actionable_changes` -/
def countActionable (cs : List Entry) : Nat := (cs.filter Entry.countable).length

/-- src/sandbox/changes/change_entries.rs:316-323 `calculate_non_matching_count` (saturating subtraction) -/
def nonMatchingCount (all sel : List Entry) : Nat := countActionable all - countActionable sel

/-- The changes an action works on: all changes of the sandbox and those selected. -/
def selected (env : Env) (st : State) : List Entry := matching env.glob env.cwd env.patterns (changes env st)

end SB
