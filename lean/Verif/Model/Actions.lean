import Verif.Model.Accept

/-!
# reject, status, diff (src/actions/reject.rs, status.rs, diff.rs)
-/

namespace SB

/-! ### reject -/

/-- src/actions/reject.rs:25-48: the loop over the sorted changes; `last` is the previously handled staged path. -/
def rejectLoop : List Entry → Option Path → FS → FS × Option Errno
  | [], _, up => (up, none)
  | e :: r, last, up =>
    match e.staged with
    | none => rejectLoop r last up
    | some s =>
      if last = some s.path then rejectLoop r last up
      else
        match (if s.node.isDir then up.rmdir s.path else up.unlink s.path) with
        | .ok up' => rejectLoop r (some s.path) up'
        | .error e => (up, some e)

/-- src/actions/reject.rs:10-56 `reject` -/
def reject (env : Env) (st : State) : State × Option Errno :=
  let (up, err) := rejectLoop (stableSort byStagedDescending (selected env st)) none st.upper
  ({ st with upper := up }, err)

/-! ### status -/

def Entry.isError (e : Entry) : Bool := match e.op with | .error _ => true | _ => false
def Entry.isRemove (e : Entry) : Bool := match e.op with | .remove => true | _ => false
def Entry.isRename (e : Entry) : Bool := match e.op with | .rename => true | _ => false
def Entry.isShownSet (e : Entry) : Bool := match e.op with | .set _ => e.isActuallyModified | _ => false

/-- src/actions/status.rs:31-86: the listed entries, in output order (text and JSON get the same ones). -/
def statusList (sel : List Entry) : List Entry :=
  if sel.any (fun e => match e.op with | .set _ => e.isActuallyModified | _ => true) then
    let c1 := stableSort byDestination sel
    let c2 := stableSort byReverseSource c1
    let c3 := stableSort byReverseSource c2
    let c4 := stableSort byDestination c3
    c1.filter Entry.isError ++ c2.filter Entry.isRemove ++ c3.filter Entry.isRename ++ c4.filter Entry.isShownSet
  else []

/-- src/actions/status.rs:17-101 `status`: listed entries and the "external or non-matching" number. -/
def status (env : Env) (st : State) : List Entry × Nat :=
  (statusList (selected env st), nonMatchingCount (changes env st) (selected env st))

/-! ### diff -/

/-- What `diff` does for one change: src/actions/diff.rs:60-143. -/
inductive DiffOut where
  | moved (src dst : Path)
  | skip
  | diff (left : Option Path) (right : Option Path)   -- `none` is /dev/null; left is a host path, right a storage path
  | panic
deriving DecidableEq, Repr

/-- src/actions/diff.rs:60-143 loop body -/
def diffEntry (st : State) (e : Entry) : DiffOut :=
  match e.op with
  | .rename => match e.source with
    | some s => .moved s.path e.dest
    | none => .panic
  | .error _ => .skip
  | .set _ | .remove =>
    let left := if st.lower.pexists e.dest then some e.dest else none
    let right := match e.op with | .set _ => some (e.staged.map (·.path)) | _ => none
    if st.lower.pisFile e.dest then
      match right with
      | none => .diff left none
      | some none => .panic
      | some (some p) => .diff left (some p)
    else match e.staged with
      | none => .panic
      | some s =>
        if s.node.isReg then
          match right with
          | none => .diff left none
          | some none => .panic
          | some (some p) => .diff left (some p)
        else .skip

/-- src/actions/diff.rs:15-148 `diff`: outputs until a panic stops it. -/
def diffRun (st : State) : List Entry → List DiffOut
  | [] => []
  | e :: r => match diffEntry st e with
    | .panic => [.panic]
    | o => o :: diffRun st r

def diff (env : Env) (st : State) : List DiffOut := diffRun st (selected env st)

end SB
