import Verif.Model.Race
import Verif.Model.Actions

/-!
# The list of changes while commands run in the sandbox: src/sandbox/changes/changes.rs:54-208, 280-375

`status`, `accept`, `reject` and `diff` take no lock and do not look whether processes run in the sandbox.  The storage is walked once (280-375), then the redirects of all paths that were kept are
read (69-75), then their attributes (77-204); between any two of these a command in the sandbox may change the storage.  An event is one step of the program or one write to the storage.

Simplification: what is read for one stored path within one of these three passes is read at one moment, and the host does not change.
-/

namespace SB

/-- What happens during a scan: a command in the sandbox writes to the storage, the walk arrives at a path, a step of the second or third pass is done. -/
inductive Ev where
  | write (w : Write)
  | visit (p : Path)
  | step
deriving DecidableEq, Repr

/-- src/sandbox/changes/changes.rs:285-372, the body of the loop: what the walk notes for one path, and the cache of rules.  `none`: the path is gone when its details are read (359-361), the
command ends with an error. -/
def visit (env : Env) (st : State) (cache : IgnoreCache) (p : Path) : Option (List UpperEntry × IgnoreCache) :=
  match p with
  | [] => some ([], cache)
  | m :: sub =>
    match env.decode m with
    | none => some ([], cache)
    | some mp =>
      if sub = [] then some ([], cache)
      else if env.includeIgnored then (mkUpperEntry st (m, mp, sub)).map (fun e => ([e], cache))
      else
        let (ig, cache') := isIgnored env.glob st m mp sub cache
        if ig then some ([], cache') else (mkUpperEntry st (m, mp, sub)).map (fun e => ([e], cache'))

/-- src/sandbox/changes/changes.rs:280-375 `upper_entries`, with writes to the storage in between.  `steps` of other passes do not occur here. -/
def walkIn (env : Env) (low : FS) : List Ev → FS → IgnoreCache → Option (List UpperEntry)
  | [], _, _ => some []
  | .write w :: evs, up, cache => walkIn env low evs (write up w) cache
  | .step :: evs, up, cache => walkIn env low evs up cache
  | .visit p :: evs, up, cache =>
    match visit env ⟨low, up⟩ cache p with
    | none => none
    | some (es, cache') => (walkIn env low evs up cache').map (es ++ ·)

/-- src/sandbox/changes/changes.rs:69-75: what is left of the pass when nothing more is written meanwhile. -/
def renamedNow (up : FS) : List UpperEntry → Option (List Path)
  | [] => some []
  | e :: es =>
    match up.get e.upperPath with
    | none => none
    | some n => (renamedNow up es).map ((if n.redirect.isSome then e.sourcePath.toList else []) ++ ·)

/-- src/sandbox/changes/changes.rs:69-75: the sources of renames.  The redirect is read now (`is_renamed`, src/sandbox/changes/file_details.rs:103-166; a path that is gone is an error), the source is that found
by the walk. -/
def renamedIn : List Ev → FS → List UpperEntry → Option (List Path)
  | [], up, ues => renamedNow up ues
  | .write w :: evs, up, ues => renamedIn evs (write up w) ues
  | .visit _ :: evs, up, ues => renamedIn evs up ues
  | .step :: _, _, [] => some []
  | .step :: evs, up, e :: es =>
    match up.get e.upperPath with
    | none => none
    | some n => (renamedIn evs up es).map ((if n.redirect.isSome then e.sourcePath.toList else []) ++ ·)

/-- The `stat` taken by the walk with the attributes of `now`: `is_opaque`, `is_removed` and `is_renamed` read the attributes again (src/sandbox/changes/file_details.rs:57-166). -/
def Node.withAttrs (old now : Node) : Node := { old with opq := now.opq, whiteout := now.whiteout, redirect := now.redirect }

/-- src/sandbox/changes/changes.rs:77-204, the body of the loop: what one entry of the walk stands for, if `now` is at its path.  Creations, modifications and unsupported files carry the
details taken now (`upper_file_details`), the others those of the walk. -/
def entriesAt (st : State) (renamed : List Path) (e : UpperEntry) (now : Node) : List Entry :=
  let e' := { e with node := e.node.withAttrs now }
  removesOf st renamed e' ++ (setsOf st e').map (fun x =>
    match x.op with
    | .set _ => { x with staged := some ⟨e.upperPath, now⟩ }
    | .error .unsupportedFileType => { x with staged := some ⟨e.upperPath, now⟩ }
    | _ => x)

/-- src/sandbox/changes/changes.rs:77-204: what is left of the loop when nothing more is written meanwhile. -/
def listNow (st : State) (renamed : List Path) : List UpperEntry → Option (List Entry)
  | [] => some []
  | e :: es =>
    match st.upper.get e.upperPath with
    | none => none
    | some n => (listNow st renamed es).map (entriesAt st renamed e n ++ ·)

/-- src/sandbox/changes/changes.rs:77-204: the second loop.  A path that is gone is an error (78-79). -/
def listIn (low : FS) (renamed : List Path) : List Ev → FS → List UpperEntry → Option (List Entry)
  | [], up, ues => listNow ⟨low, up⟩ renamed ues
  | .write w :: evs, up, ues => listIn low renamed evs (write up w) ues
  | .visit _ :: evs, up, ues => listIn low renamed evs up ues
  | .step :: _, _, [] => some []
  | .step :: evs, up, e :: es =>
    match up.get e.upperPath with
    | none => none
    | some n => (listIn low renamed evs up es).map (entriesAt ⟨low, up⟩ renamed e n ++ ·)

/-- The writes among the events. -/
def writesOf (evs : List Ev) : List Write := evs.filterMap (fun v => match v with | .write w => some w | _ => none)

/-- The paths the walk arrives at. -/
def visitsOf (evs : List Ev) : List Path := evs.filterMap (fun v => match v with | .visit p => some p | _ => none)

/-- The storage after the events. -/
def after (evs : List Ev) (up : FS) : FS := (writesOf evs).foldl write up

/-- src/sandbox/changes/changes.rs:54-208 `changes`, with the events of its three passes: the list, or `none` if the command ends with an error. -/
def changesIn (env : Env) (st : State) (e1 e2 e3 : List Ev) : Option (List Entry) :=
  match walkIn env st.lower e1 st.upper [] with
  | none => none
  | some ues =>
    match renamedIn e2 (after e1 st.upper) ues with
    | none => none
    | some renamed => listIn st.lower renamed e3 (after e2 (after e1 st.upper)) ues

/-- What accept does with a list of changes made while commands ran in the sandbox (src/actions/accept.rs:118-438); `now`: the storage after the list was made, unchanged from then on. -/
def acceptList (env : Env) (all : List Entry) (now : State) : State × Option AccErr :=
  let sel := matching env.glob env.cwd env.patterns all
  if sel = [] then (now, none)
  else match pretendCheck env now sel with
    | some e => (now, some e)
    | none => run (plan env sel) now

end SB
