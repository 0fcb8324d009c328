import Verif.Model.Select
import Verif.Model.RmdirRec

/-!
# accept (src/actions/accept.rs:118-511)

`accept` first runs all its checks (`pretend = true`), then a straight-line sequence of file-system operations, stopping at the first
error.  The sequence does not depend on intermediate results, so it is modelled as a list of operations (`plan`) and an interpreter
(`exec`, `run`); crash points are prefixes of the list plus intermediate states of the operations that are not atomic.
-/

namespace SB

/-- One step of accept's real pass. -/
inductive Op where
  | rm (p : Path)                    -- src/actions/accept.rs:150 → 450-458
  | rmdir (p : Path)                 -- src/actions/accept.rs:155 → 507-511
  | mv (a b : Path)                  -- src/actions/accept.rs:262, 309, 378 → 478-482
  | cp (staged tmp : Path)           -- src/actions/accept.rs:308 → 472-476
  | rmIfExists (p : Path)            -- src/actions/accept.rs:321-328
  | ln (staged p : Path)             -- src/actions/accept.rs:320, 329 → 466-470
  | mkdirIfNeeded (p : Path)         -- src/actions/accept.rs:338-342 → 460-464
  | chown (p : Path) (uid gid : Nat) -- src/actions/accept.rs:440-442 → 484-494
  | chmod (p : Path) (perm : Nat)    -- src/actions/accept.rs:444-446 → 496-505
  | clean (p : Path)                 -- src/actions/accept.rs:403-410
deriving DecidableEq, Repr

inductive AccErr where
  | os (e : Errno)
  | rm (e : RmErr)
  | noSource (p : Path)
  | special (p : Path)
  | crossesMount (p : Path)
  | entry (p : Path) (e : ChangeError)
  | badStaged (p : Path)
deriving DecidableEq, Repr

def liftLower (st : State) : Except Errno FS → State × Option AccErr
  | .ok fs => ({ st with lower := fs }, none)
  | .error e => (st, some (.os e))

/-- Effect of one operation. -/
def exec (op : Op) (st : State) : State × Option AccErr :=
  match op with
  | .rm p => liftLower st (st.lower.unlink p)
  | .rmdir p => liftLower st (st.lower.rmdir p)
  | .mv a b => liftLower st (st.lower.rename a b)
  | .cp s t =>
    match st.upper.get s with
    | none => (st, some (.os .ENOENT))
    | some n => match n.kind with
      | .reg d => liftLower st (st.lower.writeFile t d n.perm)
      | _ => (st, some (.os .EINVAL))
  | .rmIfExists p =>
    match st.lower.lstat p with
    | .ok _ => liftLower st (st.lower.unlink p)
    | .error .ENOENT => (st, none)
    | .error e => (st, some (.os e))
  | .ln s p =>
    match st.upper.get s with
    | none => (st, some (.os .ENOENT))
    | some n => match n.kind with
      | .lnk t => liftLower st (st.lower.symlink t p)
      | _ => (st, some (.os .EINVAL))
  | .mkdirIfNeeded p =>
    if st.lower.pisDir p then (st, none) else liftLower st (st.lower.mkdir p)
  | .chown p u g => liftLower st (st.lower.chown p u g)
  | .chmod p m => liftLower st (st.lower.chmod p m)
  | .clean p =>
    match st.upper.get p with
    | none => (st, some (.os .ENOENT))
    | some n =>
      if n.isDir then
        match rmdirRecursive st.upper p with
        | (up, none) => ({ st with upper := up }, none)
        | (up, some e) => ({ st with upper := up }, some (.rm e))
      else
        match st.upper.unlink p with
        | .ok up => ({ st with upper := up }, none)
        | .error e => (st, some (.os e))

/-- Run operations until the first error. -/
def run : List Op → State → State × Option AccErr
  | [], st => (st, none)
  | op :: ops, st =>
    match exec op st with
    | (st', none) => run ops st'
    | (st', some e) => (st', some e)

/-- Intermediate states of the operations that are not atomic: while copying, the temporary file has arbitrary content and some of the mode bits of the file that is copied
(`std::fs::copy` opens it with that mode, less the umask, and then sets the mode); while a staged directory is being removed, an arbitrary part of it is already gone. -/
inductive Mid : Op → State → State → Prop where
  | cp {st : State} {s t : Path} {n : Node} {d : Str} {m : Nat} {fs : FS} :
      st.upper.get s = some n → (∀ i, m.testBit i = true → n.perm.testBit i = true) →
      st.lower.writeFile t d m = .ok fs → Mid (.cp s t) st { st with lower := fs }
  | clean {st : State} {p : Path} {keep : Path → Bool} :
      (∀ q, ¬ p <+: q → keep q = true) →
      Mid (.clean p) st { st with upper := st.upper.filter (fun e => keep e.1) }

/-- States in which the program can be interrupted (crash, kill, power loss) while running `ops` from `st`. -/
inductive CrashState : List Op → State → State → Prop where
  | here {ops st} : CrashState ops st st
  | mid {op ops st st'} : Mid op st st' → CrashState (op :: ops) st st'
  | failed {op ops st st' e} : exec op st = (st', some e) → CrashState (op :: ops) st st'
  | later {op ops st st' st''} : exec op st = (st', none) → CrashState ops st' st'' → CrashState (op :: ops) st st''

/-! ### building the plan -/

/-- Removals: src/actions/accept.rs:139-169 (with `pretend = false`). -/
def removeOps (cs : List Entry) : List Op :=
  cs.flatMap (fun e =>
    match e.op, e.source with
    | .remove, some s => if s.node.isReg || s.node.isLnk then [.rm s.path] else [.rmdir s.path]
    | _, _ => [])

/-- The checks of the removal loop: src/actions/accept.rs:139-169 (with `pretend = true`). -/
def checkRemoves : List Entry → Option AccErr
  | [] => none
  | e :: r =>
    match e.op with
    | .remove =>
      match e.source with
      | none => some (.noSource e.dest)
      | some s =>
        if s.node.isReg || s.node.isLnk || s.node.isDir then checkRemoves r
        else some (.special s.path)
    | _ => checkRemoves r

/-- Last component as text, empty for the root (`file_name().unwrap_or_default()`). -/
def fileName (p : Path) : Name := p.getLast?.getD []

/-- src/actions/accept.rs:182-187: name of the temporary in the current directory. -/
def renameTmp (cwd : Path) (src dst : Path) (uuid : Str) : Path :=
  cwd ++ [str ".rename-" ++ fileName src ++ str "-to-" ++ fileName dst ++ str "-" ++ uuid]

/-- src/actions/accept.rs:171-208: give every rename entry its temporary path. -/
def assignTmps (env : Env) : Nat → List Entry → List Entry
  | _, [] => []
  | i, e :: r =>
    match e.op, e.source with
    | .rename, some s => { e with tmp := some (renameTmp env.cwd s.path e.dest (env.uuidR i)) } :: assignTmps env (i + 1) r
    | _, _ => e :: assignTmps env i r

/-- src/actions/accept.rs:217-264 (real pass): move every renamed path to its temporary. -/
def premoveOps (cs : List Entry) : List Op :=
  cs.flatMap (fun e =>
    match e.op, e.source, e.tmp with
    | .rename, some s, some t => [.mv s.path t]
    | _, _, _ => [])

/-- src/actions/accept.rs:217-255 (pretend pass): source, temporary and destination must be on one mount. -/
def checkRenames (fs : FS) : List Entry → Option AccErr
  | [] => none
  | e :: r =>
    match e.op, e.source, e.tmp with
    | .rename, some s, some t =>
      if findMountPoint fs s.path = findMountPoint fs t ∧ findMountPoint fs t = findMountPoint fs e.dest then checkRenames fs r
      else some (.crossesMount s.path)
    | _, _, _ => checkRenames fs r

/-- `Path::with_extension` on a file name (std): the part before the last dot (unless that is empty), a dot, the extension. -/
def withExtension (n : Name) (ext : Str) : Name :=
  let i := (n.reverse.takeWhile (· ≠ '.')).length
  let stem := n.take (n.length - i - 1)
  (if '.' ∈ n ∧ stem ≠ [] then stem else n) ++ '.' :: ext

/-- src/actions/accept.rs:304-307: temporary beside the destination. -/
def copyTmp (dest : Path) (uuid : Str) : Path := dest.dropLast ++ [withExtension (fileName dest) uuid]

/-- src/actions/accept.rs:440-448 `set_permissions` -/
def permOps (p : Path) (n : Node) : List Op :=
  .chown p n.uid n.gid :: (if n.isLnk then [] else [.chmod p n.perm])

/-- src/actions/accept.rs:302-346, operations of one `Set` entry (`tmp` = temporary name for a copied file).
Simplification: the target of a link is read together with `ln`, not just before `rmIfExists` (line 320); with the storage at rest this is the same, and `Model/Together.lean` (`late`) allows for the difference. -/
def setOps (dest : Path) (staged : Details) (tmp : Path) : List Op :=
  if staged.node.isReg then
    .cp staged.path tmp :: .mv tmp dest :: permOps dest staged.node
  else if staged.node.isLnk then
    .rmIfExists dest :: .ln staged.path dest :: permOps dest staged.node
  else
    .mkdirIfNeeded dest :: permOps dest staged.node

/-- src/actions/accept.rs:266-393 (real pass): the ascending pass over sets and renames. -/
def applyOps (env : Env) : Nat → List Entry → List Op
  | _, [] => []
  | i, e :: r =>
    (match e.op, e.staged, e.tmp with
     | .set _, some s, _ => setOps e.dest s (copyTmp e.dest (env.uuidC i))
     | .rename, _, some t => [.mv t e.dest]
     | _, _, _ => []) ++ applyOps env (i + 1) r

/-- src/actions/accept.rs:266-393 (pretend pass): error entries and unusable staged files stop the accept. -/
def checkApply : List Entry → Option AccErr
  | [] => none
  | e :: r =>
    match e.op with
    | .error x => some (.entry e.dest x)
    | .set _ =>
      match e.staged with
      | none => some (.badStaged e.dest)
      | some s => if s.node.isReg || s.node.isLnk || s.node.isDir then checkApply r else some (.badStaged e.dest)
    | _ => checkApply r

/-- Staged paths to clean up: src/actions/accept.rs:163-167, 311-312, 331-332, 344-345, 379-382 (any order: they are sorted next). -/
def stagedPaths (cs : List Entry) : List Path :=
  cs.filterMap (fun e =>
    match e.op, e.staged with
    | .error _, _ => none
    | _, some s => some s.path
    | _, none => none)

/-- `Vec::dedup`: drop consecutive repetitions (std). -/
def dedupConsec : List Path → List Path
  | [] => []
  | [p] => [p]
  | p :: q :: r => if p = q then dedupConsec (q :: r) else p :: dedupConsec (q :: r)

/-- src/actions/accept.rs:395-411: children first, each path once. -/
def cleanOps (cs : List Entry) : List Op :=
  (dedupConsec (stableSort (fun a b => decide (b ≤ a)) (stagedPaths cs))).map .clean

/-- Result of an accept run. -/
structure AcceptResult where
  state : State
  error : Option AccErr
  accepted : Nat
  nonMatching : Nat
deriving DecidableEq, Repr

/-- Entries as ordered when the real pass starts (after the pretend pass has sorted them three times): src/actions/accept.rs:140, 172, 267. -/
def afterPretend (env : Env) (sel : List Entry) : List Entry :=
  stableSort byDestination (assignTmps env 0 (stableSort byReverseSource (stableSort byReverseSource sel)))

/-- The checks of the pretend pass, in order: src/actions/accept.rs:135-393. -/
def pretendCheck (env : Env) (st : State) (sel : List Entry) : Option AccErr :=
  let c1 := stableSort byReverseSource sel
  match checkRemoves c1 with
  | some e => some e
  | none =>
    let c2 := assignTmps env 0 (stableSort byReverseSource c1)
    match checkRenames st.lower c2 with
    | some e => some e
    | none => checkApply (stableSort byDestination c2)

/-- Entries during the real pass: (removal order, rename order with temporaries, apply order). -/
def realOrders (env : Env) (sel : List Entry) : List Entry × List Entry × List Entry :=
  let c3 := stableSort byReverseSource (afterPretend env sel)
  let c4 := assignTmps env 0 (stableSort byReverseSource c3)
  (c3, c4, stableSort byDestination c4)

/-- The host-changing part of the real pass. -/
def applyPlan (env : Env) (sel : List Entry) : List Op :=
  let (c3, c4, c5) := realOrders env sel
  removeOps c3 ++ premoveOps c4 ++ applyOps env 0 c5

/-- All operations of the real pass: src/actions/accept.rs:135-411 with `pretend = false`. -/
def plan (env : Env) (sel : List Entry) : List Op :=
  applyPlan env sel ++ cleanOps (realOrders env sel).2.2

/-- src/actions/accept.rs:148, 153, 297-300, 368: what the real pass counts. -/
def acceptedCount (sel : List Entry) : Nat :=
  (sel.filter (fun e =>
    match e.op with
    | .remove => true
    | .rename => true
    | .set _ => e.staged.isSome && e.isActuallyModified
    | .error _ => false)).length

/-- src/actions/accept.rs:118-438 `accept` -/
def accept (env : Env) (st : State) : AcceptResult :=
  let all := changes env st
  let sel := matching env.glob env.cwd env.patterns all
  let nm := nonMatchingCount all sel
  if sel = [] then { state := st, error := none, accepted := 0, nonMatching := nm }
  else match pretendCheck env st sel with
    | some e => { state := st, error := some e, accepted := 0, nonMatching := nm }
    | none =>
      let (st', err) := run (plan env sel) st
      { state := st', error := err, accepted := if err.isNone then acceptedCount sel else 0, nonMatching := nm }

/-- States in which accept can be found, interrupted or ended: the initial state (before the real pass) and the crash states of the real pass
(src/actions/accept.rs:118-438). -/
inductive AcceptState (env : Env) (st : State) : State → Prop where
  | before : AcceptState env st st
  | during {st' : State} : pretendCheck env st (selected env st) = none → CrashState (plan env (selected env st)) st st' → AcceptState env st st'

end SB
