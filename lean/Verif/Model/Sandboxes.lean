import Verif.Model.Config
import Verif.Model.RmdirRec

/-!
# Files and processes of sandboxes: get, stop, delete, list

src/sandbox/get_or_create.rs:43-104 (`from_location`, `get`), src/sandbox/exists.rs, src/sandbox/stop.rs, src/sandbox/delete.rs, src/util/lock_sandbox.rs,
src/util/get_running_sandbox_pid.rs, src/actions/stop.rs, src/actions/delete.rs, src/actions/list.rs.  Sequential here; interleavings are in Verif/Model/Lock.lean.
-/

namespace SB

/-! ### Files of a sandbox -/

/-- src/sandbox/get_or_create.rs:49-50: `storage_dir.join(name)`. -/
def sandboxDir (storage : Path) (name : Name) : Path := ((RPath.ofPath storage).join (parsePath name)).comps

/-- src/util/lock_sandbox.rs:21-22, src/sandbox/delete.rs:19 (for names without `/`) -/
def lockFile (storage : Path) (name : Name) : Path := storage ++ [name ++ str ".lock"]

/-- src/util/get_running_sandbox_pid.rs:54-59, src/sandbox/stop.rs:137 -/
def pidFile (storage : Path) (name : Name) : Path := storage ++ [name ++ str ".pid"]

/-- A process: `/proc/PID/stat` (name and state), `/proc/PID/ns/pid`, `/proc/PID/ns/pid_for_children`. -/
structure Proc where
  pid : Nat
  comm : Str
  state : Char
  ns : Nat
  nsChildren : Nat
deriving DecidableEq, Repr

/-- The machine: files, processes, and for which numbers ≤ 0 `kill(number, 0)` succeeds (process groups). -/
structure Sys where
  fs : FS
  procs : List Proc
  group : Int → Bool

/-- Content of a regular file, following symbolic links. -/
def readText (fs : FS) (p : Path) : Option Str :=
  match fs.stat p with
  | .ok n => match n.kind with | .reg d => some d | _ => none
  | .error _ => none

def digitVal (c : Char) : Option Nat := if '0'.toNat ≤ c.toNat ∧ c.toNat ≤ '9'.toNat then some (c.toNat - '0'.toNat) else none

/-- Decimal digits, at least one. -/
def parseDigits : Nat → Str → Option Nat
  | acc, [] => some acc
  | acc, c :: r => match digitVal c with | none => none | some d => parseDigits (10 * acc + d) r

/-- `str::parse::<i32>()` (std): optional sign, digits, in range. -/
def parseI32 (s : Str) : Option Int :=
  match s with
  | [] => none
  | c :: r =>
    let (neg, ds) := if c = '-' then (true, r) else if c = '+' then (false, r) else (false, s)
    if ds = [] then none
    else match parseDigits 0 ds with
      | none => none
      | some n => if neg then (if n ≤ 2147483648 then some (-(n : Int)) else none) else (if n < 2147483648 then some (n : Int) else none)

/-- Words of a text (`split_whitespace`). -/
def words : Str → List Str
  | [] => []
  | c :: r => if isWs c then words r else match r, words r with
    | [], ws => [c] :: ws
    | d :: _, w :: ws => if isWs d then [c] :: w :: ws else (c :: w) :: ws
    | _ :: _, [] => [[c]]

/-- The word src/util/get_running_sandbox_pid.rs:38-42 takes for the state: the third of `PID (comm) STATE …`. -/
def statWord (p : Proc) : Option Str := (words (str "0 (" ++ p.comm ++ str ") " ++ [p.state] ++ str " 0"))[2]?

/-- src/util/get_running_sandbox_pid.rs:17-44: the process of a running sandbox (`/proc/N` exists for positive `N` only). -/
def runningPid (s : Sys) (storage : Path) (name : Name) : Option Nat :=
  match (readText s.fs (pidFile storage name)).bind parseI32 with
  | none => none
  | some i => match s.procs.find? (fun p => (p.pid : Int) = i) with
    | none => none
    | some p => match statWord p with
      | none => none
      | some w => if w ≠ ['Z'] ∧ w ≠ ['T'] then some p.pid else none

/-- src/util/lock_sandbox.rs:17-48: open (creating it if it is missing) and lock.  Simplification: a lock file that is a dangling symbolic link is an error. -/
def openLock (fs : FS) (p : Path) : Except Errno FS :=
  if fs.pexists p then (if fs.pisDir p then .error .EISDIR else .ok fs)
  else match fs.canon p with
    | .error e => .error e
    | .ok c => match fs.get c with
      | some _ => .error .ENOENT
      | none => .ok (fs.set c { kind := .reg [], perm := 420, dev := fs.devOf c.dropLast })

/-- src/sandbox/get_or_create.rs:70-104 `get`: lock, then look for the process; a pid file without one is removed (src/util/get_running_sandbox_pid.rs:46-51). -/
def getSandbox (s : Sys) (storage : Path) (name : Name) : Except Errno (Sys × Option Nat) :=
  match openLock s.fs (lockFile storage name) with
  | .error e => .error e
  | .ok fs =>
    let s := { s with fs := fs }
    if !s.fs.pexists (sandboxDir storage name) then .ok (s, none)
    else match runningPid s storage name with
      | some pid => .ok (s, some pid)
      | none =>
        if s.fs.pexists (pidFile storage name) then
          match s.fs.unlink (pidFile storage name) with
          | .ok fs => .ok ({ s with fs := fs }, none)
          | .error _ => .ok (s, none)
        else .ok (s, none)

/-- src/sandbox/stop.rs:9-134: kill every process in the pid namespace of the sandbox's process. -/
def killSandbox (s : Sys) (pid : Option Nat) : Sys :=
  match pid with
  | none => s
  | some pid => match s.procs.find? (fun p => p.pid = pid) with
    | none => s
    | some i => { s with procs := s.procs.filter (fun p => p.ns ≠ i.nsChildren) }

/-- src/sandbox/stop.rs:137-144 -/
def removePidFile (fault : Fault) (fs : FS) (storage : Path) (name : Name) : Except Errno FS :=
  if fs.pexists (pidFile storage name) then faulty fault (pidFile storage name) (fs.unlink (pidFile storage name)) else .ok fs

/-- src/actions/accept.rs:513-564 `rmdir_recursive` for a path that may be a symbolic link: `lstat` looks at the link (for a last component `..`
it is the same as `stat`), `read_dir` follows it. -/
def rmdirAt (fault : Fault) (fs : FS) (base : Path) : FS × Option RmErr :=
  match (if base.getLast? = some ['.', '.'] then fs.stat base else fs.lstat base) with
  | .error e => (fs, some (.os e))
  | .ok n => match fs.realpath base with
    | .error e => (fs, some (.os e))
    | .ok p =>
      if !fs.isDirAt p then (fs, some (.os .ENOTDIR))
      else match rmEntries fault (rmdirRecN fault fs.length) n.dev (fs.children p) fs with
        | (fs', some e) => (fs', some e)
        | (fs', none) => match faulty fault base (fs'.rmdir base) with
          | .ok fs'' => (fs'', none)
          | .error e => (fs', some (.os e))

/-- src/sandbox/delete.rs:8-32 `Sandbox::delete` (`fault`: which deletion fails, or where the process is killed).  Unmounting is C32. -/
def deleteSandbox (fault : Fault) (s : Sys) (storage : Path) (name : Name) (pid : Option Nat) : Sys × Option RmErr :=
  let s := killSandbox s pid
  match removePidFile fault s.fs storage name with
  | .error e => (s, some (.os e))
  | .ok fs =>
    let s := { s with fs := fs }
    match (if s.fs.pexists (sandboxDir storage name) then rmdirAt fault s.fs (sandboxDir storage name) else (s.fs, none)) with
    | (fs, some e) => ({ s with fs := fs }, some e)
    | (fs, none) =>
      match faulty fault (lockFile storage name) (fs.unlink (lockFile storage name)) with
      | .ok fs' => ({ s with fs := fs' }, none)
      | .error e => ({ s with fs := fs }, some (.os e))

/-! ### list -/

/-- Name of the sandbox whose lock file has this name. -/
def lockOwner (file : Name) : Option Name := if (str ".lock").isSuffixOf file then some (file.take (file.length - 5)) else none

/-- `kill(i, 0)` succeeds. -/
def Sys.signalable (s : Sys) (i : Int) : Bool := if 0 < i then s.procs.any (fun p => (p.pid : Int) = i) else s.group i

/-- src/actions/list.rs:79-102: is the sandbox shown as running?  `error`: the pid file cannot be read. -/
def listRunning (s : Sys) (storage : Path) (name : Name) : Except Errno Bool :=
  if s.fs.pexists (pidFile storage name) then
    match readText s.fs (pidFile storage name) with
    | none => .error .EISDIR
    | some t => match parseI32 t with
      | some i => .ok (s.signalable i)
      | none => .ok false
  else .ok false

/-- The loop of src/actions/list.rs:62-105. -/
def listLoop (s : Sys) (glob : Str → Str → Bool) (storage : Path) (patterns : List Str) : List Name → Except Errno (List Name × List Name)
  | [] => .ok ([], [])
  | f :: r => match lockOwner f with
    | none => listLoop s glob storage patterns r
    | some n =>
      if patterns = [] ∨ patterns.any (fun p => glob p n) then
        match listRunning s storage n with
        | .error e => .error e
        | .ok b => match listLoop s glob storage patterns r with
          | .error e => .error e
          | .ok (run, stop) => .ok (if b then (n :: run, stop) else (run, n :: stop))
      else listLoop s glob storage patterns r

/-- Names in a directory. -/
def dirNames (fs : FS) (p : Path) : List Name := (fs.children p).map (fun q => q.getLastD [])

def sortNames (l : List Name) : List Name := stableSort (fun a b => decide (a ≤ b)) l

/-- src/actions/list.rs:54-108 `get_sandboxes`: running and stopped ones. -/
def getSandboxes (s : Sys) (glob : Str → Str → Bool) (storage : Path) (patterns : List Str) : Except Errno (List Name × List Name) :=
  if !s.fs.isDirAt storage then .error .ENOENT
  else match listLoop s glob storage patterns (dirNames s.fs storage) with
    | .error e => .error e
    | .ok (run, stop) => .ok (sortNames run, sortNames stop)

/-! ### delete -/

/-- src/sandbox/exists.rs:6-12 -/
def sandboxExists (fs : FS) (storage : Path) (name : Name) : Bool :=
  fs.pexists (sandboxDir storage name) || fs.pexists (pidFile storage name) || fs.pexists (lockFile storage name)

/-- src/actions/delete.rs:61-88: the sandboxes to delete, running ones first (looking for the running process may remove a stale pid file). -/
def toDelete (s : Sys) (glob : Str → Str → Bool) (storage : Path) (name : Name) (patterns : List Str) : Except Errno (Sys × List Name) :=
  if patterns = [] then
    if sandboxExists s.fs storage name then
      match getSandbox s storage name with
      | .error e => .error e
      | .ok (s, _) => .ok (s, [name])
    else .ok (s, [])
  else match getSandboxes s glob storage patterns with
    | .error e => .error e
    | .ok (run, stop) => .ok (s, run ++ stop)

/-- src/actions/delete.rs:121-145: the listing before the question looks at every sandbox. -/
def visitAll (storage : Path) : List Name → Sys → Except Errno Sys
  | [], s => .ok s
  | n :: r, s => match getSandbox s storage n with
    | .error e => .error e
    | .ok (s, _) => visitAll storage r s

/-- src/actions/delete.rs:154-159: the answer means yes. -/
def confirmed (answer : Str) : Bool := lower (trim answer) = ['y']

/-- src/actions/delete.rs:169-196: delete each; returns the names of the deleted ones, and of those for which an error was reported (the program's list `errors` has the messages). -/
def deleteEach (fault : Fault) (storage : Path) : List Name → Sys → Sys × List Name × List Name × Option Errno
  | [], s => (s, [], [], none)
  | n :: r, s => match getSandbox s storage n with
    | .error e => (s, [], [], some e)
    | .ok (s, pid) => match deleteSandbox fault s storage n pid with
      | (s, none) => match deleteEach fault storage r s with | (s, ds, fs, e) => (s, n :: ds, fs, e)
      | (s, some _) => match deleteEach fault storage r s with | (s, ds, fs, e) => (s, ds, n :: fs, e)

/-- src/actions/delete.rs:53-208 `delete`: the names deleted, those that failed, and the error the action ends with. -/
def deleteAction (fault : Fault) (glob : Str → Str → Bool) (storage : Path) (name : Name) (patterns : List Str) (force : Bool) (answer : Str) (s : Sys) :
    Sys × List Name × List Name × Option Errno :=
  match toDelete s glob storage name patterns with
  | .error e => (s, [], [], some e)
  | .ok (s, names) =>
    if names = [] then (s, [], [], none)
    else if force then deleteEach fault storage names s
    else match visitAll storage names s with
      | .error e => (s, [], [], some e)
      | .ok s => if confirmed answer then deleteEach fault storage names s else (s, [], [], none)

end SB
