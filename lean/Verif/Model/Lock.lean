import Verif.Basic

/-!
# Locking and starting a sandbox among concurrent processes: src/util/lock_sandbox.rs, src/sandbox/get_or_create.rs:70-307

Two transition systems: the lock file with `flock`, and the start of a sandbox under the lock.
-/

namespace SB

/-- Function update. -/
def upd {α : Type} (f : Nat → α) (a : Nat) (b : α) : Nat → α := fun x => if x = a then b else f x

namespace LockM

/-- An open file description of a lock file: the file (inode), the processes that have a descriptor for it, and whether it holds the lock (`flock` locks belong to open
file descriptions, flock(2)).  `opener` is the process that opened it. -/
structure Ofd where
  inode : Nat
  opener : Nat
  procs : List Nat
  locked : Bool
deriving DecidableEq, Repr

structure M where
  /-- the file at NAME.lock -/
  file : Option Nat
  /-- inodes below this number have been used -/
  next : Nat
  ofds : List Ofd
  /-- how often NAME.lock has been unlinked -/
  unlinks : Nat
deriving DecidableEq, Repr

/-- No descriptions: nobody has opened the file yet; the file may exist. -/
def M.Init (m : M) : Prop := m.ofds = [] ∧ m.unlinks = 0 ∧ ∀ i, m.file = some i → i < m.next ∧ m.next = i + 1

/-- Removing process `p` from a description; descriptions nobody refers to vanish, and with them their lock. -/
def close (p : Nat) (l : List Ofd) : List Ofd := (l.map (fun o => { o with procs := o.procs.filter (· ≠ p) })).filter (fun o => o.procs ≠ [])

/-- What can happen.  `openOld`/`openNew`: src/util/lock_sandbox.rs:23-29 (`O_CREAT`).  `acquire`: src/util/lock_sandbox.rs:41-43, `flock(LOCK_EX)` returns.
`release`: the `Flock` is dropped (`LOCK_UN`) at the end of the operation, by the process that opened it.  `fork`: `clone3` (src/sandbox/get_or_create.rs:254) gives the
sandbox's first process a copy of the descriptor, which it never closes or unlocks; it is a new process.  `unlink`: src/sandbox/delete.rs:20-24, by a process that
holds the lock.  `exit`: a process ends or is killed. -/
inductive Step : M → M → Prop
  | openOld (m : M) (p i : Nat) : m.file = some i → Step m { m with ofds := ⟨i, p, [p], false⟩ :: m.ofds }
  | openNew (m : M) (p : Nat) : m.file = none → Step m { m with file := some m.next, next := m.next + 1, ofds := ⟨m.next, p, [p], false⟩ :: m.ofds }
  | acquire (m : M) (pre post : List Ofd) (o : Ofd) : m.ofds = pre ++ o :: post → (∀ x ∈ m.ofds, x.inode = o.inode → x.locked = false) →
      Step m { m with ofds := pre ++ { o with locked := true } :: post }
  | release (m : M) (pre post : List Ofd) (o : Ofd) : m.ofds = pre ++ o :: post → o.locked = true → o.opener ∈ o.procs →
      Step m { m with ofds := pre ++ close o.opener [{ o with locked := false }] ++ post }
  | fork (m : M) (pre post : List Ofd) (o : Ofd) (c : Nat) : m.ofds = pre ++ o :: post → o.locked = true → o.opener ∈ o.procs → (∀ x ∈ m.ofds, x.opener ≠ c ∧ c ∉ x.procs) →
      Step m { m with ofds := pre ++ { o with procs := c :: o.procs } :: post }
  | unlink (m : M) (o : Ofd) : o ∈ m.ofds → o.locked = true → m.file.isSome → Step m { m with file := none, unlinks := m.unlinks + 1 }
  | exit (m : M) (p : Nat) : Step m { m with ofds := close p m.ofds }

inductive Reach (m0 : M) : M → Prop
  | start : Reach m0 m0
  | step {m m' : M} : Reach m0 m → Step m m' → Reach m0 m'

end LockM

/-! ### Starting under the lock -/

namespace StartM

/-- Where a process that runs `sandbox CMD` or `sandbox stop` is (src/sandbox/get_or_create.rs:70-307, src/sandbox/exec.rs:59-72, src/actions/stop.rs:10-34).  `orphaned`: it was
killed and the sandbox's first process still has its lock.  `failed`: it is gone, or has given up (`stop` also when it has succeeded). -/
inductive Phase where
  | idle | locked | creating | cloned (pid : Nat) | truncated (pid : Nat) | waiting (pid : Nat) | orphaned (pid : Nat) | entering (pid : Nat) | entered (pid : Nat)
  | stopping (pid : Nat) | failed
deriving DecidableEq, Repr

def Phase.holds : Phase → Bool
  | .locked | .creating | .cloned _ | .truncated _ | .waiting _ | .orphaned _ | .stopping _ => true
  | _ => false

/-- What has become of the first process of an instance: setting up, ready (it sleeps forever), ready but stopped by a signal (state T), killed but not gone yet, gone;
`foreign`: gone, and its number now belongs to a process that has nothing to do with the sandbox. -/
inductive Init where | setting | ready | frozen | dying | dead | foreign
deriving DecidableEq, Repr

structure M where
  phase : Nat → Phase
  init : Nat → Option Init
  /-- NAME.pid: missing, empty, or a process number -/
  pidFile : Option (Option Nat)
  /-- (process, first process of the sandbox it started) -/
  started : List (Nat × Nat)

/-- The instance exists: its first process, and so its mounts and the commands in it, are not gone. -/
def M.alive (m : M) (pid : Nat) : Prop := m.init pid = some .setting ∨ m.init pid = some .ready ∨ m.init pid = some .frozen ∨ m.init pid = some .dying

/-- The pid file names a process that exists and is not stopped (src/util/get_running_sandbox_pid.rs:12-49). -/
def M.running (m : M) (pid : Nat) : Prop :=
  m.pidFile = some (some pid) ∧ (m.init pid = some .setting ∨ m.init pid = some .ready ∨ m.init pid = some .dying ∨ m.init pid = some .foreign)

def M.Init (m : M) : Prop := (∀ p, m.phase p = .idle) ∧ (∀ q, m.init q = none) ∧ (∀ pid, ¬ m.running pid) ∧ m.started = []

/-- What may go wrong: writing the pid file fails; the first process is stopped by a signal; a killed process takes some time to disappear; the number of a process that is gone is given
to another one. -/
structure Faults where
  write : Bool := false
  freeze : Bool := false
  lag : Bool := false
  reuse : Bool := false

/-- What can happen.

`lock`: src/sandbox/get_or_create.rs:78-81, 120 (one holder at a time: C45).  `join`, `stale`: :124-158.  `giveUp`: any error before the clone, or the process is killed.
`clone`: :254.  `truncate`, `write`: :263 (`std::fs::write` creates or empties the file, then writes).  `writeFails`: an error there.  `setupOk`, `setupFails`: :286-304,
in the sandbox's first process (`setupFails` also: it is killed).  `reported`: :272-283, the parent's `read` returns; it takes the sandbox for started or fails.
`killed`, `orphanGone`: the starting process is killed; its lock is released when the sandbox's first process is gone.  `enter`, `enterFails`: src/sandbox/exec.rs:59-66, which
only fails if there is no process with this number.  `stopNothing`, `stopKill`, `stopDone`: src/actions/stop.rs:10-34, src/sandbox/stop.rs:8-147; SIGKILL is sent, nobody waits until
the process is gone; `stopFails`: any error in between.  `die`: a first process is killed by somebody, or has been killed and is gone now.  `freeze`, `thaw`: SIGSTOP, SIGCONT.
`reuse`, `foreignGone`: processes that have nothing to do with the sandbox come and go.  `reboot`: the machine is restarted; the storage stays what it is. -/
inductive Step (f : Faults) : M → M → Prop
  | lock (m : M) (p : Nat) : m.phase p = .idle → (∀ q, (m.phase q).holds = false) → Step f m { m with phase := upd m.phase p .locked }
  | join (m : M) (p pid : Nat) : m.phase p = .locked → m.running pid → Step f m { m with phase := upd m.phase p (.entering pid) }
  | stale (m : M) (p : Nat) : m.phase p = .locked → (∀ pid, ¬ m.running pid) → Step f m { m with phase := upd m.phase p .creating, pidFile := none }
  | giveUp (m : M) (p : Nat) : m.phase p ∈ [.idle, .locked, .creating] → Step f m { m with phase := upd m.phase p .failed }
  | clone (m : M) (p pid : Nat) : m.phase p = .creating → m.init pid = none →
      Step f m { m with phase := upd m.phase p (.cloned pid), init := upd m.init pid (some .setting), started := (p, pid) :: m.started }
  | truncate (m : M) (p pid : Nat) : m.phase p = .cloned pid → Step f m { m with phase := upd m.phase p (.truncated pid), pidFile := some none }
  | write (m : M) (p pid : Nat) : m.phase p = .truncated pid → Step f m { m with phase := upd m.phase p (.waiting pid), pidFile := some (some pid) }
  | writeFails (m : M) (p pid : Nat) : f.write = true → m.phase p ∈ [.cloned pid, .truncated pid] → Step f m { m with phase := upd m.phase p .failed }
  | setupOk (m : M) (pid : Nat) : m.init pid = some .setting → Step f m { m with init := upd m.init pid (some .ready) }
  | setupFails (m : M) (pid : Nat) : m.init pid = some .setting → Step f m { m with init := upd m.init pid (some .dead) }
  | reported (m : M) (p pid : Nat) (ph : Phase) : m.phase p = .waiting pid → (m.init pid = some .ready ∧ ph = .entering pid ∨ m.init pid = some .dead ∧ ph ∈ [.entering pid, .failed]) →
      Step f m { m with phase := upd m.phase p ph }
  | killed (m : M) (p pid : Nat) : m.phase p ∈ [.cloned pid, .truncated pid, .waiting pid] → Step f m { m with phase := upd m.phase p (.orphaned pid) }
  | orphanGone (m : M) (p pid : Nat) : m.phase p = .orphaned pid → m.init pid = some .dead → Step f m { m with phase := upd m.phase p .failed }
  | enter (m : M) (p pid : Nat) : m.phase p = .entering pid → (m.alive pid ∨ m.init pid = some .foreign) → Step f m { m with phase := upd m.phase p (.entered pid) }
  | enterFails (m : M) (p pid : Nat) : m.phase p = .entering pid → Step f m { m with phase := upd m.phase p .failed }
  | stopNothing (m : M) (p : Nat) : m.phase p = .locked → (∀ pid, ¬ m.running pid) → Step f m { m with phase := upd m.phase p .failed, pidFile := none }
  | stopKill (m : M) (p pid : Nat) : m.phase p = .locked → m.running pid →
      Step f m { m with phase := upd m.phase p (.stopping pid), init := upd m.init pid (if m.init pid = some .foreign then some .dead else some .dying) }
  | stopDone (m : M) (p pid : Nat) : m.phase p = .stopping pid → (f.lag = true ∨ ¬ m.alive pid) → Step f m { m with phase := upd m.phase p .failed, pidFile := none }
  | stopFails (m : M) (p pid : Nat) : m.phase p = .stopping pid → Step f m { m with phase := upd m.phase p .failed }
  | die (m : M) (pid : Nat) : m.init pid = some .ready ∨ m.init pid = some .frozen ∨ m.init pid = some .dying → Step f m { m with init := upd m.init pid (some .dead) }
  | freeze (m : M) (pid : Nat) : f.freeze = true → m.init pid = some .ready → Step f m { m with init := upd m.init pid (some .frozen) }
  | thaw (m : M) (pid : Nat) : m.init pid = some .frozen → Step f m { m with init := upd m.init pid (some .ready) }
  | reuse (m : M) (pid : Nat) : f.reuse = true → m.init pid = some .dead → Step f m { m with init := upd m.init pid (some .foreign) }
  | foreignGone (m : M) (pid : Nat) : m.init pid = some .foreign → Step f m { m with init := upd m.init pid (some .dead) }
  | reboot (m : M) : Step f m { m with phase := fun p => if m.phase p = .idle then .idle else .failed, init := fun pid => (m.init pid).map (fun _ => .dead) }

inductive Reach (f : Faults) (m0 : M) : M → Prop
  | start : Reach f m0 m0
  | step {m m' : M} : Reach f m0 m → Step f m m' → Reach f m0 m'

end StartM

/-! ### The ready pipe -/

/-- How one set-up step of the sandbox's first process ends (src/sandbox/get_or_create.rs:310-949): successfully, with an error, or the process dies (panic, signal). -/
inductive SetupStep where | ok | error | dies
deriving DecidableEq, Repr

/-- What the first process does: sends 0 when all steps succeeded (:947), 1 after an error (:302), nothing if it dies. -/
def childSends : List SetupStep → Option Nat
  | [] => some 0
  | .ok :: r => childSends r
  | .error :: _ => some 1
  | .dies :: _ => none

/-- src/sandbox/get_or_create.rs:271-283: the parent's buffer is 0 to begin with, `read` at the end of file (nobody has the other end open any more) leaves it so. -/
def startSucceeds (steps : List SetupStep) : Bool :=
  let buffer := (childSends steps).getD 0
  buffer ≠ 1

end SB
