import Verif.Model.Sandboxes

/-!
# `sandbox stop`: src/actions/stop.rs, src/sandbox/stop.rs

First the sequential commands, then the scan of `/proc` interleaved with everything else that happens on the machine.  Unmounting is C32.
-/

namespace SB

/-- src/actions/stop.rs:10-34 `stop` -/
def stopSandbox (fault : Fault) (s : Sys) (storage : Path) (name : Name) : Sys × Option Errno :=
  match getSandbox s storage name with
  | .error e => (s, some e)
  | .ok (s, pid) =>
    let s := killSandbox s pid
    match removePidFile fault s.fs storage name with
    | .error e => (s, some e)
    | .ok fs => ({ s with fs := fs }, none)

/-- The loop of src/actions/stop.rs:49-95 over the names in the storage directory. -/
def stopLoop (fault : Fault) (glob : Str → Str → Bool) (storage : Path) (patterns : List Str) : List Name → Sys → Sys
  | [], s => s
  | f :: r, s => match lockOwner f with
    | none => stopLoop fault glob storage patterns r s
    | some n =>
      if !s.fs.pexists (lockFile storage n) || !s.fs.pexists (pidFile storage n) || !s.fs.pexists (sandboxDir storage n) then stopLoop fault glob storage patterns r s
      else if patterns = [] ∨ patterns.any (fun p => glob (['*'] ++ p ++ ['*']) n) then
        stopLoop fault glob storage patterns r (stopSandbox fault s storage n).1
      else stopLoop fault glob storage patterns r s

/-- src/actions/stop.rs:36-98 `stop_all`.  Simplification: the directory is listed before the first sandbox is stopped. -/
def stopAll (fault : Fault) (glob : Str → Str → Bool) (storage : Path) (patterns : List Str) (s : Sys) : Sys :=
  stopLoop fault glob storage patterns (dirNames s.fs storage) s

/-! ### The scan of `/proc` among concurrent processes -/

namespace Scan

/-- A process: number, pid namespaces it is in (own first, then the ones around it), whether it is the first process (init) of its namespace. -/
structure P where
  pid : Nat
  ns : Nat
  outer : List Nat
  init : Bool
deriving DecidableEq, Repr

/-- The process is visible in namespace `n`. -/
def P.isIn (p : P) (n : Nat) : Prop := n = p.ns ∨ n ∈ p.outer

instance (p : P) (n : Nat) : Decidable (p.isIn n) := by unfold P.isIn; infer_instance

/-- Which processes a process takes with it when it dies: the init of a namespace takes everything in it (pid_namespaces(7)). -/
def takes (p q : P) : Prop := q = p ∨ p.init = true ∧ q.isIn p.ns

instance (p q : P) : Decidable (takes p q) := by unfold takes; infer_instance

def die (ps : List P) (p : P) : List P := ps.filter (fun q => !decide (takes p q))

/-- Where the scan is: between entries; `/proc/PID/ns/pid` exists (src/sandbox/stop.rs:76-79); it is the sandbox's namespace (81-86); the command line has been
read (93-102); finished; returned an error. -/
inductive Phase where
  | idle | found (pid : Nat) | same (pid : Nat) | named (pid : Nat) | done | failed
deriving DecidableEq, Repr

structure M where
  /-- living processes -/
  procs : List P
  /-- numbers and namespaces used so far -/
  used : List Nat
  usedNs : List Nat
  /-- entries the scan is done with -/
  visited : List Nat
  /-- processes that died because of a signal sent by the scan -/
  slain : List P
  phase : Phase
deriving DecidableEq, Repr

/-- One step of the machine: another process forks (possibly into a new pid namespace) or dies, or the scan for namespace `n` (src/sandbox/stop.rs:49-133) moves
on.  `start`: the processes living when `/proc` was opened.  `readdir` shows every process that lives during the whole scan (`finish`); others it may or may not
show.  A process number is not used again during the scan. -/
inductive Step (n : Nat) (start : List P) : M → M → Prop
  | fork (m : M) (p : P) (pid : Nat) : p ∈ m.procs → pid ∉ m.used →
      Step n start m { m with procs := ⟨pid, p.ns, p.outer, false⟩ :: m.procs, used := pid :: m.used }
  | unshare (m : M) (p : P) (pid ns : Nat) : p ∈ m.procs → pid ∉ m.used → ns ∉ m.usedNs →
      Step n start m { m with procs := ⟨pid, ns, p.ns :: p.outer, true⟩ :: m.procs, used := pid :: m.used, usedNs := ns :: m.usedNs }
  | exit (m : M) (p : P) : p ∈ m.procs → Step n start m { m with procs := die m.procs p }
  | skip (m : M) (pid : Nat) : m.phase = .idle → pid ∈ m.used → (∀ p ∈ m.procs, p.pid ≠ pid) → Step n start m { m with visited := pid :: m.visited }
  | look (m : M) (p : P) : m.phase = .idle → p ∈ m.procs → Step n start m { m with phase := .found p.pid }
  | noLink (m : M) (pid : Nat) : m.phase = .found pid → (∀ p ∈ m.procs, p.pid ≠ pid) → Step n start m { m with phase := .failed }
  | other (m : M) (p : P) : m.phase = .found p.pid → p ∈ m.procs → p.ns ≠ n → Step n start m { m with phase := .idle, visited := p.pid :: m.visited }
  | member (m : M) (p : P) : m.phase = .found p.pid → p ∈ m.procs → p.ns = n → Step n start m { m with phase := .same p.pid }
  | noCmdline (m : M) (pid : Nat) : m.phase = .same pid → (∀ p ∈ m.procs, p.pid ≠ pid) → Step n start m { m with phase := .failed }
  | cmdline (m : M) (p : P) : m.phase = .same p.pid → p ∈ m.procs → Step n start m { m with phase := .named p.pid }
  | killGone (m : M) (pid : Nat) : m.phase = .named pid → (∀ p ∈ m.procs, p.pid ≠ pid) →
      Step n start m { m with phase := .idle, visited := pid :: m.visited }
  | kill (m : M) (p : P) : m.phase = .named p.pid → p ∈ m.procs →
      Step n start m { m with procs := die m.procs p, slain := m.procs.filter (fun q => decide (takes p q)) ++ m.slain, phase := .idle, visited := p.pid :: m.visited }
  | finish (m : M) : m.phase = .idle → (∀ p ∈ start, p ∈ m.procs → p.pid ∈ m.visited) → Step n start m { m with phase := .done }

/-- Everything that can happen during a scan. -/
inductive Reach (n : Nat) (m0 : M) : M → Prop
  | start : Reach n m0 m0
  | step {m m' : M} : Reach n m0 m → Step n m0.procs m m' → Reach n m0 m'

/-- The machine when the scan starts. -/
structure Start (n : Nat) (i : P) (m : M) : Prop where
  idle : m.phase = .idle
  fresh : m.visited = [] ∧ m.slain = []
  pids : ∀ p ∈ m.procs, ∀ q ∈ m.procs, p.pid = q.pid → p = q
  used : ∀ p ∈ m.procs, p.pid ∈ m.used
  nss : ∀ p ∈ m.procs, ∀ x, p.isIn x → x ∈ m.usedNs
  /-- `i` is the sandbox's first process -/
  init : i ∈ m.procs ∧ i.init = true ∧ i.ns = n
  /-- namespaces are nested: what is in the sandbox's namespace is in the ones around it -/
  nested : ∀ q ∈ m.procs, q.isIn n → ∀ x, i.isIn x → q.isIn x

end Scan
end SB
