import Verif.Basic

/-!
# What processes inherit, and what is left of them: src/sandbox/exec.rs, src/sandbox/get_or_create.rs:216-311, 323, 945-972

Signals, descriptors, sessions and the process table, as far as `sandbox CMD` deals with them: execve(2), signal(7), open(2), setsid(2), wait(2), pid_namespaces(7).
Nothing in /repo changes a signal's disposition, the mask of blocked signals or the umask, except get_or_create.rs:963-968 (SIGTERM of the sandbox's first process).
Simplifications: no signal is blocked; the caller does not ignore SIGCHLD.
-/

namespace SB

/-! ### Signals -/

/-- The disposition of a signal. -/
inductive Disp where | default | ignored | handled
deriving DecidableEq, Repr

abbrev Disps := Nat → Disp

/-- execve(2): what was ignored stays ignored, the rest becomes the default. -/
def execDisps (d : Disps) : Disps := fun s => if d s = .ignored then .ignored else .default

/-- The Rust runtime, before `main`: SIGPIPE (13) is ignored (`std::sys::…::unix::reset_sigpipe`); SIGSEGV (11) and SIGBUS (7) get a handler that detects stack
overflows, unless they are ignored (`stack_overflow::init`). -/
def runtimeDisps (d : Disps) : Disps := fun s =>
  if s = 13 then .ignored
  else if (s = 11 ∨ s = 7) ∧ d s = .default then .handled
  else d s

/-- signal(7): the default action of the standard signals is to end the process, except SIGCHLD 17, SIGCONT 18, SIGSTOP 19, SIGTSTP 20, SIGTTIN 21, SIGTTOU 22,
SIGURG 23, SIGWINCH 28. -/
def endsByDefault (s : Nat) : Bool := decide (1 ≤ s ∧ s ≤ 31) && !([17, 18, 19, 20, 21, 22, 23, 28].contains s)

/-- What `waitpid` can return for the child (wait(2)); `other`: still running, stopped, continued, or an error such as EINTR or ECHILD. -/
inductive WaitStatus where | exited (code : Nat) | signaled (sig : Nat) | other
deriving DecidableEq, Repr

/-- What happens to the waiting process: `waitpid` returns, or somebody else (the terminal, another process) sends it a signal. -/
inductive WaitEvent where | status (w : WaitStatus) | received (sig : Nat)
deriving DecidableEq, Repr

/-- How the waiting process ends. -/
inductive Ending where | exit (code : Nat) | killed (sig : Nat) | stillWaiting
deriving DecidableEq, Repr

/-- `WaitStatus::from_raw` of the nix crate: a signal number must be one of the 31 standard ones, otherwise `waitpid` returns an error (the child is reaped all the same). -/
def nixSignal (s : Nat) : Bool := decide (1 ≤ s ∧ s ≤ 31)

/-- A signal that arrives: `none` if it ends the process, otherwise the dispositions afterwards.  The handler of the Rust runtime for SIGSEGV and SIGBUS only sets the
default disposition and returns, if the signal is not a stack overflow (it expects the faulting instruction to be executed again). -/
def signalArrives (d : Disps) (s : Nat) : Option Disps :=
  match d s with
  | .ignored => some d
  | .handled => some fun x => if x = s then .default else d x
  | .default => if endsByDefault s then none else some d

/-- src/sandbox/exec.rs:98-143: the loop; the signal that ended the child is sent to the own process (136-139).  `stillWaiting`: the loop has not ended when the given
events are used up. -/
def waitLoop (d : Disps) : List WaitEvent → Ending
  | [] => .stillWaiting
  | .status (.exited c) :: _ => .exit c
  | .status (.signaled s) :: r =>
    if nixSignal s then
      match signalArrives d s with
      | none => .killed s
      | some d' => waitLoop d' r
    else waitLoop d r
  | .status .other :: r => waitLoop d r
  | .received s :: r => match signalArrives d s with
    | none => .killed s
    | some d' => waitLoop d' r

/-! ### What a process has from its parent -/

/-- An open file: given by the caller, `/dev/null`, the sandbox's lock file, the two ends of the pipe, the process descriptor. -/
inductive OpenFile where | given (n : Nat) | devNull | lock | pipeRead | pipeWrite | pidfd
deriving DecidableEq, Repr

structure Descriptor where
  file : OpenFile
  cloexec : Bool
deriving DecidableEq, Repr

abbrev Fds := Nat → Option Descriptor

def Fds.set (t : Fds) (n : Nat) (d : Option Descriptor) : Fds := fun m => if m = n then d else t m

structure Inherited where
  fds : Fds
  sigs : Disps
  session : Nat
  group : Nat
  umask : Nat

/-- execve(2) -/
def execve (i : Inherited) : Inherited := { i with fds := fun n => (i.fds n).filter (!·.cloexec), sigs := execDisps i.sigs }

/-- The process in `main`: executed by the caller, after the Rust runtime (which opens `/dev/null` for missing standard descriptors). -/
def inMain (caller : Inherited) : Inherited :=
  let i := execve caller
  { i with fds := fun n => if n < 3 ∧ i.fds n = none then some ⟨.devNull, false⟩ else i.fds n, sigs := runtimeDisps i.sigs }

/-- The numbers the kernel chooses for the descriptors. -/
structure Numbers where
  lock : Nat
  read : Nat
  write : Nat
  pidfd : Nat

/-- src/util/lock_sandbox.rs:24-33: the Rust library opens files with O_CLOEXEC; src/sandbox/get_or_create.rs:226-227: `pipe()` is pipe(2) without O_CLOEXEC. -/
def opened (i : Inherited) (k : Numbers) : Inherited :=
  { i with fds := ((i.fds.set k.lock (some ⟨.lock, true⟩)).set k.read (some ⟨.pipeRead, false⟩)).set k.write (some ⟨.pipeWrite, false⟩) }

/-- src/sandbox/get_or_create.rs:287, 323, 949-968: the sandbox's first process when it sleeps (`sid`: its number; SIGTERM 15 gets a handler). -/
def firstProcess (caller : Inherited) (k : Numbers) (sid : Nat) : Inherited :=
  let i := opened (inMain caller) k
  { i with
    fds := ((((i.fds.set k.read none).set k.write none).set 1 none).set 2 none).set 0 none
    sigs := fun s => if s = 15 then .handled else i.sigs s
    session := sid, group := sid }

/-- The process that has started or found the sandbox: src/sandbox/get_or_create.rs:260, 279 (pipe), the lock is closed at the end of `get_or_create` (120-125). -/
def afterGetOrCreate (caller : Inherited) (k : Numbers) (new : Bool) : Inherited :=
  let i := if new then opened (inMain caller) k else { inMain caller with fds := (inMain caller).fds.set k.lock (some ⟨.lock, true⟩) }
  let i := if new then { i with fds := (i.fds.set k.write none).set k.read none } else i
  { i with fds := i.fds.set k.lock none }

/-- src/sandbox/exec.rs:56-63 (pidfd_open(2) sets close-on-exec), 92, 174: the command. -/
def commandProcess (caller : Inherited) (k : Numbers) (new : Bool) : Inherited :=
  let i := afterGetOrCreate caller k new
  execve { i with fds := i.fds.set k.pidfd (some ⟨.pidfd, true⟩) }

/-! ### The process table of a sandbox -/

/-- A process of the sandbox, with numbers of the sandbox's pid namespace; parent 0: outside. -/
structure Entrant where
  pid : Nat
  parent : Nat
  zombie : Bool
deriving DecidableEq, Repr

/-- `p` ends: its children get the first process as parent. -/
def procExit (p : Nat) (t : List Entrant) : List Entrant :=
  t.map fun q => if q.pid = p then { q with zombie := true } else if q.parent = p then { q with parent := 1 } else q

/-- What happens in a running sandbox until its first process ends.  That process only sleeps (src/sandbox/get_or_create.rs:970-975): it neither forks nor waits. -/
inductive ProcStep : List Entrant → List Entrant → Prop
  /-- a command is started: src/sandbox/exec.rs:92; its parent is outside -/
  | enter (t pid) : 2 ≤ pid → (∀ q ∈ t, q.pid ≠ pid) → ProcStep t (⟨pid, 0, false⟩ :: t)
  | fork (t p pid) : p ∈ t → p.zombie = false → p.pid ≠ 1 → 2 ≤ pid → (∀ q ∈ t, q.pid ≠ pid) → ProcStep t (⟨pid, p.pid, false⟩ :: t)
  | exit (t p) : p ∈ t → p.zombie = false → p.pid ≠ 1 → ProcStep t (procExit p.pid t)
  | wait (t p q) : p ∈ t → p.zombie = false → p.pid ≠ 1 → q ∈ t → q.zombie = true → q.parent = p.pid → ProcStep t (t.filter (fun x => !decide (x = q)))
  /-- src/sandbox/exec.rs:111, or, if the caller is gone, the init of the host -/
  | waitOutside (t q) : q ∈ t → q.zombie = true → q.parent = 0 → ProcStep t (t.filter (fun x => !decide (x = q)))

inductive ProcReach : List Entrant → List Entrant → Prop
  | start (t) : ProcReach t t
  | step {t t' t''} : ProcReach t t' → ProcStep t' t'' → ProcReach t t''

/-- A sandbox that was just started. -/
def newTable : List Entrant := [⟨1, 0, false⟩]

end SB
