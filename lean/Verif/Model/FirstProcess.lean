import Verif.Model.Process
import Verif.Model.Creds

/-!
# The life of a sandbox's first process: src/sandbox/get_or_create.rs:284-305, 947-995

The process only sleeps; what can end it are signals: kill(2), signal(7), pid_namespaces(7).  It is the first process of a pid namespace, so that a signal with the
default disposition has no effect on it, except SIGKILL (9) (and SIGSTOP, which does not end it) sent from outside of the namespace.
Simplifications: capabilities are those of effective uid 0; a stopped process is not distinguished from a running one.
-/

namespace SB

/-- A signal that is sent to the first process. -/
structure Sent where
  sender : Creds
  /-- by a process of the sandbox -/
  inside : Bool
  sig : Nat
deriving DecidableEq, Repr

/-- kill(2): "the real or effective user ID of the sending process must equal the real or saved set-user-ID of the target process", or it has CAP_KILL. -/
def maySignal (s p : Creds) : Bool := s.privileged || s.ruid == p.ruid || s.ruid == p.suid || s.euid == p.ruid || s.euid == p.suid

/-- One signal; `none`: the process ends.  src/sandbox/get_or_create.rs:963-968: the handler of SIGTERM is `exit`; the other handlers are those of the Rust runtime
(see `signalArrives`). -/
def firstSignal (d : Disps) (inside : Bool) (s : Nat) : Option Disps :=
  if s = 9 then (if inside then some d else none)
  else match d s with
    | .ignored => some d
    | .default => some d
    | .handled => if s = 15 then none else some fun x => if x = s then .default else d x

/-- The signals sent to a first process with credentials `p`, in their order. -/
def firstRun (p : Creds) (d : Disps) : List Sent → Option Disps
  | [] => some d
  | e :: r =>
    if maySignal e.sender p then
      match firstSignal d e.inside e.sig with
      | none => none
      | some d' => firstRun p d' r
    else firstRun p d r

/-- src/sandbox/get_or_create.rs:216-311: nothing changes the credentials of the first process, they are those of the program that has started the sandbox. -/
def firstCreds (program : Creds) : Creds := program

end SB
