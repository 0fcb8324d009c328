import Verif.Model.Limits
import Verif.Model.Lock
import Verif.Model.Sandboxes

/-!
# What starting a sandbox does with its name: src/sandbox/get_or_create.rs:106-208, 262-303, 927-929, src/util/lock_sandbox.rs:14-30

The name becomes the name of a lock file, of a directory and of a pid file, which `NAME_MAX` bounds by 255 bytes, and the host name of the sandbox, which `__NEW_UTS_LEN` bounds by 64.
Everything else is taken to succeed.  Not modelled: the length of a whole path and of mount options (4096 bytes).
-/

namespace SB

/-- The calls with the name, in their order: src/util/lock_sandbox.rs:21-26; src/sandbox/mount_overlays.rs:37-75; src/sandbox/get_or_create.rs:265; 927-929 (in the sandbox's first process). -/
inductive NameCall where | lock | dir | pid | hostname
deriving DecidableEq, Repr

def nameCalls : List NameCall := [.lock, .dir, .pid, .hostname]

/-- Kernel: `open`, `mkdir`: ENAMETOOLONG; `sethostname`: EINVAL for more than 64 bytes. -/
def nameCallOk (storage : Path) (name : Name) : NameCall → Bool
  | .lock => shortPath (lockFile storage name)
  | .dir => shortPath (sandboxDir storage name)
  | .pid => shortPath (pidFile storage name)
  | .hostname => decide (byteLen name ≤ 64)

/-- The calls up to the first that fails: the ones that succeeded, and the one that failed. -/
def runCalls (ok : NameCall → Bool) : List NameCall → List NameCall × Option NameCall
  | [] => ([], none)
  | c :: r => if ok c then let (d, e) := runCalls ok r; (c :: d, e) else ([], some c)

/-- What a call leaves in the storage directory. -/
def callLeaves (storage : Path) (name : Name) : NameCall → Option Path
  | .lock => some (lockFile storage name)
  | .dir => some (sandboxDir storage name)
  | .pid => some (pidFile storage name)
  | .hostname => none

/-- Starting a sandbox that is not running: whether it succeeds, and what it leaves in the storage directory.  The first process does its steps after the pid file is written (or at the same
time: its last step, the host name, is taken to come later); it reports an error of the last step through the pipe (get_or_create.rs:297-303). -/
def startNamed (storage : Path) (name : Name) : Bool × List Path :=
  let (done, failed) := runCalls (nameCallOk storage name) nameCalls
  (startSucceeds (match failed with | some _ => [.error] | none => []), done.filterMap (callLeaves storage name))

end SB
