import Verif.Model.Mounts

/-!
# The mount table of the host over the life of a sandbox: src/sandbox/get_or_create.rs:105-214, src/sandbox/mount_overlays.rs:26-115, src/actions/stop.rs, src/sandbox/delete.rs:8-10

The overlays are mounted by the command that starts the sandbox, in the host's mount namespace (the namespace of the sandbox is a copy made afterwards).
-/

namespace SB

structure MountLife where
  table : List MountEntry
  /-- the sandbox's first process lives -/
  running : Bool
  /-- the pid file exists -/
  pid : Bool
deriving DecidableEq, Repr

inductive LifeOp where
  /-- `sandbox CMD`: `n` overlays can be mounted (a failure ends the start: mount_overlays.rs:38-104), and then the first process is ready (or not) -/
  | start (n : Nat) (ready : Bool)
  /-- the first process ends by itself or is killed by somebody -/
  | died
  /-- a command that only asks whether the sandbox runs: `delete` when it is not confirmed (src/actions/delete.rs:71) -/
  | query
  | stop
  /-- `stop --all` or with patterns that match -/
  | stopAll
  /-- somebody mounts a file system elsewhere -/
  | mountOther (e : MountEntry)
deriving DecidableEq, Repr

/-- src/sandbox/mount_overlays.rs:92-101: the mount points of the overlays, in the order of mounting. -/
def overlayEntries (base : Path) (ms : List MountHash) : List MountEntry := ms.map fun m => ⟨base ++ [str "overlay", m.hash], str "overlay"⟩

def lifeStep (base : Path) (ms : List MountHash) (s : MountLife) : LifeOp → MountLife
  | .start n ready =>
    -- get_or_create.rs:124-166: a running sandbox is joined
    if s.running then s
    -- get_or_create.rs:193-210; the pid file is written once the process is there (263-266); a stale one was removed (util/get_running_sandbox_pid.rs:43-49)
    else { table := s.table ++ (overlayEntries base ms).take n, running := ready && decide (ms.length ≤ n), pid := decide (ms.length ≤ n) }
  | .died => { s with running := false }
  -- util/get_running_sandbox_pid.rs:18-49
  | .query => { s with pid := s.pid && s.running }
  | .stop => { table := unmountAll base s.table, running := false, pid := false }
  -- src/actions/stop.rs:75-80: only with a pid file
  | .stopAll => if s.pid then { table := unmountAll base s.table, running := false, pid := false } else s
  | .mountOther e => { s with table := s.table ++ [e] }

def lifeRun (base : Path) (ms : List MountHash) (s : MountLife) (ops : List LifeOp) : MountLife := ops.foldl (lifeStep base ms) s

end SB
