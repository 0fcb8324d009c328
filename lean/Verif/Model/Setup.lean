import Verif.Model.Settings

/-!
# Setting up the mounts of a sandbox step by step: src/sandbox/mount_overlays.rs:26-113, src/sandbox/get_or_create.rs:310-914

`startMounts` (Verif/Model/Mounts.lean) lists the mounts a sandbox is meant to end up with.  Here is the sequence of mount operations the code performs to get there: the
overlays are mounted in the storage directory, the new root is bound to itself, binds are staged in `/run`, `pivot_root` exchanges the roots, the overlays are bound from
the old root, the old root is detached, the staged binds are bound to their places and unmounted.

Not modelled: creating and removing the files and directories that serve as mount points (apart from that a path in the staging directory does not exist when
something is mounted over it), and I/O errors.
-/

namespace SB

/-- What a mount table entry shows: a mount that was there before, or one made for the sandbox. -/
inductive Shown where
  | host (dir : Path)
  | own (m : Mounted)
deriving DecidableEq, Repr

/-- A line of a mount table. -/
structure Line where
  target : Path
  what : Shown
deriving DecidableEq, Repr

/-- What path resolution finds at `p`: the last mount made at or above it (kernel). -/
def lineAt (t : List Line) (p : Path) : Option Line := t.reverse.find? (fun o => o.target.isPrefixOf p)

/-- `mount(source, target, MS_BIND)` where `source` is meant to be a mount point: without it the directory or file does not exist and the call fails. -/
def bindLine (t : List Line) (source target : Path) : Option (List Line) :=
  match lineAt t source with
  | some l => if l.target = source then some (t ++ [⟨target, l.what⟩]) else none
  | none => none

/-- Remove the last line mounted at `d` with the ones mounted at or below it later; newest first. -/
def detachLines (d : Path) : List Line → List Line
  | [] => []
  | l :: r => if l.target = d then r else if d.isPrefixOf l.target then detachLines d r else l :: detachLines d r

/-- `umount2(d, MNT_DETACH)` (kernel) -/
def detachLine (t : List Line) (d : Path) : Option (List Line) :=
  match lineAt t d with
  | some l => if l.target = d then some (detachLines d t.reverse).reverse else none
  | none => none

/-- The lines that come after the last one mounted at `d`, with that one; newest first. -/
def untilLine (d : Path) : List Line → Option (List Line × List Line)
  | [] => none
  | l :: r => if l.target = d then some ([l], r) else (untilLine d r).map (fun x => (l :: x.1, x.2))

/-- `pivot_root(newRoot, newRoot/old)` (kernel): the topmost mount at `newRoot` becomes the root together with what is mounted in it; everything else moves below `/old`. -/
def pivot (t : List Line) (newRoot : Path) (old : Name) : Option (List Line) :=
  match untilLine newRoot t.reverse with
  | none => none
  | some (newer, older) =>
    let inside := newer.reverse.filter (fun l => newRoot.isPrefixOf l.target)
    let outside := newer.reverse.filter (fun l => !newRoot.isPrefixOf l.target)
    some (inside.map (fun l => ⟨l.target.drop newRoot.length, l.what⟩) ++ (older.reverse ++ outside).map (fun l => ⟨old :: l.target, l.what⟩))

/-- What set-up needs to know. `overlayBase` is the sandbox's `overlay` directory (src/sandbox/get_or_create.rs:55-58), `oldRoot` and `staging` the fresh names of
lines 353-356 and 405-414. -/
structure SetupEnv where
  se : StartEnv
  overlayBase : Path
  oldRoot : Name
  staging : Name

/-- src/sandbox/mount_overlays.rs:37-98: one overlay per mount, in the storage directory. -/
def overlayLines (su : SetupEnv) (mounts : List MountHash) : List Line := mounts.map (fun m => ⟨su.overlayBase ++ [m.hash], .own (.overlay m.dir)⟩)

/-- src/sandbox/get_or_create.rs:60 `root_overlay` -/
def rootOverlay (su : SetupEnv) : Path := su.overlayBase ++ [mountName []]

/-- Staging path number `i` (lines 483-485), inside the new root. -/
def stagingPath (su : SetupEnv) (i : Nat) : Path := [str "run", su.staging, str "mount-" ++ (toString i).toList]

/-- Lines 430-579: stage the binds. -/
def stageLines (su : SetupEnv) : List StartBind → Nat → List Line
  | [], _ => []
  | b :: r, i => ⟨rootOverlay su ++ stagingPath su i, .own (bindMounted su.se b)⟩ :: stageLines su r (i + 1)

/-- Lines 600-640: bind the overlays of the other mounts from below the old root. -/
def bindOverlays (su : SetupEnv) : List MountHash → List Line → Option (List Line)
  | [], t => some t
  | m :: r, t =>
    if m.dir = [] then bindOverlays su r t
    else match bindLine t (su.oldRoot :: (su.overlayBase ++ [m.hash])) m.dir with
      | none => none
      | some t' => bindOverlays su r t'

/-- Lines 848-900: bind the staged binds to their places. -/
def placeBinds (su : SetupEnv) : List StartBind → Nat → List Line → Option (List Line)
  | [], _, t => some t
  | b :: r, i, t => match bindLine t (stagingPath su i) b.target with
    | none => none
    | some t' => placeBinds su r (i + 1) t'

/-- Lines 902-925: unmount the staging mounts. -/
def unstage (su : SetupEnv) : List StartBind → Nat → List Line → Option (List Line)
  | [], _, t => some t
  | _ :: r, i, t => match detachLine t (stagingPath su i) with
    | none => none
    | some t' => unstage su r (i + 1) t'

/-- src/sandbox/mount_overlays.rs:26-113 and src/sandbox/get_or_create.rs:310-925: the mount table of the sandbox made from the host's, `none` if a step fails. -/
def runSetup (su : SetupEnv) (host : List Line) (mounts : List MountHash) (binds : List StartBind) : Option (List Line) :=
  let t := host ++ overlayLines su mounts
  match bindLine t (rootOverlay su) (rootOverlay su) with
  | none => none
  | some t =>
    let t := t ++ [⟨rootOverlay su ++ [str "dev"], .own .tmpfs⟩, ⟨rootOverlay su ++ [str "run"], .own .tmpfs⟩] ++ stageLines su binds 0
    match pivot t (rootOverlay su) su.oldRoot with
    | none => none
    | some t => match bindOverlays su mounts t with
      | none => none
      | some t => match detachLine t [su.oldRoot] with
        | none => none
        | some t =>
          let t := t ++ (systemMounts su.se).map (fun o => ⟨o.target, .own o.what⟩)
          match placeBinds su binds 0 t with
          | none => none
          | some t => unstage su binds 0 t

end SB
