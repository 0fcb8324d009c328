import Verif.Model.Setup
import Verif.Spec.Overlay

/-!
# The directories and files made for mounts to be placed on: src/sandbox/get_or_create.rs:353-397, 600-649, 848-886

A mount needs something to be mounted on.  While a sandbox is set up, missing mount points are created in the file system that is to be seen there at that time: in the storage of an
overlay, on the host (below a bind made before), or in a temporary file system.  Here are these operations in the order in which they are made, with the mount table in force.

Simplifications: symbolic links on the way to a mount point are not followed; whether something exists in a private file system (tmpfs, proc, sysfs) is given by `ex`; the staging
directory and the files below `/dev` are in a tmpfs and left out.
-/

namespace SB

/-- What a path in the sandbox refers to: path `sub` of the overlay over `mp` stored in `m`; a host path; something private to the sandbox. -/
inductive Where where
  | stored (m : Name) (mp sub : Path)
  | host (p : Path) (ro : Bool)
  | other
deriving DecidableEq, Repr

/-- Path resolution in the mount table (kernel). -/
def whereOf (t : List Line) (p : Path) : Where :=
  match lineAt t p with
  | none => .other
  | some l =>
    match l.what with
    | .own (.overlay d) => .stored (mountName d) d (p.drop l.target.length)
    | .own (.bind s ro) => .host (s ++ p.drop l.target.length) ro
    | .host d => .host (d ++ p.drop l.target.length) false
    | .own _ => .other

/-- `Path::exists` -/
def existsAt (ex : Path → Bool) (t : List Line) (st : State) (p : Path) : Bool :=
  match whereOf t p with
  | .stored m mp sub => (Spec.view st m mp sub).isSome
  | .host q _ => (st.lower.get q).isSome
  | .other => ex p

/-- Creating something in an overlay (kernel, `ovl_create_object`): directories above it that are not in the upper layer are copied up first. -/
def recordIn (st : State) (m : Name) (mp sub : Path) (n : Node) : FS :=
  (sub.inits.dropLast.foldl (fun u y => if (u.get (m :: y)).isSome then u else u.set (m :: y) ((Spec.view st m mp y).getD { kind := .dir })) st.upper).set (m :: sub) n

/-- The operations on files. -/
inductive FileOp where
  /-- `create_dir` of the place for the old root -/
  | makeOld
  /-- `remove_dir` of it -/
  | removeOld
  /-- create `n` at `p` if nothing exists there; `t` is the mount table in force -/
  | make (t : List Line) (p : Path) (n : Node)
deriving DecidableEq, Repr

/-- A directory made by root with the usual mode. -/
def rootDir : Node := { kind := .dir, perm := 0o755 }

/-- One operation; `none`: it fails. -/
def runFile (su : SetupEnv) (ex : Path → Bool) (st : State) : FileOp → Option State
  | .makeOld =>
    if (Spec.view st (mountName []) [] [su.oldRoot]).isSome then none
    else some { st with upper := recordIn st (mountName []) [] [su.oldRoot] rootDir }
  | .removeOld =>
    if (st.lower.get [su.oldRoot]).isSome then some { st with upper := st.upper.set [mountName [], su.oldRoot] { kind := .chr 0 } }
    else some { st with upper := st.upper.del [mountName [], su.oldRoot] }
  | .make t p n =>
    if existsAt ex t st p then some st
    else match whereOf t p with
      | .stored m mp sub => some { st with upper := recordIn st m mp sub n }
      | .host q ro => if ro then none else some { st with lower := st.lower.set q n }
      | .other => some st

/-- Several operations. -/
def runFiles (su : SetupEnv) (ex : Path → Bool) (st : State) : List FileOp → Option State
  | [] => some st
  | o :: r => match runFile su ex st o with
    | none => none
    | some st' => runFiles su ex st' r

/-- `create_dir_all` of the parent of `p`, then `p` itself as `n`. -/
def makePath (t : List Line) (p : Path) (n : Node) : List FileOp :=
  (p.dropLast.inits.tail.map (fun q => .make t q rootDir)) ++ [.make t p n]

/-- Lines 600-640: places for the overlays of the other mounts. -/
def overlayFiles (su : SetupEnv) : List MountHash → List Line → List FileOp
  | [], _ => []
  | m :: r, t =>
    if m.dir = [] then overlayFiles su r t
    else makePath t m.dir rootDir ++ match bindLine t (su.oldRoot :: (su.overlayBase ++ [m.hash])) m.dir with
      | none => []
      | some t' => overlayFiles su r t'

/-- Lines 444-479, 871-886: what is created for a bind: a directory of the user, or an empty file of root. -/
def bindNode (su : SetupEnv) (uid gid : Nat) (b : StartBind) : Node :=
  let isDir := match b.opt with
    | .mask => su.se.isDir b.target || !su.se.pexists b.target
    | _ => su.se.isDir b.source
  if isDir then { kind := .dir, uid := uid, gid := gid, perm := 0o755 } else { kind := .reg [], perm := 0o644 }

/-- Lines 848-900: places for the binds. -/
def bindFiles (su : SetupEnv) (uid gid : Nat) : List StartBind → Nat → List Line → List FileOp
  | [], _, _ => []
  | b :: r, i, t => makePath t b.target (bindNode su uid gid b) ++ match bindLine t (stagingPath su i) b.target with
    | none => []
    | some t' => bindFiles su uid gid r (i + 1) t'

/-- src/sandbox/get_or_create.rs:310-925: all of them, along `runSetup`. -/
def setupFiles (su : SetupEnv) (uid gid : Nat) (host : List Line) (mounts : List MountHash) (binds : List StartBind) : List FileOp :=
  let t := host ++ overlayLines su mounts
  match bindLine t (rootOverlay su) (rootOverlay su) with
  | none => []
  | some t =>
    let t := t ++ [⟨rootOverlay su ++ [str "dev"], .own .tmpfs⟩, ⟨rootOverlay su ++ [str "run"], .own .tmpfs⟩] ++ stageLines su binds 0
    .makeOld :: match pivot t (rootOverlay su) su.oldRoot with
    | none => []
    | some t => overlayFiles su mounts t ++ match bindOverlays su mounts t with
      | none => []
      | some t => match detachLine t [su.oldRoot] with
        | none => []
        | some t => .removeOld :: bindFiles su uid gid binds 0 (t ++ (systemMounts su.se).map (fun o => ⟨o.target, .own o.what⟩))

/-- The same with the variable `TEST_CREATE_OLD_ROOT_HOST_PATH_FAILURE` in the caller's environment (src/sandbox/get_or_create.rs:386-391, the one test variable that is looked at in every build): the place for
the old root is made twice. -/
def setupFilesIn (test : Bool) (su : SetupEnv) (uid gid : Nat) (host : List Line) (mounts : List MountHash) (binds : List StartBind) : List FileOp :=
  if test then .makeOld :: setupFiles su uid gid host mounts binds else setupFiles su uid gid host mounts binds

end SB
