import Verif.Model.Sandboxes
import Verif.Model.Mounts

/-!
# Files and directories made when a sandbox is started: src/util/mkdir.rs, src/sandbox/get_or_create.rs:106-205 and 262-266, src/sandbox/mount_overlays.rs:27-46 and 100-110

Each function gives all the states of the file system it goes through, so that a crash at any point is one of them.

Not modelled: `can_mkdir` (src/util/access.rs, see C51), the checks of an already running sandbox (Verif/Model/Settings.lean), choosing the mounts
(Verif/Model/Mounts.lean), what the kernel does when an overlay is mounted (it creates `work` inside the work directory).
-/

namespace SB

inductive PrepErr where
  | sys (e : Errno)
  | notDir
  | owner
deriving DecidableEq, Repr

/-- The states passed through (after each system call), the last state, and the error that ended it. -/
structure Passed where
  states : List FS
  fs : FS
  err : Option PrepErr

/-- `?` and `;`: go on unless there was an error. -/
def Passed.andThen (t : Passed) (k : FS → Passed) : Passed :=
  match t.err with
  | some _ => t
  | none => ⟨t.states ++ (k t.fs).states, (k t.fs).fs, (k t.fs).err⟩

/-- One system call. -/
def oneCall (fs : FS) (r : Except Errno FS) : Passed :=
  match r with
  | .ok fs' => ⟨[fs'], fs', none⟩
  | .error e => ⟨[], fs, some (.sys e)⟩

/-- `std::fs::create_dir_all` of the path given in reverse (std): try `mkdir`; if the parent is missing make it and try again; a path that is a directory by now is fine. -/
def createDirAll (fs : FS) : List Name → Passed
  | [] => ⟨[], fs, none⟩
  | x :: up =>
    match fs.mkdir (x :: up).reverse with
    | .ok fs' => ⟨[fs'], fs', none⟩
    | .error .ENOENT => (createDirAll fs up).andThen (fun fs1 =>
        match fs1.mkdir (x :: up).reverse with
        | .ok fs2 => ⟨[fs2], fs2, none⟩
        | .error e => if fs1.pisDir (x :: up).reverse then ⟨[], fs1, none⟩ else ⟨[], fs1, some (.sys e)⟩)
    | .error e => if fs.pisDir (x :: up).reverse then ⟨[], fs, none⟩ else ⟨[], fs, some (.sys e)⟩

/-- src/util/mkdir.rs:12-53 -/
def mkdirOwned (fs : FS) (p : Path) (uid gid : Nat) : Passed :=
  let made : Passed :=
    if fs.pexists p then
      match fs.lstat p with
      | .error e => ⟨[], fs, some (.sys e)⟩
      | .ok n =>
        if n.isDir then
          if n.uid = uid ∧ n.gid = gid then ⟨[], fs, none⟩ else ⟨[], fs, some .owner⟩
        else ⟨[], fs, some .notDir⟩
    else createDirAll fs p.reverse
  made.andThen (fun fs => match fs.realpath p with
    | .error e => ⟨[], fs, some (.sys e)⟩
    | .ok c => oneCall fs (fs.chown c uid gid))

/-- `std::fs::write`: `open` with `O_WRONLY|O_CREAT|O_TRUNC` follows symbolic links, then the text is written.  The state between the two is an empty file.
Simplification: device nodes, pipes and sockets are an error. -/
def writeThrough (fs : FS) : Nat → Path → Str → Passed
  | fuel, p, text =>
    match fs.canon p with
    | .error e => ⟨[], fs, some (.sys e)⟩
    | .ok c =>
      if c.getLast? = some ['.', '.'] then ⟨[], fs, some (.sys .EISDIR)⟩
      else match fs.get c with
      | none =>
        let n : Node := { kind := .reg [], perm := 0o644, dev := fs.devOf c.dropLast }
        ⟨[fs.set c n, fs.set c { n with kind := .reg text }], fs.set c { n with kind := .reg text }, none⟩
      | some n => match n.kind with
        | .reg _ => ⟨[fs.set c { n with kind := .reg [] }, fs.set c { n with kind := .reg text }], fs.set c { n with kind := .reg text }, none⟩
        | .dir => ⟨[], fs, some (.sys .EISDIR)⟩
        | .lnk t => match fuel with
          | 0 => ⟨[], fs, some (.sys .ELOOP)⟩
          | fuel + 1 => writeThrough fs fuel (if t.head? = some '/' then components t else c.dropLast ++ components t) text
        | _ => ⟨[], fs, some (.sys .EINVAL)⟩

/-- src/sandbox/mount_overlays.rs:42-50: the work, upper and overlay directory of a mount, with the owner of the mount's directory. -/
def prepareMount (base : Path) (m : MountHash) (fs : FS) : Passed :=
  match fs.lstat m.dir with
  | .error e => ⟨[], fs, some (.sys e)⟩
  | .ok n =>
    (mkdirOwned fs (base ++ [str "work", m.hash]) n.uid n.gid).andThen fun fs =>
    (mkdirOwned fs (base ++ [str "upper", m.hash]) n.uid n.gid).andThen fun fs =>
    mkdirOwned fs (base ++ [str "overlay", m.hash]) n.uid n.gid

def prepareMounts (base : Path) : List MountHash → FS → Passed
  | [], fs => ⟨[], fs, none⟩
  | m :: ms, fs => (prepareMount base m fs).andThen (prepareMounts base ms)

/-- src/sandbox/get_or_create.rs:118-125 and src/util/get_running_sandbox_pid.rs:46-51 for a sandbox that is not running: the lock file is made, a stale pid file removed. -/
def prepareLock (storage : Path) (name : Name) (fs : FS) : Passed :=
  (oneCall fs (openLock fs (lockFile storage name))).andThen fun fs =>
    if fs.pexists (sandboxDir storage name) && fs.pexists (pidFile storage name) then
      match fs.unlink (pidFile storage name) with
      | .ok fs' => ⟨[fs'], fs', none⟩
      | .error _ => ⟨[], fs, none⟩
    else ⟨[], fs, none⟩

/-- What a start makes on the host: `text` is the text of the settings (Verif/Model/Settings.lean), `pid` the number of the sandbox's first process. -/
structure StartFiles where
  storage : Path
  name : Name
  uid : Nat
  gid : Nat
  mounts : List MountHash
  text : Str
  pid : Nat

/-- src/sandbox/get_or_create.rs:112-208 with src/sandbox/mount_overlays.rs:27-110 and src/sandbox/get_or_create.rs:262-266 for a sandbox that is not running. -/
def prepareStart (fs : FS) (s : StartFiles) : Passed :=
  let base := sandboxDir s.storage s.name
  (mkdirOwned fs s.storage s.uid s.gid).andThen fun fs =>
  (prepareLock s.storage s.name fs).andThen fun fs =>
  (mkdirOwned fs base s.uid s.gid).andThen fun fs =>
  (mkdirOwned fs (base ++ [str "data"]) s.uid s.gid).andThen fun fs =>
  (prepareMounts base s.mounts fs).andThen fun fs =>
  (writeThrough fs 40 (base ++ [str "data", str "settings.json"]) s.text).andThen fun fs =>
  writeThrough fs 40 (pidFile s.storage s.name) (toString s.pid).toList

end SB
