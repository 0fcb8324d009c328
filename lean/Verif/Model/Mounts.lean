import Verif.Model.Base32

/-!
# Mount tables and the mounts of a sandbox

Mount points are absolute canonical paths, as the kernel reports them in `/proc/mounts` (`getmntent` undoes the octal escapes); mount points that are not UTF-8 are not
modelled.
-/

namespace SB

/-- One line of `/proc/mounts`: mount point and file system type, in the order in which they were mounted. -/
structure MountEntry where
  dir : Path
  type : Str
deriving DecidableEq, Repr

/-- src/sandbox/mount_overlays.rs:19-23 -/
structure MountHash where
  hash : Name
  dir : Path
deriving DecidableEq, Repr

/-- src/sandbox/mount_overlays.rs:16-17 -/
def acceptableMountTypes : List Str := [str "xfs", str "nfs4", str "ext2", str "ext3", str "ext4", str "zfs", str "btrfs"]

/-- Comparison of the directory texts (src/sandbox/mount_overlays.rs:192). -/
def textLe (a b : Path) : Bool := decide (display a ≤ display b)

/-- The loop of src/sandbox/mount_overlays.rs:158-188 -/
def keepMount (base : Path) (m : MountEntry) : Bool :=
  if m.dir ≠ [] ∧ m.type ∉ acceptableMountTypes then false else !base.isPrefixOf m.dir

/-- src/sandbox/mount_overlays.rs:141-207 `scan_system_mounts`; `none`: `/proc/mounts` cannot be opened. -/
def scanSystemMounts (base : Path) (table : Option (List MountEntry)) : Option (List MountHash) :=
  match table with
  | none => none
  | some t =>
    let ms := stableSort (fun a b => textLe a.dir b.dir) ((t.filter (keepMount base)).map (fun m => ⟨mountName m.dir, m.dir⟩))
    if ms = [] then none else some ms

/-- src/sandbox/mount_overlays.rs:121-139 `determine_mounts`; `parent` is the content of the storage directory's `settings.json` if that file exists
(`some none`: it cannot be read). -/
def determineMounts (base : Path) (parent : Option (Option (List MountHash))) (table : Option (List MountEntry)) : Option (List MountHash) :=
  match parent with
  | some r => r
  | none => scanSystemMounts base table

/-! ### src/util/mounts.rs, src/sandbox/unmount.rs -/

/-- src/util/mounts.rs:5-43 `get_mounts` -/
def getMounts (base : Path) (t : List MountEntry) : List Path :=
  stableSort (fun a b => textLe b a) ((t.map MountEntry.dir).filter (fun d => base.isPrefixOf d))

/-- The list of directories src/sandbox/unmount.rs:9-10 unmounts, in order. -/
def unmountOrder (base : Path) (t : List MountEntry) : List Path := stableSort (fun a b => textLe b a) (getMounts base t)

/-- What path resolution finds mounted at `p`: a mount hides every earlier mount at or below its mount point, so it is the last one at or above `p` (kernel). -/
def visibleMount (t : List MountEntry) (p : Path) : Option MountEntry := t.reverse.find? (fun m => m.dir.isPrefixOf p)

/-- Remove the last entry mounted at `d` together with the ones mounted at or below it later; the list is in reverse order (newest first). -/
def detachRev (d : Path) : List MountEntry → List MountEntry
  | [] => []
  | m :: r => if m.dir = d then r else if d.isPrefixOf m.dir then detachRev d r else m :: detachRev d r

/-- `umount2(d, MNT_DETACH)` (kernel): fails if `d` is not the root of the visible mount, otherwise detaches that mount and everything mounted in it. -/
def umountDetach (t : List MountEntry) (d : Path) : List MountEntry :=
  match visibleMount t d with
  | some m => if m.dir = d then (detachRev d t.reverse).reverse else t
  | none => t

/-- src/sandbox/unmount.rs:8-41 `Sandbox::unmount`: a failing unmount is only logged. -/
def unmountAll (base : Path) (t : List MountEntry) : List MountEntry := (unmountOrder base t).foldl umountDetach t

/-! ### The mounts of a running sandbox: src/sandbox/get_or_create.rs:310-937 -/

/-- What is mounted. -/
inductive Mounted where
  | overlay (dir : Path)
  | tmpfs | proc | devpts | mqueue | sysfs | cgroup
  | maskDir | maskFile
  | readonly (dir : Path)
  | bind (source : Path) (ro : Bool)
deriving DecidableEq, Repr

structure MountOp where
  target : Path
  what : Mounted
deriving DecidableEq, Repr

/-- src/config/structs.rs:20-25 -/
inductive BindOpt where | rw | ro | mask
deriving DecidableEq, Repr

/-- A bind mount as it is used at start-up: source and target canonical. -/
structure StartBind where
  source : Path
  target : Path
  opt : BindOpt
deriving DecidableEq, Repr

/-- What start-up looks at in the host and in `/proc` and `/sys`: `is_dir`, `exists`, `is_file`, and the entries of `/sys/devices/system/cpu`. -/
structure StartEnv where
  isDir : Path → Bool
  pexists : Path → Bool
  cpus : List Name
  isFile : Path → Bool

/-- src/sandbox/get_or_create.rs:444-551: what is mounted for one bind request. -/
def bindMounted (se : StartEnv) (b : StartBind) : Mounted :=
  match b.opt with
  | .mask => if se.isDir b.target || !se.pexists b.target then .maskDir else .maskFile
  | .ro => .bind b.source true
  | .rw => .bind b.source (b.source == [str "run", str "systemd"])

/-- src/sandbox/get_or_create.rs:756-771 -/
def procMasks : List Path := [ [str "proc", str "asound"], [str "proc", str "acpi"], [str "proc", str "interrupts"], [str "proc", str "kcore"],
  [str "proc", str "keys"], [str "proc", str "latency_stats"], [str "proc", str "timer_list"], [str "proc", str "timer_stats"], [str "proc", str "sched_debug"],
  [str "proc", str "scsi"], [str "sys", str "firmware"], [str "sys", str "devices", str "virtual", str "powercap"] ]

/-- src/sandbox/get_or_create.rs:773-779 -/
def procReadonly : List Path := [ [str "proc", str "bus"], [str "proc", str "fs"], [str "proc", str "irq"], [str "proc", str "sys"], [str "proc", str "sysrq-trigger"] ]

/-- src/sandbox/get_or_create.rs:782-792 -/
def thermalPaths (se : StartEnv) : List Path := se.cpus.map (fun c => [str "sys", str "devices", str "system", str "cpu", c, str "thermal_throttle"])

/-- Mounts before the overlays: new root, `/dev`, `/run` (src/sandbox/get_or_create.rs:349-418). -/
def earlyMounts : List MountOp := [⟨[], .overlay []⟩, ⟨[str "dev"], .tmpfs⟩, ⟨[str "run"], .tmpfs⟩]

/-- Mounts after the overlays: procfs, `/dev`, `/sys`, masks and read-only paths (src/sandbox/get_or_create.rs:651-846). -/
def systemMounts (se : StartEnv) : List MountOp :=
  [⟨[str "proc"], .proc⟩, ⟨[str "dev", str "pts"], .devpts⟩, ⟨[str "dev", str "mqueue"], .mqueue⟩, ⟨[str "dev", str "shm"], .tmpfs⟩, ⟨[str "sys"], .sysfs⟩,
    ⟨[str "sys", str "fs", str "cgroup"], .cgroup⟩] ++
  ((procMasks ++ thermalPaths se).filter (fun p => se.pexists p && (se.isDir p || se.isFile p))).map (fun p => ⟨p, if se.isDir p then .maskDir else .maskFile⟩) ++
  (procReadonly.filter se.pexists).map (fun p => ⟨p, .readonly p⟩)

/-- All mounts of the sandbox in the order in which they are made (src/sandbox/get_or_create.rs:310-937); the staging mounts, which are removed again, and the old
root are left out. -/
def startMounts (se : StartEnv) (mounts : List MountHash) (binds : List StartBind) : List MountOp :=
  earlyMounts ++ (mounts.filter (fun m => m.dir ≠ [])).map (fun m => ⟨m.dir, .overlay m.dir⟩) ++ systemMounts se ++ binds.map (fun b => ⟨b.target, bindMounted se b⟩)

/-- What a process in the sandbox finds at `p`: the last mount made at or above `p`. -/
def seen (ops : List MountOp) (p : Path) : Option MountOp := ops.reverse.find? (fun o => o.target.isPrefixOf p)

/-! ### Mount options: src/sandbox/mount_overlays.rs:84-89, src/util/mount.rs:88-124 -/

/-- src/sandbox/mount_overlays.rs:84-89: the option string of the overlay of mount point `dir`. -/
def overlayOptions (dir upper work : Str) : Str :=
  str "lowerdir=" ++ dir ++ str ",upperdir=" ++ upper ++ str ",workdir=" ++ work ++ str ",index=off,redirect_dir=on,metacopy=off"

/-- src/sandbox/get_or_create.rs:44-63, mount_overlays.rs:46-47: directory `kind` (`upper` or `work`) of one mount of a sandbox. -/
def layerDir (storage : Path) (name : Name) (kind : Name) (hash : Name) : Str := display (storage ++ [name, kind, hash])

/-- src/util/mount.rs:107-115; `alnum` is `char::is_alphanumeric`. -/
def allowedChar (alnum : Char → Bool) (c : Char) : Bool := alnum c || c ∈ ['_', '-', '.', '/', '@', '%']

/-- src/util/mount.rs:88-124 `check_path_for_mount_option_compatibility` for an absolute path (its root component `/` passes the check). -/
def checkStoragePath (alnum : Char → Bool) (p : Path) : Bool := p.all (fun n => n.all (allowedChar alnum))

end SB
