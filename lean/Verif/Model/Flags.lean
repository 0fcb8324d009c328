import Verif.Model.Access

/-!
# What the flags of the mounts of a sandbox allow: src/sandbox/mount_overlays.rs:92-101, src/sandbox/get_or_create.rs:396-846

`mount(2)`: a new mount has the flags that were given; a bind has those of the mount it is made from; `MS_REMOUNT | MS_BIND` replaces the flags by the given ones, it does not add to them
(kernel, `set_mount_attributes`; nothing is locked for root in the initial user namespace).  Overlayfs checks its own mount's flags, not those of the mounts its layers are on.
-/

namespace SB

/-- `MS_NOSUID`, `MS_NODEV`, `MS_NOEXEC` -/
structure MountFlags where
  nosuid : Bool := false
  nodev : Bool := false
  noexec : Bool := false
deriving DecidableEq, Repr

/-- The flags of a mount of a sandbox.  `host` tells those of the host's mount a path is on.
Overlays: mount_overlays.rs:99.  Read-only binds: get_or_create.rs:546-558.  Other binds: lines 530-537, 889-895, no flags given.  `/dev`, `/run`: 404, 414; `/dev/shm`: 723; procfs: 655;
devpts: 690; mqueue: 713; sysfs: 734; cgroup: 743-746; masked directories: 508, 806; masked files are binds of `/dev/null` (521, 816), here taken to be on the tmpfs `/dev`;
read-only paths: 835-840.  The only private tmpfs that is not `/dev` or `/run` is `/dev/shm`. -/
def flagsOf (host : Path → MountFlags) (o : MountOp) : MountFlags :=
  match o.what with
  | .overlay _ => {}
  | .bind s ro => if ro then { nosuid := true } else host s
  | .tmpfs => if o.target = [str "dev", str "shm"] then ⟨true, true, true⟩ else { nosuid := true }
  | .proc => ⟨true, true, true⟩
  | .devpts => ⟨true, false, true⟩
  | .mqueue => ⟨true, true, true⟩
  | .sysfs => ⟨true, true, false⟩
  | .cgroup => ⟨true, true, true⟩
  | .maskDir => ⟨true, true, false⟩
  | .maskFile => { nosuid := true }
  | .readonly _ => ⟨true, true, true⟩

/-- Kernel, `may_open`: a device can be opened for what its mode permits, unless the mount has `nodev`. -/
def opensDevice (u : Accessor) (n : Node) (f : MountFlags) (bit : Nat) : Bool :=
  (match n.kind with | .chr _ => true | .blk _ => true | _ => false) && permits u n bit && !f.nodev

/-- Kernel, `do_open_execat`: a regular file can be executed if its mode permits, unless the mount has `noexec`. -/
def executes (u : Accessor) (n : Node) (f : MountFlags) : Bool :=
  (match n.kind with | .reg _ => true | _ => false) && permits u n 1 && !f.noexec

end SB
