import Verif.Model.MountPoints

/-!
# Mount flags and file access in a sandbox: src/sandbox/mount_overlays.rs:92-101, src/sandbox/get_or_create.rs:399-416, 501-561, 651-846

Access checks are the kernel's (`generic_permission`, `bprm_fill_uid`); the program decides which mounts there are and with which flags.

Simplifications: no ACLs, no capabilities, no set-gid; symbolic links are not followed.
-/

namespace SB

/-- Whoever accesses a file. -/
structure Accessor where
  uid : Nat
  groups : List Nat
deriving DecidableEq, Repr

/-- Kernel, `generic_permission`: the owner's, the group's or the others' bit (4 read, 2 write, 1 execute or search) of the mode. -/
def permits (u : Accessor) (n : Node) (bit : Nat) : Bool :=
  if n.uid = u.uid then n.perm / 64 / bit % 2 == 1 else if n.gid ∈ u.groups then n.perm / 8 / bit % 2 == 1 else n.perm / bit % 2 == 1

/-- `MS_NOSUID` of the mounts of a sandbox.  Overlays are mounted without flags (src/sandbox/mount_overlays.rs:92-101); binds have those of the host's mount they come from (kernel), and
read-only ones get the flag (src/sandbox/get_or_create.rs:546-561); the others have it (lines 404, 414, 508, 655, 690, 713, 723, 734, 743).  `host` tells whether a path of the host is on a mount with
the flag.  A masked file is `/dev/null`. -/
def nosuidOf (host : Path → Bool) : Mounted → Bool
  | .overlay _ => false
  | .bind s ro => ro || host s
  | _ => true

/-- Kernel, `bprm_fill_uid`: the effective user id after executing the file `n`. -/
def execUid (u : Accessor) (n : Node) (nosuid : Bool) : Nat := if n.perm / 0o4000 % 2 == 1 && !nosuid then n.uid else u.uid

end SB
