import Verif.Model.History
import Verif.Model.Access

/-!
# What a user without privileges may do to files, on the host and in a sandbox

The program runs as root (set-uid, src/main.rs:73-80); `accept` makes its changes without looking at permissions (src/actions/accept.rs).  Commands in a sandbox run with the user's ids
(src/sandbox/exec.rs, C66), so the kernel checks permissions there: overlayfs checks the attributes seen in the merged tree against the user (fs/overlayfs/inode.c `ovl_permission`), and the
files of the layers against whoever made the mount, which is root.

This file transcribes the kernel's checks for the operations of `Model/History.lean` (fs/namei.c `may_lookup`, `may_create`, `may_delete`; fs/attr.c `setattr_prepare`).
Simplifications: no capabilities (the user is not root), no ACLs, no append-only or immutable files, no read-only mounts.
-/

namespace SB

/-- The sticky bit. -/
def sticky (n : Node) : Bool := n.perm / 512 % 2 == 1

/-- Every directory above the path may be searched. -/
def maySearch (u : Accessor) (look : Path → Option Node) (p : Path) : Bool :=
  p.inits.dropLast.all (fun q => match look q with | some n => n.isDir && permits u n 1 | none => false)

/-- `may_create`: entries may be added to the directory. -/
def mayEnter (u : Accessor) (look : Path → Option Node) (p : Path) : Bool :=
  match look p.dropLast with | some d => permits u d 2 | none => false

/-- `may_delete`: the entry (with this node) may be taken out of its directory; in a sticky one only by the owner of the entry or of the directory. -/
def mayTake (u : Accessor) (look : Path → Option Node) (p : Path) (n : Node) : Bool :=
  match look p.dropLast with | some d => permits u d 2 && (!sticky d || n.uid == u.uid || d.uid == u.uid) | none => false

/-- The group of a new file: one of the user's, or that of the directory. -/
def newGroup (u : Accessor) (look : Path → Option Node) (p : Path) (gid : Nat) : Bool :=
  u.groups.contains gid || (match look p.dropLast with | some d => d.gid == gid | none => false)

/-- Devices are made by root only. -/
def isDevice : Kind → Bool
  | .chr _ => true
  | .blk _ => true
  | _ => false

/-- The user may do this, seeing the nodes `look`. -/
def mayDo (u : Accessor) (look : Path → Option Node) (a : Act) : Bool :=
  a.path != [] && maySearch u look a.path &&
  match a.what, look a.path with
  | .put k uid gid _, none => mayEnter u look a.path && uid == u.uid && newGroup u look a.path gid && !isDevice k
  | .put k uid gid perm, some n =>
    -- replaced by a new file
    (mayTake u look a.path n && uid == u.uid && newGroup u look a.path gid && !isDevice k) ||
    -- written to
    (n.isReg && k.isReg && permits u n 2 && uid == n.uid && gid == n.gid && perm == FS.killSuid n.perm) ||
    -- `chmod`, `chgrp`
    (k == n.kind && n.uid == u.uid && uid == n.uid && (gid == n.gid || u.groups.contains gid))
  | .mkdir uid gid _ _, none => mayEnter u look a.path && uid == u.uid && newGroup u look a.path gid
  | .mkdir _ _ _ _, some _ => false
  | .attr uid gid _, some n => n.uid == u.uid && uid == n.uid && (gid == n.gid || u.groups.contains gid)
  | .attr _ _ _, none => false
  | .remove, some n => mayTake u look a.path n
  | .remove, none => false

/-- What is seen at a path in the sandbox: through the deepest mount above it. -/
def seenIn (mounts : List MountHash) (st : State) (p : Path) : Option Node :=
  match mountFor mounts p with
  | none => none
  | some m => Spec.view st m.hash m.dir (p.drop m.dir.length)

/-- The user's operation on the host; without permission nothing happens. -/
def actOnAs (u : Accessor) (mounts : List MountHash) (fs : FS) (a : Act) : FS := if mayDo u fs.get a then actOn mounts fs a else fs

/-- The user's operation in a sandbox. -/
def actInAs (u : Accessor) (mounts : List MountHash) (st : State) (a : Act) : State := if mayDo u (seenIn mounts st) a then actIn mounts st a else st

def runOnAs (u : Accessor) (mounts : List MountHash) (fs : FS) (acts : List Act) : FS := acts.foldl (actOnAs u mounts) fs
def runInAs (u : Accessor) (mounts : List MountHash) (st : State) (acts : List Act) : State := acts.foldl (actInAs u mounts) st

end SB
