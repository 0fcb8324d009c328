import Verif.Model.Changes

/-!
# Specification vocabulary for changes, written independently of the program's counting, sorting and matching code
-/

namespace SB.Spec

/-- File types as a user sees them. -/
inductive FType where | file | directory | symlink | charDev | blockDev | fifo | socket
deriving DecidableEq

def ftype : Kind → FType
  | .reg _ => .file
  | .dir => .directory
  | .lnk _ => .symlink
  | .chr _ => .charDev
  | .blk _ => .blockDev
  | .fifo => .fifo
  | .sock => .socket

/-- A modification is visible if owner, group, mode or type differ or if it is not a directory. -/
def VisiblyModified (staged source : Node) : Prop :=
  staged.uid ≠ source.uid ∨ staged.gid ≠ source.gid ∨ staged.perm ≠ source.perm ∨
  ftype staged.kind ≠ ftype source.kind ∨ ftype staged.kind ≠ .directory

/-- What a user calls a change that can be applied: a removal, a rename, a creation, or a visible modification. -/
def Actionable (e : Entry) : Prop :=
  match e.op with
  | .remove => True
  | .rename => True
  | .error _ => False
  | .set .create => True
  | .set .modify => ∀ s t, e.staged = some s → e.source = some t → VisiblyModified s.node t.node

/-- What status has to list: actionable changes and errors. -/
def Listed (e : Entry) : Prop := Actionable e ∨ ∃ x, e.op = .error x

/-- An overlay whiteout: character device 0:0 or the whiteout attribute (kernel documentation, overlayfs.rst).
`rdev` is the device number as encoded by glibc `gnu_dev_makedev`. -/
def makedev (major minor : Nat) : Nat :=
  minor % 256 + (major % 4096) * 256 + (minor / 256) * 2 ^ 20 + (major / 4096) * 2 ^ 44

/-- Everything is on one file system. -/
def OneDevice (fs : FS) : Prop := ∃ dev, ∀ q n, fs.get q = some n → n.dev = dev

end SB.Spec
