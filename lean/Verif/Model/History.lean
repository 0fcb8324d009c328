import Verif.Model.Mounts
import Verif.Spec.Overlay

/-!
# What processes do to files: on the host, and in a sandbox

The storage of a sandbox is written by the kernel's overlayfs (fs/overlayfs/dir.c, copy_up.c) with the options given in src/sandbox/mount_overlays.rs:84-101.  This file
transcribes its operations, and those of a plain file system, so that properties can be stated for every history of a sandbox.

Simplifications: paths are given without symbolic links on the way; permissions are not checked; renaming a file, or a directory that is not merged with one of the host, is creating it anew and
removing it under its old name (this gives the same view); renaming merged directories (redirects) is not included; operations at mount points themselves do nothing.
-/

namespace SB

/-- What is done at a path. -/
inductive What where
  /-- create, write, replace or change owner or mode of something that is not a directory: afterwards it is this -/
  | put (kind : Kind) (uid gid perm : Nat)
  /-- `mkdir`; `opq`: the kernel marks the new directory as opaque although it need not (an optimisation of
  `ovl_create_upper`, tried in directories that are merged with one of the host) -/
  | mkdir (uid gid perm : Nat) (opq : Bool)
  /-- `chown`, `chmod` of a directory -/
  | attr (uid gid perm : Nat)
  /-- `unlink`, `rmdir` -/
  | remove
deriving DecidableEq, Repr

/-- An operation. -/
structure Act where
  path : Path
  what : What
deriving DecidableEq, Repr

/-- The mount that a path belongs to: the deepest at or above it. -/
def mountFor (mounts : List MountHash) (p : Path) : Option MountHash := p.inits.reverse.findSome? (fun y => mounts.find? (fun m => m.dir == y))

/-- Something that is not a directory, with the given attributes. -/
def fileNode (k : Kind) (uid gid perm : Nat) : Node := { kind := k, uid := uid, gid := gid, perm := perm }

/-- The device of the file system that the node is on. -/
def devAt (fs : FS) (p : Path) : Nat := match fs.get p with | some n => n.dev | none => 0

/-! ### On the host -/

/-- A plain file system: the operation changes nothing if it fails. -/
def actOn (mounts : List MountHash) (fs : FS) (a : Act) : FS :=
  if mounts.any (fun m => m.dir == a.path) || !fs.isDirAt a.path.dropLast then fs
  else match a.what with
    | .put k uid gid perm => if fs.isDirAt a.path || k == .dir then fs else fs.set a.path { fileNode k uid gid perm with dev := devAt fs a.path.dropLast }
    | .mkdir uid gid perm _ => if (fs.get a.path).isSome then fs else fs.set a.path { fileNode .dir uid gid perm with dev := devAt fs a.path.dropLast }
    | .attr uid gid perm => match fs.get a.path with
      | some n => if n.isDir then fs.set a.path { n with uid := uid, gid := gid, perm := perm } else fs
      | none => fs
    | .remove => match fs.get a.path with
      | some n => if n.isDir && fs.hasChild a.path then fs else fs.del a.path
      | none => fs

/-! ### In a sandbox -/

/-- `ovl_copy_up`: the directory with reversed path `r`, and those above it, are in the upper layer. -/
def copyUp (st : State) (m : Name) (mp : Path) : List Name → FS
  | [] => st.upper
  | x :: r =>
    let u := copyUp st m mp r
    if (u.get (m :: (x :: r).reverse)).isSome then u
    else match Spec.view st m mp (x :: r).reverse with
      | some n => u.set (m :: (x :: r).reverse) { n with dev := devAt st.upper [m] }
      | none => u

/-- Paths of a mount at which something is stored. -/
def storedSubs (st : State) (m : Name) : List Path := (st.upper.keys.filter (fun q => [m].isPrefixOf q)).map (·.drop 1)

/-- What is in the lower part of the directory stored at `b`, by the path at which it is seen (if nothing hides it). -/
def lowerSubs (st : State) (m : Name) (mp b : Path) : List Path :=
  match (Spec.lookup st m mp b).bind (·.lower) with
  | none => []
  | some l => (st.lower.keys.filter (fun q => l.isPrefixOf q)).map (fun q => b ++ q.drop l.length)

/-- Paths of a mount at which something may be seen. -/
def candidates (st : State) (m : Name) (mp : Path) : List Path := storedSubs st m ++ (storedSubs st m).flatMap (lowerSubs st m mp)

/-- `ovl_check_empty_dir`: something is seen below a path. -/
def childSeen (st : State) (m : Name) (mp sub : Path) : Bool := (candidates st m mp).any (fun y => sub.isPrefixOf y && y != sub && (Spec.view st m mp y).isSome)

/-- `ovl_lower_positive`: the host has the name in (the lower part of) the directory. -/
def lowerPositive (st : State) (m : Name) (mp sub : Path) : Bool :=
  match Spec.lookup st m mp sub.dropLast with
  | none => false
  | some d => match d.lower with
    | none => false
    | some l => (st.lower.get (l ++ sub.drop (sub.length - 1))).isSome

/-- `ovl_type_merge` of fs/overlayfs/util.c: the directory is (also) one of the host. -/
def merged (st : State) (m : Name) (mp sub : Path) : Bool :=
  match Spec.lookup st m mp sub with
  | none => false
  | some d => d.lower.isSome

/-- The node is a directory. -/
def dirSeen : Option Node → Bool
  | some n => n.isDir
  | none => false

/-- The operation at path `sub` of the mount stored in `m`: the new upper layer. -/
def actUpper (st : State) (m : Name) (mp sub : Path) (w : What) : FS :=
  let v := Spec.view st m mp sub
  let up := copyUp st m mp sub.dropLast.reverse
  if !dirSeen (Spec.view st m mp sub.dropLast) then st.upper
  else match w with
    | .put k uid gid perm => if dirSeen v || k == .dir then st.upper else up.set (m :: sub) { fileNode k uid gid perm with dev := devAt st.upper [m] }
    | .mkdir uid gid perm opq => if v.isSome then st.upper else up.set (m :: sub) { fileNode .dir uid gid perm with opq := (opq && merged st m mp sub.dropLast) || (st.upper.get (m :: sub)).isSome, dev := devAt st.upper [m] }
    | .attr uid gid perm => match v with
      | some n => if n.isDir then up.set (m :: sub) { n with uid := uid, gid := gid, perm := perm, dev := devAt st.upper [m] } else st.upper
      | none => st.upper
    | .remove => match v with
      | some n =>
        if n.isDir && childSeen st m mp sub then st.upper
        else
          let gone : FS := up.filter (fun e => !(m :: sub).isPrefixOf e.1)
          if lowerPositive st m mp sub then gone.set (m :: sub) { kind := .chr 0, dev := devAt st.upper [m] } else gone
      | none => st.upper

/-- The operation in the sandbox. -/
def actIn (mounts : List MountHash) (st : State) (a : Act) : State :=
  match mountFor mounts a.path with
  | none => st
  | some m => if m.dir = a.path then st else { st with upper := actUpper st m.hash m.dir (a.path.drop m.dir.length) a.what }

/-- A history on the host. -/
def runOn (mounts : List MountHash) (fs : FS) (acts : List Act) : FS := acts.foldl (actOn mounts) fs

/-- A history of a sandbox. -/
def runIn (mounts : List MountHash) (st : State) (acts : List Act) : State := acts.foldl (actIn mounts) st

end SB
