import Verif.Model.History

/-!
# Moving directories: on the host, and in a sandbox

`rename` of a directory.  In a sandbox this is overlayfs (fs/overlayfs/dir.c `ovl_rename`, `ovl_set_redirect`, `ovl_get_redirect`) with the option `redirect_dir=on`
(src/sandbox/mount_overlays.rs:84-89): a directory that is also one of the host is moved with an attribute that says where its part on the host is.

Simplifications: as in `Model/History.lean`; directories that contain mount points are not moved; paths longer than 256 characters (for which overlayfs refuses the attribute, and programs copy instead)
are not treated separately; renaming files and directories that are in the storage only could also be done by the other operations.
-/

namespace SB

/-- What a process does: an operation at one path, or moving a directory (`src` to `dst`, including its name). -/
inductive Step where
  | act (a : Act)
  | move (src dst : Path)
deriving DecidableEq, Repr

/-- `rename(2)` of a directory can be done as far as mounts go: both names are on one mount, no mount point is moved or replaced, neither is inside the other. -/
def moveFits (mounts : List MountHash) (src dst : Path) : Bool :=
  (mountFor mounts src).isSome && mountFor mounts src == mountFor mounts dst && !mounts.any (fun m => src.isPrefixOf m.dir || dst.isPrefixOf m.dir) &&
  !src.isPrefixOf dst && !dst.isPrefixOf src

/-- A plain file system: a directory is moved to a name that is free or that of an empty directory. -/
def moveOn (mounts : List MountHash) (fs : FS) (src dst : Path) : FS :=
  if moveFits mounts src dst && fs.isDirAt src && fs.isDirAt dst.dropLast && ((fs.get dst).isNone || (fs.isDirAt dst && !fs.hasChild dst)) then fs.moveTree src dst else fs

/-- `ovl_set_redirect`, `ovl_get_redirect`: the attribute of a merged directory that is moved from `a` to `b`: the old name if it stays in its directory, otherwise the path in the lower layer; an
attribute that is already there stays if it is absolute or the directory stays where it is. -/
def redirectFor (st : State) (m : Name) (mp a b : Path) (old : Option Str) : Str :=
  match old with
  | some rd => if a.dropLast = b.dropLast ∨ rd.head? = some '/' then rd else display ((Spec.named st m mp a).drop mp.length)
  | none => if a.dropLast = b.dropLast then a.getLastD [] else display ((Spec.named st m mp a).drop mp.length)

/-- The directory in the upper layer before it is moved: with the attribute if it is merged; otherwise opaque where it would be merged under its new name. -/
def movedNode (st : State) (m : Name) (mp a b : Path) (n : Node) : Node :=
  if merged st m mp a then { n with redirect := some (redirectFor st m mp a b n.redirect) }
  else if merged st m mp b.dropLast then { n with opq := true } else n

/-- `ovl_rename` of the directory `a` of the mount stored in `m` to `b`: the new upper layer. -/
def moveUpper (st : State) (m : Name) (mp a b : Path) : FS :=
  if dirSeen (Spec.view st m mp a) && dirSeen (Spec.view st m mp b.dropLast) &&
      ((Spec.view st m mp b).isNone || (dirSeen (Spec.view st m mp b) && !childSeen st m mp b)) then
    let up := copyUp { st with upper := copyUp st m mp a.reverse } m mp b.dropLast.reverse
    match up.get (m :: a) with
    | none => st.upper
    | some n =>
      let res := (up.set (m :: a) (movedNode st m mp a b n)).moveTree (m :: a) (m :: b)
      if lowerPositive st m mp a then res.set (m :: a) { kind := .chr 0, dev := devAt st.upper [m] } else res
  else st.upper

/-- Moving a directory in the sandbox. -/
def moveIn (mounts : List MountHash) (st : State) (src dst : Path) : State :=
  if moveFits mounts src dst then
    match mountFor mounts src with
    | none => st
    | some m => { st with upper := moveUpper st m.hash m.dir (src.drop m.dir.length) (dst.drop m.dir.length) }
  else st

def stepOn (mounts : List MountHash) (fs : FS) : Step → FS
  | .act a => actOn mounts fs a
  | .move p q => moveOn mounts fs p q

def stepIn (mounts : List MountHash) (st : State) : Step → State
  | .act a => actIn mounts st a
  | .move p q => moveIn mounts st p q

/-- A history on the host. -/
def stepsOn (mounts : List MountHash) (fs : FS) (steps : List Step) : FS := steps.foldl (stepOn mounts) fs

/-- A history of a sandbox. -/
def stepsIn (mounts : List MountHash) (st : State) (steps : List Step) : State := steps.foldl (stepIn mounts) st

end SB
