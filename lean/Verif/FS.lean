import Verif.Basic

/-!
# File-system model

The operating system part of the trusted base.  A file system is a finite map from absolute paths to
nodes, kept as an association list; the order of the list stands for the (arbitrary) enumeration order of
`readdir`.  Only the information the program looks at is kept in a node.  Hard links, timestamps, ACLs, quotas,
permission checks (the program runs as root here) and I/O errors other than the ones listed are not modelled.
-/

namespace SB

/-- File type with type-specific data (`st_mode & S_IFMT`). File contents are kept as text (a list of characters);
non-UTF-8 contents are not modelled. -/
inductive Kind where
  | reg (data : Str)
  | dir
  | lnk (target : Str)
  | chr (rdev : Nat)
  | blk (rdev : Nat)
  | fifo
  | sock
deriving DecidableEq, Repr

/-- An inode as seen by `lstat` and `lgetxattr`; `perm` = `st_mode & 07777`, `opq`, `whiteout`, `redirect` are the
`trusted.overlay.opaque/whiteout/redirect` attributes read in src/sandbox/changes/file_details.rs:57-146. -/
structure Node where
  kind : Kind
  uid : Nat := 0
  gid : Nat := 0
  perm : Nat := 0
  dev : Nat := 0
  opq : Bool := false
  whiteout : Bool := false
  redirect : Option Str := none
deriving DecidableEq, Repr

def Node.isDir (n : Node) : Bool := n.kind == .dir

def Kind.isReg : Kind → Bool | .reg _ => true | _ => false
def Kind.isLnk : Kind → Bool | .lnk _ => true | _ => false

def Node.isReg (n : Node) : Bool := n.kind.isReg
def Node.isLnk (n : Node) : Bool := n.kind.isLnk

abbrev FS := List (Path × Node)

inductive Errno where
  | ENOENT | ENOTDIR | EEXIST | ENOTEMPTY | EISDIR | EINVAL | ELOOP | EXDEV | EBUSY | EOPNOTSUPP | ENAMETOOLONG
deriving DecidableEq, Repr

namespace FS

/-- Node stored at exactly this path (no symlink resolution). -/
def get : FS → Path → Option Node
  | [], _ => none
  | (q, n) :: r, p => if q = p then some n else get r p

def keys (fs : FS) : List Path := fs.map Prod.fst

/-- Overwrite or add the node at a path. -/
def set : FS → Path → Node → FS
  | [], p, n => [(p, n)]
  | (q, m) :: r, p, n => if q = p then (p, n) :: r else (q, m) :: set r p n

/-- Remove the node at a path. -/
def del (fs : FS) (p : Path) : FS := fs.filter (fun e => e.1 ≠ p)

/-- The node at `p` is a directory. -/
def isDirAt (fs : FS) (p : Path) : Bool :=
  match fs.get p with
  | some n => n.isDir
  | none => false

/-- Some node lies strictly below `p`. -/
def hasChild (fs : FS) (p : Path) : Bool := fs.any (fun e => p.isPrefixOf e.1 && e.1 != p)

/-- Well-formed tree: one node per path, the root is a directory, every other node's parent is a directory, names are
valid names. -/
structure WF (fs : FS) : Prop where
  nodup : fs.keys.Nodup
  root : fs.isDirAt [] = true
  parent : ∀ p ∈ fs.keys, p ≠ [] → fs.isDirAt p.dropLast = true
  normal : ∀ p ∈ fs.keys, NormalPath p

instance (fs : FS) : Decidable (WF fs) :=
  decidable_of_iff (fs.keys.Nodup ∧ fs.isDirAt [] = true ∧
    (∀ p ∈ fs.keys, p ≠ [] → fs.isDirAt p.dropLast = true) ∧ (∀ p ∈ fs.keys, NormalPath p))
    ⟨fun h => ⟨h.1, h.2.1, h.2.2.1, h.2.2.2⟩, fun h => ⟨h.1, h.2, h.3, h.4⟩⟩

/-! ### Path resolution (`path_resolution(7)`) -/

/-- Resolve `todo` starting in directory `cur`; symbolic links are handed to `onLink`. -/
def walk (fs : FS) (onLink : Path → Path → Except Errno Path) : Path → Path → Except Errno Path
  | cur, [] => .ok cur
  | cur, c :: rest =>
    match fs.get cur with
    | none => .error .ENOENT
    | some d =>
      if d.isDir then
        if c = ['.', '.'] then walk fs onLink cur.dropLast rest
        else match fs.get (cur ++ [c]) with
          | none => .error .ENOENT
          | some m => match m.kind with
            | .lnk t => onLink (if t.head? = some '/' then [] else cur) (components t ++ rest)
            | _ => walk fs onLink (cur ++ [c]) rest
      else .error .ENOTDIR

/-- Resolution with a bound on the number of symbolic links followed. -/
def resolveN (fs : FS) : Nat → Path → Path → Except Errno Path
  | 0 => walk fs (fun _ _ => .error .ELOOP)
  | n + 1 => walk fs (resolveN fs n)

/-- Canonical path of `p`, following all symbolic links (Linux follows at most 40). -/
def realpath (fs : FS) (p : Path) : Except Errno Path := fs.resolveN 40 [] p

/-- Location named by `p` without following a final symbolic link; the object itself need not exist. -/
def canon (fs : FS) (p : Path) : Except Errno Path :=
  match p.getLast? with
  | none => .ok []
  | some l =>
    match fs.realpath p.dropLast with
    | .error e => .error e
    | .ok d => if fs.isDirAt d then .ok (d ++ [l]) else .error .ENOTDIR

/-- `lstat(2)`, `fstatat(AT_SYMLINK_NOFOLLOW)`. -/
def lstat (fs : FS) (p : Path) : Except Errno Node :=
  match fs.canon p with
  | .error e => .error e
  | .ok c => match fs.get c with
    | none => .error .ENOENT
    | some n => .ok n

/-- `stat(2)`. -/
def stat (fs : FS) (p : Path) : Except Errno Node :=
  match fs.realpath p with
  | .error e => .error e
  | .ok c => match fs.get c with
    | none => .error .ENOENT
    | some n => .ok n

/-- Rust `Path::exists` (follows symlinks). -/
def pexists (fs : FS) (p : Path) : Bool := match fs.stat p with | .ok _ => true | .error _ => false

/-- Rust `Path::is_dir` (follows symlinks). -/
def pisDir (fs : FS) (p : Path) : Bool := match fs.stat p with | .ok n => n.isDir | .error _ => false

/-- Rust `Path::is_file` (follows symlinks). -/
def pisFile (fs : FS) (p : Path) : Bool := match fs.stat p with | .ok n => n.isReg | .error _ => false

/-- Rust `Path::is_symlink`. -/
def pisSymlink (fs : FS) (p : Path) : Bool := match fs.lstat p with | .ok n => n.isLnk | .error _ => false

/-- `walkdir::WalkDir::new(root)` (2.5): the root and everything below it; a root that is a symbolic link to a
directory is descended into (`follow_root_links` is on by default), links below the root are not. Entries are reported
as `root` joined with the relative path. -/
def walkDir (fs : FS) (root : Path) : List Path :=
  match fs.realpath root with
  | .error _ => []
  | .ok c => fs.filterMap (fun e => if c.isPrefixOf e.1 then some (root ++ e.1.drop c.length) else none)

/-! ### System calls that change the tree -/

/-- `unlink(2)`. -/
def unlink (fs : FS) (p : Path) : Except Errno FS :=
  match fs.canon p with
  | .error e => .error e
  | .ok c => match fs.get c with
    | none => .error .ENOENT
    | some n => if n.isDir then .error .EISDIR else .ok (fs.del c)

/-- Device number of the file system holding directory `p`. -/
def devOf (fs : FS) (p : Path) : Nat := match fs.get p with | some n => n.dev | none => 0

/-- A directory on another device than its parent is a mount point (mount points that are files, and bind mounts within one file system, are
not modelled). -/
def mountPoint (fs : FS) (p : Path) : Bool := fs.devOf p != fs.devOf p.dropLast

/-- `rmdir(2)`. -/
def rmdir (fs : FS) (p : Path) : Except Errno FS :=
  match fs.canon p with
  | .error e => .error e
  | .ok c => match fs.get c with
    | none => .error .ENOENT
    | some n =>
      if !n.isDir then .error .ENOTDIR
      else if c = [] then .error .EBUSY
      else if fs.mountPoint c then .error .EBUSY
      else if fs.hasChild c then .error .ENOTEMPTY
      else .ok (fs.del c)

/-- `mkdir(2)`; the new directory gets some owner and mode (root, 0755), which the program overwrites. -/
def mkdir (fs : FS) (p : Path) : Except Errno FS :=
  match fs.canon p with
  | .error e => .error e
  | .ok c => match fs.get c with
    | some _ => .error .EEXIST
    | none => .ok (fs.set c { kind := .dir, perm := 0o755, dev := fs.devOf c.dropLast })

/-- `symlink(2)`. -/
def symlink (fs : FS) (target : Str) (p : Path) : Except Errno FS :=
  match fs.canon p with
  | .error e => .error e
  | .ok c => match fs.get c with
    | some _ => .error .EEXIST
    | none => .ok (fs.set c { kind := .lnk target, perm := 0o777, dev := fs.devOf c.dropLast })

/-- Open for writing with `O_CREAT|O_TRUNC`, write `data`, set the mode: the effect of `std::fs::copy` on its
destination.  A symbolic link at the destination is reported as `ELOOP` (the program only uses fresh names). -/
def writeFile (fs : FS) (p : Path) (data : Str) (perm : Nat) : Except Errno FS :=
  match fs.canon p with
  | .error e => .error e
  | .ok c => match fs.get c with
    | none => .ok (fs.set c { kind := .reg data, perm := perm, dev := fs.devOf c.dropLast })
    | some n => match n.kind with
      | .reg _ => .ok (fs.set c { n with kind := .reg data, perm := perm })
      | .dir => .error .EISDIR
      | .lnk _ => .error .ELOOP
      | _ => .error .EINVAL

/-- Move the subtree at `a` to `b` (replacing what is at `b`). -/
def moveTree (fs : FS) (a b : Path) : FS :=
  (fs.filter (fun e => !b.isPrefixOf e.1)).map
    (fun e => if a.isPrefixOf e.1 then (b ++ e.1.drop a.length, e.2) else e)

/-- `rename(2)`. -/
def rename (fs : FS) (p q : Path) : Except Errno FS :=
  match fs.canon p with
  | .error e => .error e
  | .ok a => match fs.canon q with
    | .error e => .error e
    | .ok b => match fs.get a with
      | none => .error .ENOENT
      | some n =>
        if a = b then .ok fs
        else if a = [] ∨ b = [] then .error .EBUSY
        else if fs.devOf a.dropLast ≠ fs.devOf b.dropLast then .error .EXDEV
        else if a.isPrefixOf b then .error .EINVAL
        else if b.isPrefixOf a then .error .ENOTEMPTY
        else if n.isDir && fs.mountPoint a then .error .EBUSY
        else match fs.get b with
          | none => .ok (fs.moveTree a b)
          | some m =>
            if n.isDir then
              if m.isDir then
                if fs.mountPoint b then .error .EBUSY else
                if fs.hasChild b then .error .ENOTEMPTY else .ok (fs.moveTree a b)
              else .error .ENOTDIR
            else if m.isDir then .error .EISDIR
            else .ok (fs.moveTree a b)

/-- Permission bits after `chown(2)`: set-user-id and set-group-id are cleared on everything but directories. -/
def killSuid (perm : Nat) : Nat := perm % 1024 

/-- `fchownat(AT_SYMLINK_NOFOLLOW)`. -/
def chown (fs : FS) (p : Path) (uid gid : Nat) : Except Errno FS :=
  match fs.canon p with
  | .error e => .error e
  | .ok c => match fs.get c with
    | none => .error .ENOENT
    | some n => .ok (fs.set c
        { n with uid := uid, gid := gid, perm := if n.isDir then n.perm else killSuid n.perm })

/-- `fchmodat(AT_SYMLINK_NOFOLLOW)`: not supported on symbolic links. -/
def chmod (fs : FS) (p : Path) (perm : Nat) : Except Errno FS :=
  match fs.canon p with
  | .error e => .error e
  | .ok c => match fs.get c with
    | none => .error .ENOENT
    | some n => if n.isLnk then .error .EOPNOTSUPP else .ok (fs.set c { n with perm := perm })

end FS
end SB
