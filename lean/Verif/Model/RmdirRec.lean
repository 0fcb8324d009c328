import Verif.FS

/-! # Recursive removal (src/actions/accept.rs:513-564) -/

namespace SB

/-- Direct children of `p`, in enumeration order (`read_dir`). -/
def FS.children (fs : FS) (p : Path) : List Path := fs.keys.filter (fun q => q ≠ [] ∧ q.dropLast = p)

inductive RmErr where
  | os (e : Errno)
  | otherDevice (p : Path)
deriving DecidableEq, Repr

/-- Failure injection: `fault q = some e` means that the system call deleting `q` fails with `e` (or that the process is killed there;
every path is deleted at most once, so this reaches every failure point). -/
abbrev Fault := Path → Option Errno

/-- A deletion that may be made to fail. -/
def faulty (fault : Fault) (q : Path) (r : Except Errno FS) : Except Errno FS :=
  match fault q with
  | some e => .error e
  | none => r

/-- The loop over directory entries of src/actions/accept.rs:518-556 with the recursive call as a parameter. -/
def rmEntries (fault : Fault) (rec : FS → Path → FS × Option RmErr) (rootDev : Nat) : List Path → FS → FS × Option RmErr
  | [], fs => (fs, none)
  | q :: qs, fs =>
    match fs.get q with
    | none => (fs, some (.os .ENOENT))
    | some n =>
      if n.dev ≠ rootDev then (fs, some (.otherDevice q))
      else if n.isDir then
        match rec fs q with
        | (fs', none) => rmEntries fault rec rootDev qs fs'
        | (fs', some e) => (fs', some e)
      else
        match faulty fault q (fs.unlink q) with
        | .ok fs' => rmEntries fault rec rootDev qs fs'
        | .error e => (fs, some (.os e))

/-- src/actions/accept.rs:513-564 `rmdir_recursive`; the first argument bounds the depth. The path is canonical (its ancestors
are directories), so it is looked up directly; `read_dir` on a non-directory fails with `ENOTDIR` and on a symbolic link
it would follow it: callers only pass real directories. The directory is listed once, before its entries are removed. -/
def rmdirRecN (fault : Fault) : Nat → FS → Path → FS × Option RmErr
  | 0, fs, _ => (fs, some (.os .ELOOP))
  | n + 1, fs, p =>
    match fs.get p with
    | none => (fs, some (.os .ENOENT))
    | some d =>
      if !d.isDir then (fs, some (.os .ENOTDIR))
      else
        match rmEntries fault (rmdirRecN fault n) d.dev (fs.children p) fs with
        | (fs', some e) => (fs', some e)
        | (fs', none) =>
          match faulty fault p (fs'.rmdir p) with
          | .ok fs'' => (fs'', none)
          | .error e => (fs', some (.os e))

/-- Depth of a tree is at most the number of nodes, so the bound is never reached (`C53_succeeds`). -/
def rmdirRecursiveF (fault : Fault) (fs : FS) (p : Path) : FS × Option RmErr := rmdirRecN fault (fs.length + 1) fs p

def rmdirRecursive (fs : FS) (p : Path) : FS × Option RmErr := rmdirRecursiveF (fun _ => none) fs p

end SB
