import Verif.Model.Accept

/-!
# Files with several names: src/actions/accept.rs:118-564

Everywhere else every path has a node of its own.  Here a file system consists of names and numbered files, and several names may stand for one file (`link(2)`): what is done to the file through
one name shows under all of them.  Each system call is transcribed for such a file system, and accept runs on it.
-/

namespace SB

/-- Names with the numbers of the files they stand for, and the files. -/
structure Links where
  names : List (Path × Nat)
  files : Nat → Node

namespace Links

/-- What is seen under each name. -/
def view (L : Links) : FS := L.names.map (fun e => (e.1, L.files e.2))

/-- A number no name stands for. -/
def fresh (L : Links) : Nat := (L.names.map Prod.snd).foldr max 0 + 1

/-- The number of the file a name stands for. -/
def ino (L : Links) (p : Path) : Option Nat := (L.names.find? (fun e => e.1 = p)).map Prod.snd

/-- A new file with a new name. -/
def create (L : Links) (p : Path) (n : Node) : Links :=
  { names := L.names ++ [(p, L.fresh)], files := fun i => if i = L.fresh then n else L.files i }

/-- The file behind a name is changed, under all its names. -/
def change (L : Links) (p : Path) (n : Node) : Links :=
  match L.ino p with
  | none => L
  | some k => { L with files := fun i => if i = k then n else L.files i }

/-- A name is removed. -/
def del (L : Links) (p : Path) : Links := { L with names := L.names.filter (fun e => e.1 ≠ p) }

/-- `unlink(2)` -/
def unlink (L : Links) (p : Path) : Except Errno Links :=
  match L.view.canon p with
  | .error e => .error e
  | .ok c => match L.view.get c with
    | none => .error .ENOENT
    | some n => if n.isDir then .error .EISDIR else .ok (L.del c)

/-- `rmdir(2)` -/
def rmdir (L : Links) (p : Path) : Except Errno Links :=
  match L.view.canon p with
  | .error e => .error e
  | .ok c => match L.view.get c with
    | none => .error .ENOENT
    | some n =>
      if !n.isDir then .error .ENOTDIR
      else if c = [] then .error .EBUSY
      else if L.view.mountPoint c then .error .EBUSY
      else if L.view.hasChild c then .error .ENOTEMPTY
      else .ok (L.del c)

/-- `mkdir(2)` -/
def mkdir (L : Links) (p : Path) : Except Errno Links :=
  match L.view.canon p with
  | .error e => .error e
  | .ok c => match L.view.get c with
    | some _ => .error .EEXIST
    | none => .ok (L.create c { kind := .dir, perm := 0o755, dev := L.view.devOf c.dropLast })

/-- `symlink(2)` -/
def symlink (L : Links) (target : Str) (p : Path) : Except Errno Links :=
  match L.view.canon p with
  | .error e => .error e
  | .ok c => match L.view.get c with
    | some _ => .error .EEXIST
    | none => .ok (L.create c { kind := .lnk target, perm := 0o777, dev := L.view.devOf c.dropLast })

/-- `std::fs::copy` at its destination: an existing file is written, whatever its other names are. -/
def writeFile (L : Links) (p : Path) (data : Str) (perm : Nat) : Except Errno Links :=
  match L.view.canon p with
  | .error e => .error e
  | .ok c => match L.view.get c with
    | none => .ok (L.create c { kind := .reg data, perm := perm, dev := L.view.devOf c.dropLast })
    | some n => match n.kind with
      | .reg _ => .ok (L.change c { n with kind := .reg data, perm := perm })
      | .dir => .error .EISDIR
      | .lnk _ => .error .ELOOP
      | _ => .error .EINVAL

/-- The names below `a` become names below `b`. -/
def moveTree (L : Links) (a b : Path) : Links :=
  { L with names := (L.names.filter (fun e => !b.isPrefixOf e.1)).map (fun e => if a.isPrefixOf e.1 then (b ++ e.1.drop a.length, e.2) else e) }

/-- `rename(2)`: "If oldpath and newpath are existing hard links referring to the same file, then rename() does nothing, and returns a success status." -/
def rename (L : Links) (p q : Path) : Except Errno Links :=
  match L.view.canon p with
  | .error e => .error e
  | .ok a => match L.view.canon q with
    | .error e => .error e
    | .ok b => match L.view.get a with
      | none => .error .ENOENT
      | some n =>
        if a = b then .ok L
        else if a = [] ∨ b = [] then .error .EBUSY
        else if L.view.devOf a.dropLast ≠ L.view.devOf b.dropLast then .error .EXDEV
        else if L.ino a = L.ino b then .ok L
        else if a.isPrefixOf b then .error .EINVAL
        else if b.isPrefixOf a then .error .ENOTEMPTY
        else if n.isDir && L.view.mountPoint a then .error .EBUSY
        else match L.view.get b with
          | none => .ok (L.moveTree a b)
          | some m =>
            if n.isDir then
              if m.isDir then
                if L.view.mountPoint b then .error .EBUSY else
                if L.view.hasChild b then .error .ENOTEMPTY else .ok (L.moveTree a b)
              else .error .ENOTDIR
            else if m.isDir then .error .EISDIR
            else .ok (L.moveTree a b)

/-- `fchownat(AT_SYMLINK_NOFOLLOW)` -/
def chown (L : Links) (p : Path) (uid gid : Nat) : Except Errno Links :=
  match L.view.canon p with
  | .error e => .error e
  | .ok c => match L.view.get c with
    | none => .error .ENOENT
    | some n => .ok (L.change c { n with uid := uid, gid := gid, perm := if n.isDir then n.perm else FS.killSuid n.perm })

/-- `fchmodat(AT_SYMLINK_NOFOLLOW)` -/
def chmod (L : Links) (p : Path) (perm : Nat) : Except Errno Links :=
  match L.view.canon p with
  | .error e => .error e
  | .ok c => match L.view.get c with
    | none => .error .ENOENT
    | some n => if n.isLnk then .error .EOPNOTSUPP else .ok (L.change c { n with perm := perm })

/-- Names that are no longer there are dropped: the effect of src/actions/accept.rs:513-564 `rmdir_recursive`, which only removes names (`left` is what it leaves of the names it finds). -/
def keep (L : Links) (left : FS) : Links := { L with names := L.names.filter (fun e => left.any (fun x => x.1 = e.1)) }

end Links

/-- Host and storage, both with files that may have several names. -/
structure LinkState where
  lower : Links
  upper : Links

/-- What is seen under each name. -/
def LinkState.view (S : LinkState) : State := ⟨S.lower.view, S.upper.view⟩

def liftLinks (S : LinkState) : Except Errno Links → LinkState × Option AccErr
  | .ok L => ({ S with lower := L }, none)
  | .error e => (S, some (.os e))

/-- One operation of accept (`exec` of Model/Accept, src/actions/accept.rs:403-511). -/
def execLinks (op : Op) (S : LinkState) : LinkState × Option AccErr :=
  match op with
  | .rm p => liftLinks S (S.lower.unlink p)
  | .rmdir p => liftLinks S (S.lower.rmdir p)
  | .mv a b => liftLinks S (S.lower.rename a b)
  | .cp s t =>
    match S.upper.view.get s with
    | none => (S, some (.os .ENOENT))
    | some n => match n.kind with
      | .reg d => liftLinks S (S.lower.writeFile t d n.perm)
      | _ => (S, some (.os .EINVAL))
  | .rmIfExists p =>
    match S.lower.view.lstat p with
    | .ok _ => liftLinks S (S.lower.unlink p)
    | .error .ENOENT => (S, none)
    | .error e => (S, some (.os e))
  | .ln s p =>
    match S.upper.view.get s with
    | none => (S, some (.os .ENOENT))
    | some n => match n.kind with
      | .lnk t => liftLinks S (S.lower.symlink t p)
      | _ => (S, some (.os .EINVAL))
  | .mkdirIfNeeded p =>
    if S.lower.view.pisDir p then (S, none) else liftLinks S (S.lower.mkdir p)
  | .chown p u g => liftLinks S (S.lower.chown p u g)
  | .chmod p m => liftLinks S (S.lower.chmod p m)
  | .clean p =>
    match S.upper.view.get p with
    | none => (S, some (.os .ENOENT))
    | some n =>
      if n.isDir then
        match rmdirRecursive S.upper.view p with
        | (up, none) => ({ S with upper := S.upper.keep up }, none)
        | (up, some e) => ({ S with upper := S.upper.keep up }, some (.rm e))
      else
        match S.upper.unlink p with
        | .ok up => ({ S with upper := up }, none)
        | .error e => (S, some (.os e))

/-- Operations until the first error. -/
def runLinks : List Op → LinkState → LinkState × Option AccErr
  | [], S => (S, none)
  | op :: ops, S =>
    match execLinks op S with
    | (S', none) => runLinks ops S'
    | (S', some e) => (S', some e)

/-- src/actions/accept.rs:118-438 `accept`: the changes and checks are those of the names as they are seen. -/
def acceptLinks (env : Env) (S : LinkState) : LinkState × Option AccErr :=
  let sel := matching env.glob env.cwd env.patterns (changes env S.view)
  if sel = [] then (S, none)
  else match pretendCheck env S.view sel with
    | some e => (S, some e)
    | none => runLinks (plan env sel) S

end SB
