import Verif.Model.Actions
import Verif.Model.Sandboxes
import Verif.Model.Exec

/-!
# What `sandbox diff` compares and prints: src/actions/diff.rs:95-143

The program `diff` is not modelled; it is a parameter (`prog`) that gets the two contents.  Its handling of its arguments is: a missing file counts as empty (`-N`),
symbolic links are followed, and if one argument is a directory and the other is not, the file in the directory with the other's last name is compared (GNU diffutils).
-/

namespace SB

/-- What `diff -N` reads at the end of a symbolic link: a file that does not exist counts as empty. -/
def readTarget (fs : FS) (p : Path) : Option Str :=
  match fs.stat p with
  | .error .ENOENT => some []
  | .error _ => none
  | .ok n => match n.kind with | .reg d => some d | _ => none

/-- What is read at a path of the sandbox's storage.  A staged symbolic link is followed: an absolute target leads to the host, a relative one to the storage.
Simplification: a relative target with more `..` than the storage is deep stays in the storage. -/
def readStaged (st : State) (p : Path) : Option Str :=
  match st.upper.get p with
  | none => none
  | some n => match n.kind with
    | .reg d => some d
    | .lnk t => if t.head? = some '/' then readTarget st.lower (components t) else readTarget st.upper (p.dropLast ++ components t)
    | _ => none

/-- The left file: the host's; a directory stands for its entry with the right one's name. -/
def readLeft (st : State) (left : Path) (right : Option Path) : Option Str :=
  if st.lower.pisDir left then
    match right.bind (·.getLast?) with
    | none => none
    | some x => some ((readText st.lower (left ++ [x])).getD [])
  else readText st.lower left

/-- src/actions/diff.rs:101-132: the two contents that `diff -uN` compares (`none`: `/dev/null`, read as empty); `none`: not two texts (a directory, a device). -/
def diffContents (st : State) : DiffOut → Option (Str × Str)
  | .diff l r =>
    match (match l with | none => some [] | some p => readLeft st p r), (match r with | none => some [] | some p => readStaged st p) with
    | some a, some b => some (a, b)
    | _, _ => none
  | _ => none

/-- `str::replace` (std): every occurrence of `pat`, from left to right, becomes `rep`; `skip` characters of an occurrence are still to be passed over.  An empty
pattern matches before every character and at the end. -/
def replaceFrom (pat rep : Str) : Nat → Str → Str
  | 0, [] => if pat = [] then rep else []
  | _ + 1, [] => []
  | k + 1, _ :: s => replaceFrom pat rep k s
  | 0, c :: s =>
    if pat = [] then rep ++ c :: replaceFrom pat rep 0 s
    else if pat.isPrefixOf (c :: s) then rep ++ replaceFrom pat rep (pat.length - 1) s
    else c :: replaceFrom pat rep 0 s

/-- src/actions/diff.rs:134-141: the lines of `diff` are copied with the replacement; a line that is not UTF-8 (`none`) ends the command with an error (`false`). -/
def printLines (pat rep : Str) : List (Option Str) → List Str × Bool
  | [] => ([], true)
  | none :: _ => ([], false)
  | some l :: r => let (o, ok) := printLines pat rep r; (replaceFrom pat rep 0 l :: o, ok)

/-- The program `diff`: the lines it writes, given the two labels (paths as text) and contents. -/
abbrev DiffProg := Option Path → Option Path → Str → Str → List (Option Str)

/-- src/actions/diff.rs:60-148: the lines printed, and whether the command ends well.  Colours are left out. -/
def diffPrint (prog : DiffProg) (pat rep : Str) (st : State) : List DiffOut → List Str × Bool
  | [] => ([], true)
  | .panic :: _ => ([], false)
  | .skip :: r => diffPrint prog pat rep st r
  | .moved s d :: r => let (o, ok) := diffPrint prog pat rep st r; ((str "### Moved " ++ display s ++ str " to " ++ display d) :: o, ok)
  | .diff l r' :: r =>
    match diffContents st (.diff l r') with
    | none => diffPrint prog pat rep st r
    | some (a, b) =>
      match printLines pat rep (prog l r' a b) with
      | (o, false) => (o, false)
      | (o, true) => let (o', ok) := diffPrint prog pat rep st r; (o ++ o', ok)

/-! ### The program that is run: src/actions/diff.rs:120, `Command::new` (execvp(3)) -/

/-- The directories of a `PATH`; an empty entry is the current directory. -/
def splitColon : Str → List Str
  | [] => [[]]
  | c :: cs =>
    if c = ':' then [] :: splitColon cs
    else match splitColon cs with
      | [] => [[c]]
      | w :: ws => (c :: w) :: ws

/-- execvp(3) for a name without `/`: the first executable regular file of that name in the directories of `PATH`.  Simplification: relative entries are not searched. -/
def findProgram (fs : FS) (path name : Str) : Option Path :=
  (splitColon path).findSome? (fun d =>
    if d.head? ≠ some '/' then none
    else match fs.stat (components d ++ [name]) with
      | .ok n => if n.isReg && n.perm % 2 == 1 then (match fs.realpath (components d ++ [name]) with | .ok c => some c | .error _ => none) else none
      | .error _ => none)

/-- src/actions/diff.rs:120-131: the program started by `sandbox diff` and the credentials it runs with: those of the process itself (nothing before it drops them: src/main.rs:60-133).
`std::process::Command` and execvp(3): `PATH` of the environment, `/bin:/usr/bin` without one. -/
def spawnDiff (fs : FS) (p : Process) : Option (Path × Creds) :=
  let path := match getVar (str "PATH") p.env with
    | some (.text t) => t
    | _ => str "/bin:/usr/bin"
  (findProgram fs path (str "diff")).map (fun f => (f, p.creds))

end SB
