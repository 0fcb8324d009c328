import Verif.Model.Config
import Verif.Model.Creds

/-!
# Running a command in a sandbox: src/sandbox/exec.rs:22-92, 144-189, src/main.rs:179-192, src/config/cli.rs:257-268

Kernel: setns(2) of a pid namespace concerns the children only, that of a mount namespace moves root and current directory to the root of the namespace.
-/

namespace SB

/-- The value of an environment variable: text, or bytes that are not UTF-8. -/
inductive VarText where | text (s : Str) | notUtf8
deriving DecidableEq, Repr

/-- The part of a process that matters here.  Simplification: an entry of the environment without `=` (`std::env::vars` skips it) does not occur. -/
structure Process where
  ns : Namespace → Nat
  /-- pid namespace of the children -/
  childPidNs : Nat
  cwd : Path
  creds : Creds
  env : List (Str × VarText)

/-- What the system answers. -/
structure ExecWorld where
  /-- namespaces of the sandbox's first process; `none`: `pidfd_open` fails -/
  initNs : Option (Namespace → Nat)
  setns : Bool
  /-- a directory can be entered in a mount namespace -/
  canEnter : Nat → Path → Bool
  fork : Bool

/-- src/sandbox/sandbox_struct.rs:6-20, the fields used by `exec`. -/
structure ExecTarget where
  name : Str
  dataDir : Path
  uid : Nat
  gid : Nat

inductive ExecErr where | pidfd | setns | chdir | cwd | ids | fork | nul | panic
deriving DecidableEq, Repr

/-- `std::env::set_var` (setenv(3)): the first entry is replaced, or one is added. -/
def setVar (k v : Str) : List (Str × VarText) → List (Str × VarText)
  | [] => [(k, .text v)]
  | e :: r => if e.1 = k then (k, .text v) :: r else e :: setVar k v r

/-- The call of `execvpe`: the process at that moment, the program and its arguments, the environment strings. -/
structure Launch where
  proc : Process
  file : Str
  argv : List Str
  envp : List Str

/-- src/sandbox/exec.rs:152-159: `std::env::vars` panics at bytes that are not UTF-8; `CString::new` fails at a NUL. -/
def envStrings : List (Str × VarText) → Except ExecErr (List Str)
  | [] => .ok []
  | (_, .notUtf8) :: _ => .error .panic
  | (k, .text v) :: r =>
    if (k ++ '=' :: v).contains '\x00' then .error .nul
    else match envStrings r with
      | .error e => .error e
      | .ok l => .ok ((k ++ '=' :: v) :: l)

/-- src/sandbox/exec.rs:144-175: the child. -/
def execChild (p : Process) (cmd : List Str) : Except ExecErr Launch :=
  match cmd with
  | [] => .error .panic
  | c :: args =>
    if c.contains '\x00' ∨ args.any (·.contains '\x00') then .error .nul
    else match envStrings p.env with
      | .error e => .error e
      | .ok l => .ok ⟨p, c, c :: args, l⟩

/-- src/sandbox/exec.rs:22-94 -/
def execIn (x : ExecWorld) (p : Process) (t : ExecTarget) (cmd : List Str) : Except ExecErr Launch :=
  let cwd := p.cwd
  match x.initNs with
  | none => .error .pidfd
  | some ns =>
    if !x.setns then .error .setns
    else
      -- all six namespaces; the pid namespace only for children; the mount namespace changes root and current directory
      let p := { p with ns := fun n => if n = Namespace.pid then p.ns .pid else ns n, childPidNs := ns .pid, cwd := [] }
      if !x.canEnter (p.ns .mnt) [] then .error .chdir
      else if !x.canEnter (p.ns .mnt) cwd then .error .cwd
      else
        let p := { p with cwd := cwd }
        match dropPrivileges p.creds t.uid t.gid with
        | (_, false) => .error .ids
        | (creds, true) =>
          let p := { p with creds := creds, env := setVar (str "SANDBOX_STORAGE_DIR") (display t.dataDir) (setVar (str "SANDBOX") t.name p.env) }
          if !x.fork then .error .fork
          else execChild { p with ns := fun n => if n = Namespace.pid then p.childPidNs else p.ns n } cmd

/-- `std::env::var`, of the first entry. -/
def getVar (k : Str) (env : List (Str × VarText)) : Option VarText := (env.find? (fun e => e.1 = k)).map Prod.snd

/-- src/main.rs:183-186: the command, or the shell. -/
def commandOf (env : List (Str × VarText)) (given : Option (List Str)) : List Str :=
  match given with
  | some c => c
  | none => match getVar (str "SHELL") env with
    | some (.text s) => [s]
    | _ => [str "sh"]

/-- src/config/cli.rs:257-268 `validate_command`, applied to each word; `n` words were seen before. -/
def validateWords : Nat → List Str → Option (List Str)
  | _, [] => some []
  | n, s :: r => if n = 0 ∧ s.head? = some '-' ∧ s ≠ str "--" then none else (validateWords (n + 1) r).map (s :: ·)

end SB
