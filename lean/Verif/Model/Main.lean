import Verif.Model.Cli
import Verif.Model.Exec
import Verif.Model.Stop

/-!
# From the words of the command line to what is done: src/main.rs:41-193

`mainTask` is the dispatch of main: which function is called with which sandbox and which patterns.  `runStop`, `runDelete` and `runList` carry out the tasks that are about
whole sandboxes (the others, for one sandbox, are the subject of the models of accept, reject, status, diff and of starting).
-/

namespace SB

/-- Who calls the program, and from where: what main asks the system for. -/
structure Caller where
  /-- what `resolve_config` looks at (src/main.rs:53) -/
  world : World
  /-- `resolve_uid_gid_home` succeeds (src/main.rs:54-55, C49) -/
  identity : Bool
  /-- the variable `COMPLETE` is set (src/main.rs:60) -/
  complete : Bool
  /-- the effective user is root (src/main.rs:73-80) -/
  root : Bool
  /-- the environment, for `SHELL` (src/main.rs:184) -/
  env : List (Str × VarText)

/-- What main calls in the end. -/
inductive Task where
  /-- tab completion (src/main.rs:60-64) -/
  | completion
  /-- `actions::config(&config, keys)`: `None` for no keys -/
  | config (c : Config) (keys : Option (List Str))
  | sync
  | list (storage : Path) (patterns : List Str)
  | stopOne (storage : Path) (name : Name)
  | stopMany (storage : Path) (patterns : List Str)
  /-- status, diff, reject, accept: of the sandbox `name` in `storage` -/
  | changes (a : Cli.Action) (storage : Path) (name : Name) (ignored : Bool) (patterns : List Str)
  | delete (storage : Path) (name : Name) (patterns : List Str) (yes : Bool)
  /-- `Sandbox::get_or_create(&config)` and `exec` -/
  | run (c : Config) (command : List Str)
deriving DecidableEq

inductive MainErr where | usage | config (e : CfgErr) | identity | notRoot
deriving DecidableEq

/-- The `match` of src/main.rs:93-151.  The sandbox of status, diff, reject and accept is the one made from the configuration in src/main.rs:82-89. -/
def actionTask (c : Config) (a : Cli.Action) (patterns : Option (List Str)) (all yes : Bool) : Task :=
  match a with
  | .config => .config c patterns
  | .sync => .sync
  | .list => .list c.storageDir (patterns.getD [])
  | .stop =>
    if all then .stopMany c.storageDir [str "*"]
    else match patterns with
      | some ps => .stopMany c.storageDir ps
      | none => .stopOne c.storageDir c.name
  | .delete => .delete c.storageDir c.name (patterns.getD []) yes
  | a => .changes a c.storageDir c.name c.ignored (patterns.getD [])

/-- src/main.rs:41-193; `none`: only a help text or the version is printed (inside `Args::parse`). -/
def mainTask (m : Caller) (words : List Str) : Except MainErr (Option Task) :=
  match Cli.parseArgs words with
  | .refused => .error .usage
  | .help => .ok none
  | .version => .ok none
  | .run args _ what => match resolveConfig m.world args with
    | .error e => .error (.config e)
    | .ok c =>
      if !m.identity then .error .identity
      else if m.complete then .ok (some .completion)
      else if !m.root then .error .notRoot
      else match what with
        | .action a ps all yes => .ok (some (actionTask c a ps all yes))
        | .command ws => .ok (some (.run c (commandOf m.env ws)))

/-- What `stop` does to the sandboxes of the machine; the tasks for one sandbox and for many (src/main.rs:100-123). -/
def stopTask (fault : Fault) (glob : Str → Str → Bool) (t : Task) (s : Sys) : Sys :=
  match t with
  | .stopOne storage name => (stopSandbox fault s storage name).1
  | .stopMany storage ps => stopAll fault glob storage ps s
  | _ => s

/-- Whether `stop` reports success: an error of one sandbox among many is only a warning (src/actions/stop.rs:86-92); the directory must be readable (src/actions/stop.rs:46). -/
def stopReports (fault : Fault) (t : Task) (s : Sys) : Bool :=
  match t with
  | .stopOne storage name => (stopSandbox fault s storage name).2.isNone
  | .stopMany storage _ => s.fs.isDirAt storage
  | _ => true

end SB
