import Verif.Model.Changes
import Verif.Model.Ignore
import Verif.Model.Mounts

/-!
# Configuration: src/config/resolve.rs, src/config/structs.rs, src/config/impls.rs, src/util/expand_tilde.rs, src/util/mkdir.rs

Not modelled here: parsing of the command line (see Model/Cli) and of TOML files (the parsed values are inputs), log output, environment variables that are not Unicode
(`env::var` fails for them, they count as unset here too).
-/

namespace SB

/-! ### Paths that may be relative -/

/-- A `PathBuf` up to Rust's path equality: absolute or not, and the components (`..` kept, a leading `.` of a relative path kept). -/
structure RPath where
  abs : Bool
  comps : Path
deriving DecidableEq, Repr

/-- `PathBuf::from(text)`. -/
def parsePath (s : Str) : RPath :=
  if s.head? = some '/' then ⟨true, components s⟩
  else match splitSlash s with
    | ['.'] :: _ => ⟨false, ['.'] :: components s⟩
    | _ => ⟨false, components s⟩

def RPath.ofPath (p : Path) : RPath := ⟨true, p⟩

/-- `Path::join`. -/
def RPath.join (a b : RPath) : RPath := if b.abs then b else ⟨a.abs, a.comps ++ b.comps.filter (· ≠ ['.'])⟩

/-- `Path::display` -/
def RPath.text (p : RPath) : Str := if p.abs then display p.comps else (display p.comps).drop 1

/-- Path from the root; `none` for the empty path. -/
def RPath.at (cwd : Path) (p : RPath) : Option Path :=
  if p.abs then some p.comps else if p.comps = [] then none else some (cwd ++ p.comps.filter (· ≠ ['.']))

/-- `Path::exists`. -/
def RPath.exists (fs : FS) (cwd : Path) (p : RPath) : Bool := match p.at cwd with | none => false | some q => fs.pexists q

/-- `fs::canonicalize` (`none`: error).  Simplification: a trailing slash after a file name is not an error. -/
def RPath.canonicalize (fs : FS) (cwd : Path) (p : RPath) : Option Path :=
  match p.at cwd with
  | none => none
  | some q => match fs.realpath q with | .ok c => some c | .error _ => none

/-- src/util/expand_tilde.rs:6-17 `expand_tilde_path` -/
def expandTilde (home : RPath) (s : Str) : RPath :=
  if s = ['~'] then home
  else if (str "~/").isPrefixOf s then home.join (parsePath (s.drop 2))
  else parsePath s

/-! ### Values -/

/-- `log::LevelFilter` -/
inductive Level where | off | error | warn | info | debug | trace
deriving DecidableEq, Repr

/-- src/config/structs.rs:43-49 -/
inductive Net where | none | host
deriving DecidableEq, Repr

/-- src/config/structs.rs:51-62 -/
structure Partial where
  logLevel : Option Level := none
  name : Option Str := none
  storageDir : Option Str := none
  net : Option Net := none
  ignored : Option Bool := none
  bind : Option (List Str) := none
  mask : Option (List Str) := none
  noDefaultBinds : Option Bool := none
deriving DecidableEq, Repr

/-- src/config/cli.rs:11-116, the options that matter for the configuration.  clap rejects combinations of `--name`, `--new` and `--last` on the same side of an action (Model/Cli). -/
structure Args where
  logLevel : Option Level := none
  name : Option Str := none
  new : Bool := false
  last : Bool := false
  storageDir : Option Str := none
  net : Option Net := none
  bind : Option (List Str) := none
  mask : Option (List Str) := none
  noDefaultBinds : Bool := false
  ignored : Bool := false
  noConfig : Bool := false
  config : Option (List Str) := none
deriving DecidableEq, Repr

/-- The environment variables read by src/config/resolve.rs. -/
structure EnvVars where
  logLevel : Option Str := none
  name : Option Str := none
  storageDir : Option Str := none
  net : Option Str := none
  ignored : Option Str := none
  bind : Option Str := none
  mask : Option Str := none
  noDefaultBinds : Option Str := none
  xdgRuntimeDir : Option Str := none
deriving DecidableEq, Repr

/-- src/config/structs.rs:6-12 -/
structure BindMount where
  source : Path
  target : RPath
  opt : BindOpt
  argument : Str
deriving DecidableEq, Repr

/-- Keys of the map of value origins (strings in the code). -/
inductive Key where | configFiles | logLevel | name | storageDir | net | ignored | noDefaultBinds | bind | mask | bindMounts
deriving DecidableEq, Repr

/-- `HashMap<String, String>` of value origins: key and source. -/
abbrev Sources := List (Key × Str)

def Sources.insert (s : Sources) (k : Key) (v : Str) : Sources := (k, v) :: s
def Sources.get (s : Sources) (k : Key) : Option Str := (s.find? (fun e => e.1 = k)).map Prod.snd

/-- src/config/structs.rs:65-78 (without `upper_cwd`, `overlay_cwd`). -/
structure Config where
  name : Str
  net : Net
  storageDir : Path
  logLevel : Level
  ignored : Bool
  sources : Sources
  bindMounts : List BindMount
  noDefaultBinds : Bool
  configFiles : List Str
deriving DecidableEq, Repr

/-- Ways in which resolving fails; `panic` stands for a Rust panic. -/
inductive CfgErr where
  | newLastConflict | logLevel | net | ignored | configFile | bindOption | bindSource | bindConflict | storage | name | noSandboxes | panic
deriving DecidableEq, Repr

/-- The world the configuration is resolved in. -/
structure World where
  fs : FS
  cwd : Path
  home : RPath
  uid : Nat
  gid : Nat
  vars : EnvVars
  /-- result of reading and parsing a config file -/
  readConfig : Str → Option Partial
  /-- the user may read the file (`can_access`) -/
  canRead : Path → Bool
  /-- the user may write to the directory (`can_access`) -/
  canWrite : Path → Bool
  /-- `create_dir_all` and `chown` succeed -/
  canCreate : Path → Bool
  /-- `/proc/mounts` -/
  mounts : Option (List MountEntry)
  /-- candidate names of `--new`, one pair (seconds, milliseconds) for each turn of the loop -/
  clock : List (Name × Name)
  /-- entries of a storage directory: name, whether it looks like a sandbox, creation time -/
  listing : Path → Option (List (Name × Bool × Nat))
  /-- iteration order of a hash map -/
  hashOrder : List BindMount → List BindMount

/-- ASCII lower case. -/
def lowerChar (c : Char) : Char := if 65 ≤ c.toNat ∧ c.toNat ≤ 90 then Char.ofNat (c.toNat + 32) else c
def lower (s : Str) : Str := s.map lowerChar

/-- `LevelFilter::from_str` (crate log): case-insensitive. -/
def parseLevel (s : Str) : Option Level :=
  let t := lower s
  if t = str "off" then some .off else if t = str "error" then some .error else if t = str "warn" then some .warn
  else if t = str "info" then some .info else if t = str "debug" then some .debug else if t = str "trace" then some .trace else none

/-- src/config/impls.rs:12-18 `Network::from_str` (no other character than the ASCII capitals has one of these lower-case letters as its lower case). -/
def parseNet (s : Str) : Option Net :=
  let t := lower s
  if t = str "none" then some .none else if t = str "host" then some .host else none

/-- `bool::from_str` -/
def parseBool (s : Str) : Option Bool := if s = str "true" then some true else if s = str "false" then some false else none

/-- src/config/structs.rs:30-40 `BindMountOptions::from_str` -/
def parseOpt (s : Str) : Option BindOpt :=
  if s = [] ∨ s = str "rw" then some .rw else if s = str "ro" then some .ro else if s = str "mask" then some .mask else none

/-- Text before and after the first `:`. -/
def cutColon : Str → Str × Option Str
  | [] => ([], none)
  | c :: r => if c = ':' then ([], some r) else match cutColon r with | (a, b) => (c :: a, b)

/-- `str::splitn(3, ':')` -/
def splitn3 (s : Str) : List Str :=
  match cutColon s with
  | (a, none) => [a]
  | (a, some r) => match cutColon r with
    | (b, none) => [a, b]
    | (b, some r2) => [a, b, r2]

/-- src/config/resolve.rs:23-62 `parse_bind_mount` -/
def parseBind (w : World) (s : Str) : Except CfgErr BindMount :=
  let parts := splitn3 s
  let source := expandTilde w.home (parts.headD [])
  let target := match parts[1]? with
    | some t => if t ≠ [] then expandTilde w.home t else source
    | none => source
  match source.canonicalize w.fs w.cwd with
  | none => .error .bindSource
  | some src =>
    let tgt := if target.exists w.fs w.cwd then (target.canonicalize w.fs w.cwd).map RPath.ofPath else some target
    match tgt with
    | none => .error .bindSource
    | some tgt =>
      match parts[2]? with
      | none => .ok ⟨src, tgt, .rw, s⟩
      | some o => match parseOpt o with
        | none => .error .bindOption
        | some o => .ok ⟨src, tgt, o, s⟩

/-- `split(',')` -/
def splitComma : Str → List Str
  | [] => [[]]
  | c :: r => if c = ',' then [] :: splitComma r else match splitComma r with | [] => [[c]] | x :: ws => (c :: x) :: ws

/-- src/config/resolve.rs:124-128: comma-separated list, blanks trimmed, empty items dropped. -/
def listVar (s : Str) : List Str := ((splitComma s).map trim).filter (· ≠ [])

/-- Extend an optional list (`Some(existing) => existing.extend(..), None => Some(..)`). -/
def extend (o : Option (List Str)) (l : List Str) : Option (List Str) := match o with | some e => some (e ++ l) | none => some l

/-! ### Config files -/

/-- src/config/resolve.rs:614-622: the current directory and its parents up to the home directory or the root (argument: reversed current directory). -/
def upDirs (home : RPath) : List Name → List Path
  | [] => [[]]
  | x :: r => if RPath.ofPath (x :: r).reverse = home then [(x :: r).reverse] else (x :: r).reverse :: upDirs home r

/-- src/config/resolve.rs:609-634: all places that are examined, least specific first. -/
def configCandidates (home : RPath) (cwd : Path) : List RPath :=
  (((upDirs home cwd.reverse).flatMap (fun d => [RPath.ofPath (d ++ [str ".sandbox.conf"]), RPath.ofPath (d ++ [str ".sandbox.toml"])])) ++
    [home.join (parsePath (str ".config/sandbox/config.conf")), home.join (parsePath (str ".config/sandbox/config.toml")),
      RPath.ofPath [str "etc", str "sandbox.conf"], RPath.ofPath [str "etc", str "sandbox.toml"]]).reverse

/-- src/config/resolve.rs:609-648 `find_config_files` -/
def findConfigFiles (w : World) : List Str :=
  ((configCandidates w.home w.cwd).filter (fun p => p.exists w.fs w.cwd && (match p.at w.cwd with | none => false | some q => w.canRead q))).map RPath.text

/-- The pattern `if let Some(v) = … { base.x = Some(v); sources.insert(key, source) }` used throughout src/config/resolve.rs. -/
def put (acc : Partial × Sources) (upd : Option (Partial → Partial)) (k : Key) (src : Str) : Partial × Sources :=
  match upd with
  | some f => (f acc.1, acc.2.insert k src)
  | none => acc

def setLogLevel (v : Level) (p : Partial) : Partial := { p with logLevel := some v }
def setName (v : Str) (p : Partial) : Partial := { p with name := some v }
def setStorageDir (v : Str) (p : Partial) : Partial := { p with storageDir := some v }
def setNet (v : Net) (p : Partial) : Partial := { p with net := some v }
def setIgnored (v : Bool) (p : Partial) : Partial := { p with ignored := some v }
def setNoDefaultBinds (v : Bool) (p : Partial) : Partial := { p with noDefaultBinds := some v }
def addBind (v : List Str) (p : Partial) : Partial := { p with bind := extend p.bind v }
def addMask (v : List Str) (p : Partial) : Partial := { p with mask := extend p.mask v }

/-- src/config/resolve.rs:650-695 `merge_configs` -/
def mergeConfig (acc : Partial × Sources) (o : Partial) (src : Str) : Partial × Sources :=
  let acc := put acc (o.logLevel.map setLogLevel) .logLevel src
  let acc := put acc (o.name.map setName) .name src
  let acc := put acc (o.storageDir.map setStorageDir) .storageDir src
  let acc := put acc (o.net.map setNet) .net src
  let acc := put acc (o.ignored.map setIgnored) .ignored src
  let acc := put acc (o.noDefaultBinds.map setNoDefaultBinds) .noDefaultBinds src
  let acc := put acc (o.bind.map addBind) .bind src
  put acc (o.mask.map addMask) .mask src

/-- src/config/resolve.rs:545-573: which files are read. -/
def configPaths (w : World) (a : Args) : Except CfgErr (List Str) :=
  if a.noConfig then .ok []
  else match a.config with
    | some files =>
      let ps := (files.filter (· ≠ [])).map (expandTilde w.home)
      if ps.all (fun p => p.exists w.fs w.cwd) then .ok (ps.map RPath.text) else .error .configFile
    | none => .ok (findConfigFiles w)

/-- The loop of src/config/resolve.rs:583-604. -/
def loadFiles (w : World) : List Str → Partial × Sources → Except CfgErr (Partial × Sources)
  | [], acc => .ok acc
  | p :: r, acc => match w.readConfig p with
    | none => .error .configFile
    | some o => loadFiles w r (mergeConfig acc o p)

/-- src/config/resolve.rs:541-606 `load_partial` -/
def loadPartial (w : World) (a : Args) : Except CfgErr (Partial × Sources × List Str) :=
  match configPaths w a with
  | .error e => .error e
  | .ok ps =>
    let s0 : Sources := if ps = [] then [] else [(.configFiles, if a.config.isSome then str "cli --config" else str "default search")]
    match loadFiles w ps ({}, s0) with
    | .error e => .error e
    | .ok (p, s) => .ok (p, s, ps)

/-! ### Environment -/

/-- A variable's value; an empty one counts as unset. -/
def nonEmpty (o : Option Str) : Option Str := o.filter (· ≠ [])

/-- `path:path:mask` (src/config/resolve.rs:150, 242) -/
def maskArg (m : Str) : Str := m ++ str ":" ++ m ++ str ":mask"

/-- A list variable; an empty list counts as unset (src/config/resolve.rs:123-158). -/
def listOf (o : Option Str) : Option (List Str) := (o.map listVar).filter (· ≠ [])

/-- src/config/resolve.rs:79-166: environment variables override the files. -/
def applyEnv (v : EnvVars) (a : Args) (acc : Partial × Sources) : Except CfgErr (Partial × Sources) :=
  let env : Str := str "environment"
  if v.logLevel.map parseLevel = some none then .error .logLevel
  else
  let acc := put acc ((v.logLevel.bind parseLevel).map setLogLevel) .logLevel env
  let acc := put acc ((if a.new || a.last then none else nonEmpty v.name).map setName) .name env
  let acc := put acc ((nonEmpty v.storageDir).map setStorageDir) .storageDir env
  if (nonEmpty v.net).map parseNet = some none then .error .net
  else
  let acc := put acc (((nonEmpty v.net).bind parseNet).map setNet) .net env
  if v.ignored.map parseBool = some none then .error .ignored
  else
  let acc := put acc ((v.ignored.bind parseBool).map setIgnored) .ignored env
  let acc := put acc ((listOf v.bind).map addBind) .bindMounts env
  let acc := put acc (((listOf v.mask).map (·.map maskArg)).map addBind) .bindMounts env
  if v.noDefaultBinds.map parseBool = some none then .error .panic
  else .ok (put acc ((v.noDefaultBinds.bind parseBool).map setNoDefaultBinds) .noDefaultBinds env)

/-! ### Storage directory -/

/-- src/config/resolve.rs:438-439 -/
def storageTypes : List Str := [str "btrfs", str "ext4", str "tmpfs", str "xfs", str "zfs"]

/-- src/config/resolve.rs:455-461: the candidates. -/
def storageCandidates (w : World) (sd : Option Str) : List RPath :=
  match sd with
  | some s => [parsePath s]
  | none => [w.home.join (parsePath (str ".sandboxes")), RPath.ofPath [str "tmp", str "sandboxes-" ++ (toString w.uid).toList]]

/-- src/util/access.rs:42-59 `can_mkdir`: the nearest existing directory above `p` is writable by the user (argument: reversed parent of `p`). -/
def canMkdirUp (w : World) : List Name → Bool
  | [] => w.canWrite []
  | x :: r => if w.fs.pexists (x :: r).reverse then w.canWrite (x :: r).reverse else canMkdirUp w r

/-- src/util/mkdir.rs:12-54 `mkdir`: an existing path must be a directory of this user (not a symbolic link); otherwise it is created. -/
def mkdirOk (w : World) (p : Path) : Bool :=
  if w.fs.pexists p then
    match w.fs.lstat p with
    | .ok n => n.isDir && n.uid == w.uid && n.gid == w.gid && w.canCreate p
    | .error _ => false
  else w.canCreate p

/-- src/config/resolve.rs:463-532: the loop over the candidates.  A relative path makes `find_mount_point` fail or panic (its last parent is the empty path), the
root has no parent. -/
def resolveStorageLoop (w : World) (mounts : List MountEntry) : List RPath → Except CfgErr Path
  | [] => .error .storage
  | c :: r =>
    if !c.abs then .error .panic
    else
      match (mounts.find? (fun m => m.dir = findMountPoint w.fs c.comps)).map MountEntry.type with
      | none => resolveStorageLoop w mounts r
      | some ty =>
        if ty ∉ storageTypes then resolveStorageLoop w mounts r
        else if c.comps = [] then .error .panic
        else if canMkdirUp w c.comps.dropLast.reverse && mkdirOk w c.comps then .ok c.comps else .error .storage

/-- src/config/resolve.rs:431-539 `resolve_sandbox_storage_dir` -/
def resolveStorage (w : World) (sd : Option Str) : Except CfgErr Path :=
  match w.mounts with
  | none => .error .storage
  | some ms => resolveStorageLoop w ms (storageCandidates w sd)

/-! ### Names -/

/-- The loop of src/config/resolve.rs:705-752 `generate_timestamp_name`; `none`: still looping when the given clock readings are used up. -/
def newName (taken : Name → Bool) : List (Name × Name) → Option Name
  | [] => none
  | (base, ms) :: r => if !taken base then some base else if !taken ms then some ms else newName taken r

/-- src/config/resolve.rs:754-804 `find_last_sandbox` -/
def lastName (entries : List (Name × Bool × Nat)) : Option Name :=
  let l := (entries.filter (fun e => e.2.1)).map (fun e => (e.1, e.2.2))
  (stableSort (fun a b => decide (b.2 ≤ a.2)) l).head?.map Prod.fst

/-- src/config/resolve.rs:182-210: name given by `--new`, `--last` or `--name`. -/
def cliName (w : World) (a : Args) (sd : Option Str) : Except CfgErr (Option (Name × Str)) :=
  if a.new then
    match resolveStorage w sd with
    | .error e => .error e
    | .ok d => match newName (fun n => w.fs.pexists (d ++ [n])) w.clock with
      | none => .error .name
      | some n => .ok (some (n, str "cli --new"))
  else if a.last then
    match resolveStorage w sd with
    | .error e => .error e
    | .ok d => match w.listing d with
      | none => .error .noSandboxes
      | some l => match lastName l with
        | none => .error .noSandboxes
        | some n => .ok (some (n, str "cli --last"))
  else .ok (a.name.map (fun n => (n, str "cli")))

/-- src/config/resolve.rs:168-252: command line options override everything else. -/
def applyCli (w : World) (a : Args) (acc : Partial × Sources) : Except CfgErr (Partial × Sources) :=
  let cli : Str := str "cli"
  let acc := put acc (a.logLevel.map setLogLevel) .logLevel cli
  let acc := put acc (a.storageDir.map setStorageDir) .storageDir cli
  match cliName w a acc.1.storageDir with
  | .error e => .error e
  | .ok nm =>
    let acc := put acc ((nm.map Prod.fst).map setName) .name ((nm.map Prod.snd).getD [])
    let acc := put acc (a.net.map setNet) .net cli
    let acc := put acc ((if a.ignored then some true else none).map setIgnored) .ignored cli
    let acc := put acc ((if a.noDefaultBinds then some true else none).map setNoDefaultBinds) .noDefaultBinds cli
    let p := ((a.bind.map addBind).getD id) acc.1
    let p := (((a.mask.map (·.map maskArg)).map addBind).getD id) p
    .ok (p, acc.2)

/-! ### Binds -/

/-- src/config/resolve.rs:369-429 `get_default_bind_mounts` -/
def defaultBinds (w : World) (net : Net) : List Str :=
  let ex (t : Str) : List Str := if (parsePath t).exists w.fs w.cwd then [t] else []
  ex (str "/dev/fuse") ++
  (if net = .host then
    ex (str "/run/dbus") ++
    (match w.vars.xdgRuntimeDir.filter (· ≠ []) with
      | some d =>
        let b := (parsePath d).join (parsePath (str "bus"))
        if b.exists w.fs w.cwd then [b.text] else []
      | none => []) ++
    ex (str "/run/systemd")
  else []) ++
  [str ".claude", str ".aider", str ".cursor"].flatMap (fun n => let p := w.home.join (parsePath n); if p.exists w.fs w.cwd then [p.text] else [])

/-- src/config/resolve.rs:312-317: parse all binds, the first error wins. -/
def parseBinds (w : World) : List Str → Except CfgErr (List BindMount)
  | [] => .ok []
  | s :: r => match parseBind w s with
    | .error e => .error e
    | .ok b => match parseBinds w r with
      | .error e => .error e
      | .ok bs => .ok (b :: bs)

/-- src/config/resolve.rs:319-340: conflicts and duplicates; `acc` is the map so far (in insertion order). -/
def dedupBinds : List BindMount → List BindMount → Except CfgErr (List BindMount)
  | acc, [] => .ok acc
  | acc, b :: r => match acc.find? (fun x => x.target = b.target) with
    | some e => if e.source ≠ b.source ∨ e.opt ≠ b.opt then .error .bindConflict else dedupBinds acc r
    | none => dedupBinds (acc ++ [b]) r

/-- src/config/resolve.rs:290-342: all bind requests of a configuration. -/
def bindRequests (w : World) (p : Partial) (net : Net) (noDefault : Bool) : List Str :=
  (if noDefault then [] else defaultBinds w net) ++ (p.bind.getD []) ++ ((p.mask.getD []).map (fun m => m ++ str "::mask"))

/-- Mark the origin of a value that nobody set (src/config/resolve.rs:255-286). -/
def Sources.default (s : Sources) (k : Key) : Sources := if (s.get k).isSome then s else s.insert k (str "default")

/-- src/config/resolve.rs:254-366: defaults, storage directory, binds, validation. -/
def finishConfig (w : World) (acc : Partial × Sources) (files : List Str) : Except CfgErr Config :=
  let (p, s) := acc
  let name := p.name.getD (str "sandbox")
  let s := s.default .name
  let net := p.net.getD .none
  let s := s.default .net
  let ignored := p.ignored.getD false
  let s := s.default .ignored
  let noDef := p.noDefaultBinds.getD false
  let s := s.default .noDefaultBinds
  match resolveStorage w p.storageDir with
  | .error e => .error e
  | .ok sd =>
  let s := s.default .storageDir
  match parseBinds w (bindRequests w p net noDef) with
  | .error e => .error e
  | .ok bs => match dedupBinds [] bs with
    | .error e => .error e
    | .ok m =>
      let binds := w.hashOrder m
      let s := if binds = [] then s.insert .bindMounts (str "default") else s
      if name.contains '/' then .error .name
      else .ok ⟨name, net, sd, p.logLevel.getD .info, ignored, s, binds, noDef, files⟩

/-- src/config/resolve.rs:64-367 `resolve_config` -/
def resolveConfig (w : World) (a : Args) : Except CfgErr Config :=
  match loadPartial w a with
  | .error e => .error e
  | .ok (p, s, files) =>
    if (a.new || a.last) && (p.name.isSome || w.vars.name.isSome) then .error .newLastConflict
    else match applyEnv w.vars a (p, s) with
      | .error e => .error e
      | .ok acc => match applyCli w a acc with
        | .error e => .error e
        | .ok acc => finishConfig w acc files

/-! ### Starting with a configuration -/

inductive Namespace where | mnt | net | pid | ipc | uts | cgroup
deriving DecidableEq, Repr

/-- src/sandbox/get_or_create.rs:228-241: the namespaces a new sandbox does not share with the host (flags given to `clone3`). -/
def newNamespaces (net : Net) : List Namespace :=
  [.mnt] ++ (match net with | .host => [] | .none => [.net]) ++ [.pid, .ipc, .uts, .cgroup]

/-- src/sandbox/get_or_create.rs:855-861: the place inside the sandbox where a bind ends up; a relative target is taken from the root. -/
def finalTarget (b : BindMount) : Path := b.target.comps.filter (· ≠ ['.'])

end SB
