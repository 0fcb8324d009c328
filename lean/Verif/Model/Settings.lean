import Verif.Model.Sandboxes

/-!
# Settings of a running sandbox: src/sandbox/settings.rs, src/sandbox/get_or_create.rs:106-158

Simplification: reading `settings.json` gives back what was written; a file somebody else wrote is `corrupt` or any other settings.  Model/JsonText models the file as bytes, and C93 justifies the simplification.
-/

namespace SB

/-- src/sandbox/settings.rs:7-13 -/
structure Settings where
  version : Str
  mounts : List MountHash
  net : Net
  binds : List BindMount
deriving DecidableEq, Repr

/-- src/sandbox/settings.rs:16-23 `from_config` -/
def settingsOf (version : Str) (net : Net) (binds : List BindMount) (mounts : List MountHash) : Settings := ⟨version, mounts, net, binds⟩

/-- src/sandbox/settings.rs:27-36 `user_bind_mounts` -/
def userBinds (s : Settings) : List BindMount :=
  stableSort (fun a b => decide (a.argument ≤ b.argument)) (s.binds.filter (fun b => b.argument ≠ str "data"))

/-- Results of src/sandbox/settings.rs:64-152 `validate_against_config` -/
inductive Clash where | network | mounts | binds
deriving DecidableEq, Repr

/-- src/sandbox/settings.rs:64-152 `validate_against_config` -/
def validate (existing current : Settings) : Except Clash Unit :=
  if existing.net ≠ current.net then .error .network
  else if existing.mounts ≠ current.mounts then .error .mounts
  else if userBinds existing ≠ userBinds current then .error .binds
  else .ok ()

/-- src/sandbox/get_or_create.rs:136-141, 182-187: the implicit bind of the data directory. -/
def dataBind (c : Config) : BindMount :=
  let d := sandboxDir c.storageDir c.name ++ [str "data"]
  ⟨d, RPath.ofPath d, .rw, str "data"⟩

/-- src/sandbox/get_or_create.rs:444-551, 855-861: a configured bind as it is used at start-up.  Source and existing targets are canonical already (`parseBind`), so making
them canonical again (465-479) changes nothing. -/
def startBind (b : BindMount) : StartBind := ⟨b.source, finalTarget b, b.opt⟩

/-- src/sandbox/get_or_create.rs:182-187, 310-937: the mounts of a sandbox started with configuration `c` over the mounts `ms`, in the order in which they are made. -/
def sandboxMounts (se : StartEnv) (c : Config) (ms : List MountHash) : List MountOp := startMounts se ms ((c.bindMounts ++ [dataBind c]).map startBind)

/-- `settings.json` of the sandbox -/
inductive SettingsFile where | missing | corrupt | saved (s : Settings)
deriving DecidableEq, Repr

/-- What starting with configuration `c` and mounts `ms` writes to `settings.json` (src/sandbox/get_or_create.rs:181-187, src/sandbox/mount_overlays.rs:100-109). -/
def startSettings (version : Str) (c : Config) (ms : List MountHash) : SettingsFile :=
  .saved (settingsOf version c.net (c.bindMounts ++ [dataBind c]) (stableSort (fun a b => textLe a.dir b.dir) ms))

inductive JoinErr where | clash (c : Clash) | corrupt | noMounts
deriving DecidableEq, Repr

/-- src/sandbox/get_or_create.rs:122-158: entering a running sandbox; `parent` and `table` as for `determineMounts`. -/
def join (version : Str) (c : Config) (file : SettingsFile) (parent : Option (Option (List MountHash))) (table : Option (List MountEntry)) : Except JoinErr Unit :=
  match file with
  | .missing => .ok ()
  | .corrupt => .error .corrupt
  | .saved s => match determineMounts (sandboxDir c.storageDir c.name) parent table with
    | none => .error .noMounts
    | some ms => match validate s (settingsOf version c.net (c.bindMounts ++ [dataBind c]) ms) with
      | .error e => .error (.clash e)
      | .ok _ => .ok ()

end SB
