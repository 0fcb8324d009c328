import Verif.Model.Config
import Verif.Model.Changes
import Verif.Model.Base32
import Verif.Model.Json

/-!
# `sandbox config`: src/actions/config.rs, and `upper_cwd`, `overlay_cwd` of src/config/resolve.rs:282-305

Simplification: names are text, so `to_str` never fails (`<error>` is not printed).
-/

namespace SB

/-- src/config/resolve.rs:282-305: the directory of the current directory in a layer (`upper` or `overlay`). -/
def layerCwd (w : World) (c : Config) (kind : Name) : Path :=
  let mp := findMountPoint w.fs w.cwd
  c.storageDir ++ [c.name, kind, mountName mp] ++ w.cwd.drop mp.length

/-- `LevelFilter::as_str` (crate log) -/
def levelText : Level → Str
  | .off => str "OFF"
  | .error => str "ERROR"
  | .warn => str "WARN"
  | .info => str "INFO"
  | .debug => str "DEBUG"
  | .trace => str "TRACE"

/-- src/config/impls.rs:21-28 `Display for Network` -/
def netText : Net → Str
  | .none => str "none"
  | .host => str "host"

/-- `Display for bool` -/
def boolText (b : Bool) : Str := if b then str "true" else str "false"

/-- `Vec::join(",")` -/
def joinComma : List Str → Str
  | [] => []
  | [s] => s
  | s :: r => s ++ ',' :: joinComma r

/-- src/actions/config.rs:33-39 -/
def bindText (c : Config) : Str := joinComma ((c.bindMounts.filter (fun m => m.opt ≠ .mask)).map (·.argument))

/-- src/actions/config.rs:40-46 -/
def maskText (c : Config) : Str := joinComma ((c.bindMounts.filter (fun m => m.opt = .mask)).map (·.target.text))

/-- src/actions/config.rs:11-26: the keys without arguments. -/
def allKeys : List Str :=
  [str "name", str "net", str "log_level", str "bind", str "mask", str "no_default_binds", str "storage_dir", str "sandbox_dir", str "upper_cwd", str "overlay_cwd",
    str "ignored", str "config_files"]

/-- src/actions/config.rs:57-87: the key as printed and its value. -/
def configValue (w : World) (c : Config) (k : Str) : Option (Str × Str) :=
  if k = str "storage_dir" ∨ k = str "storage-dir" then some (str "storage_dir", display c.storageDir)
  else if k = str "sandbox_dir" ∨ k = str "sandbox-dir" then some (str "sandbox_dir", display (c.storageDir ++ [c.name]))
  else if k = str "upper_cwd" ∨ k = str "upper-cwd" then some (str "upper_cwd", display (layerCwd w c (str "upper")))
  else if k = str "overlay_cwd" ∨ k = str "overlay-cwd" then some (str "overlay_cwd", display (layerCwd w c (str "overlay")))
  else if k = str "net" then some (k, netText c.net)
  else if k = str "bind" then some (k, bindText c)
  else if k = str "mask" then some (k, maskText c)
  else if k = str "no_default_binds" then some (k, boolText c.noDefaultBinds)
  else if k = str "name" then some (k, c.name)
  else if k = str "log_level" then some (k, levelText c.logLevel)
  else if k = str "ignored" then some (k, boolText c.ignored)
  else if k = str "config_files" then some (k, joinComma c.configFiles)
  else none

/-- `Debug for BindMountOptions` (derived): src/config/structs.rs:20-25 -/
def optText : BindOpt → Str
  | .rw => str "ReadWrite"
  | .ro => str "ReadOnly"
  | .mask => str "Mask"

/-- src/actions/config.rs:90-118 -/
def bindJson (b : BindMount) : Json :=
  .obj [(str "source", .str (display b.source)), (str "target", .str b.target.text), (str "options", .str (optText b.opt)), (str "argument", .str b.argument)]

/-- src/actions/config.rs:54-89, 132-148: print the keys in order until one is unknown. -/
def configLoop (w : World) (c : Config) (multi : Bool) : List Str → ActionRun
  | [] => ⟨[(str "bind_mounts", .arr (c.bindMounts.map bindJson)), (str "config_files_list", .arr (c.configFiles.map Json.str))], [], .ok ()⟩
  | k :: ks =>
    match configValue w c k with
    | none => ⟨[], [], .error (str "Unknown key: " ++ k)⟩
    | some (k', v) =>
      let r := configLoop w c multi ks
      ⟨(k', .str v) :: r.sets, (if multi then k' ++ '=' :: v else v) :: r.prints, r.result⟩

/-- src/actions/config.rs:10-130 `config`: `keys` is `none` without arguments. -/
def configRun (w : World) (c : Config) (keys : Option (List Str)) : ActionRun :=
  let keys := keys.getD allKeys
  configLoop w c (decide (keys.length > 1)) keys

end SB
