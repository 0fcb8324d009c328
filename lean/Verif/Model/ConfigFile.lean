import Verif.Model.Config

/-!
# The content of a config file: src/config/structs.rs:51-62, src/config/impls.rs:30-42, src/config/resolve.rs:583-594

A config file is read as text, the text as a TOML document (crate `toml`, a parameter here: text to top-level table), and the table as a `PartialConfig` by the code
serde derives.
-/

namespace SB

/-- A TOML value.  Values of numbers and dates do not matter: no setting takes one. -/
inductive Toml where
  | text (s : Str)
  | bool (b : Bool)
  | list (l : List Toml)
  | table (l : List (Str × Toml))
  | number
  | time

/-- A TOML document: its top-level table. -/
abbrev TomlDoc := List (Str × Toml)

/-- src/config/impls.rs:30-42 `deserialize_level_filter` (a TOML document has no null). -/
def levelValue : Toml → Option Level
  | .text s => parseLevel s
  | _ => none

/-- src/config/structs.rs:43-49: serde's names of the variants, case-sensitive.  Simplification: the crate also takes a table with one of the names as its only key and nothing in it. -/
def netValue : Toml → Option Net
  | .text s => if s = str "none" then some .none else if s = str "host" then some .host else none
  | _ => none

/-- `String` (serde) -/
def textValue : Toml → Option Str
  | .text s => some s
  | _ => none

/-- `bool` (serde) -/
def boolValue : Toml → Option Bool
  | .bool b => some b
  | _ => none

/-- `Vec<String>` (serde) -/
def textsValue : Toml → Option (List Str)
  | .list l => l.mapM textValue
  | _ => none

/-- One field of src/config/structs.rs:51-62: absent, present with a usable value, or an error. -/
def tomlField {α} (doc : TomlDoc) (key : String) (f : Toml → Option α) : Option (Option α) :=
  match doc.find? (fun e => e.1 = str key) with
  | none => some none
  | some e => (f e.2).map some

/-- src/config/structs.rs:51-62, derived `Deserialize`: keys that are no field are skipped. -/
def partialOf (doc : TomlDoc) : Option Partial :=
  match tomlField doc "log_level" levelValue, tomlField doc "name" textValue, tomlField doc "storage_dir" textValue, tomlField doc "net" netValue,
    tomlField doc "ignored" boolValue, tomlField doc "bind" textsValue, tomlField doc "mask" textsValue, tomlField doc "no_default_binds" boolValue with
  | some l, some n, some s, some t, some i, some b, some m, some d => some ⟨l, n, s, t, i, b, m, d⟩
  | _, _, _, _, _, _, _, _ => none

/-- src/config/resolve.rs:584-594: read a file as UTF-8 text (`none`: it cannot be read or is not UTF-8), parse it. -/
def fileConfig (content : Str → Option Str) (toml : Str → Option TomlDoc) (path : Str) : Option Partial :=
  match content path with
  | none => none
  | some t => match toml t with
    | none => none
    | some doc => partialOf doc

end SB
