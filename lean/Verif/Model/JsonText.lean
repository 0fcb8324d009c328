import Verif.Model.Json
import Verif.Model.Output
import Verif.Model.Settings
import Verif.Model.RawNames

/-!
# JSON as text: serde_json 1.0.140 `to_string_pretty` and `from_str`, src/sandbox/settings.rs:38-62, src/util/output.rs:49-61

Transcribed from the sources of serde_json (ser.rs `PrettyFormatter`, `format_escaped_str_contents`; de.rs; read.rs `parse_escape`).
Simplifications: no limit on nesting (the limit of 128 is not applied to fields that are skipped, and all others of the settings have a fixed depth); a number too large for `f64` is accepted (it would be
the value of a skipped field, which is not converted); a lone surrogate in a string of a skipped field is an error here.
-/

namespace SB

/-- ser.rs: the digits of `\u00xx`. -/
def hexDigit (n : Nat) : Char := if n < 10 then Char.ofNat (48 + n) else Char.ofNat (87 + n)

/-- ser.rs `ESCAPE`, `write_char_escape`. -/
def escapeChar (c : Char) : Str :=
  if c = '"' then ['\\', '"']
  else if c = '\\' then ['\\', '\\']
  else if 0x20 ≤ c.toNat then [c]
  else if c.toNat = 8 then ['\\', 'b']
  else if c.toNat = 9 then ['\\', 't']
  else if c.toNat = 10 then ['\\', 'n']
  else if c.toNat = 12 then ['\\', 'f']
  else if c.toNat = 13 then ['\\', 'r']
  else ['\\', 'u', '0', '0', hexDigit (c.toNat / 16), hexDigit (c.toNat % 16)]

/-- ser.rs `format_escaped_str`. -/
def quote (s : Str) : Str := '"' :: (s.flatMap escapeChar ++ ['"'])

/-- ser.rs `indent`: two blanks for each level. -/
def spaces (k : Nat) : Str := List.replicate (2 * k) ' '

mutual
/-- ser.rs: `Serializer` with `PrettyFormatter`, at a level of nesting. -/
def render (k : Nat) : Json → Str
  | .null => str "null"
  | .bool b => if b then str "true" else str "false"
  | .num t => t
  | .str s => quote s
  | .arr [] => str "[]"
  | .arr (v :: r) => '[' :: '\n' :: (spaces (k + 1) ++ render (k + 1) v ++ renderArr (k + 1) r ++ '\n' :: (spaces k ++ [']']))
  | .obj [] => str "{}"
  | .obj ((x, v) :: r) => '{' :: '\n' :: (spaces (k + 1) ++ quote x ++ ':' :: ' ' :: render (k + 1) v ++ renderObj (k + 1) r ++ '\n' :: (spaces k ++ ['}']))

/-- The elements after the first. -/
def renderArr (k : Nat) : List Json → Str
  | [] => []
  | v :: r => ',' :: '\n' :: (spaces k ++ render k v ++ renderArr k r)

/-- The entries after the first. -/
def renderObj (k : Nat) : List (Str × Json) → Str
  | [] => []
  | (x, v) :: r => ',' :: '\n' :: (spaces k ++ quote x ++ ':' :: ' ' :: render k v ++ renderObj k r)
end

/-- `serde_json::to_string_pretty` -/
def jsonPretty (v : Json) : Str := render 0 v

/-! ### Reading -/

/-- de.rs `parse_whitespace` -/
def isJsonSpace (c : Char) : Bool := c = ' ' || c = '\n' || c = '\t' || c = '\r'

def skipWs : Str → Str
  | [] => []
  | c :: r => if isJsonSpace c then skipWs r else c :: r

/-- read.rs `decode_hex_val` -/
def hexVal (c : Char) : Option Nat :=
  if '0' ≤ c ∧ c ≤ '9' then some (c.toNat - 48)
  else if 'a' ≤ c ∧ c ≤ 'f' then some (c.toNat - 87)
  else if 'A' ≤ c ∧ c ≤ 'F' then some (c.toNat - 55)
  else none

/-- read.rs `decode_four_hex_digits` -/
def hex4 (a b c d : Char) : Option Nat := do
  let a ← hexVal a
  let b ← hexVal b
  let c ← hexVal c
  let d ← hexVal d
  return ((a * 16 + b) * 16 + c) * 16 + d

/-- read.rs `parse_escape`: the one-letter escapes. -/
def escapeOf (e : Char) : Option Char :=
  if e = '"' then some '"'
  else if e = '\\' then some '\\'
  else if e = '/' then some '/'
  else if e = 'b' then some (Char.ofNat 8)
  else if e = 'f' then some (Char.ofNat 12)
  else if e = 'n' then some '\n'
  else if e = 'r' then some '\r'
  else if e = 't' then some '\t'
  else none

/-- read.rs `parse_escape`, `parse_unicode_escape`: the character after a backslash. -/
def readEscape : Str → Option (Char × Str)
  | [] => none
  | e :: r =>
    if e = 'u' then
      match r with
      | a :: b :: c :: d :: r =>
        match hex4 a b c d with
        | none => none
        | some n =>
          if 0xD800 ≤ n ∧ n < 0xDC00 then
            match r with
            | '\\' :: 'u' :: a' :: b' :: c' :: d' :: r' =>
              match hex4 a' b' c' d' with
              | none => none
              | some n' => if 0xDC00 ≤ n' ∧ n' < 0xE000 then some (Char.ofNat (0x10000 + (n - 0xD800) * 0x400 + (n' - 0xDC00)), r') else none
            | _ => none
          else if 0xDC00 ≤ n ∧ n < 0xE000 then none
          else some (Char.ofNat n, r)
      | _ => none
    else (escapeOf e).map (fun c => (c, r))

/-- read.rs `parse_str`: the rest of a string after its opening quote. -/
def parseString : Nat → Str → Option (Str × Str)
  | 0, _ => none
  | _ + 1, [] => none
  | f + 1, c :: r =>
    if c = '"' then some ([], r)
    else if c = '\\' then
      match readEscape r with
      | none => none
      | some (c, r') => (parseString f r').map (fun p => (c :: p.1, p.2))
    else if c.toNat < 0x20 then none
    else (parseString f r).map (fun p => (c :: p.1, p.2))

def isDigit (c : Char) : Bool := '0' ≤ c && c ≤ '9'

/-- de.rs `parse_integer`, `parse_decimal`, `parse_exponent`: the digits that follow, and the rest. -/
def takeDigits : Str → Str × Str
  | [] => ([], [])
  | c :: r => if isDigit c then (c :: (takeDigits r).1, (takeDigits r).2) else ([], c :: r)

/-- A number's exponent. -/
def takeExp (t : Str) : Option (Str × Str) :=
  match t with
  | e :: r =>
    if e = 'e' ∨ e = 'E' then
      match r with
      | s :: r' =>
        if s = '+' ∨ s = '-' then (if (takeDigits r').1 = [] then none else some (e :: s :: (takeDigits r').1, (takeDigits r').2))
        else if (takeDigits r).1 = [] then none else some (e :: (takeDigits r).1, (takeDigits r).2)
      | [] => none
    else some ([], t)
  | [] => some ([], [])

/-- A number's fraction. -/
def takeFrac (t : Str) : Option (Str × Str) :=
  match t with
  | c :: r => if c = '.' then (if (takeDigits r).1 = [] then none else some ('.' :: (takeDigits r).1, (takeDigits r).2)) else some ([], t)
  | [] => some ([], [])

/-- de.rs `parse_integer`: no leading zeros. -/
def takeInt (t : Str) : Option (Str × Str) :=
  match t with
  | c :: r => if c = '0' then (if (takeDigits r).1 = [] then some (['0'], r) else none) else if (takeDigits t).1 = [] then none else some (takeDigits t)
  | [] => none

/-- de.rs `parse_any_number` -/
def takeNumber (t : Str) : Option (Str × Str) :=
  let sign := if t.head? = some '-' then ['-'] else []
  match takeInt (t.drop sign.length) with
  | none => none
  | some (i, u) => match takeFrac u with
    | none => none
    | some (fr, u) => match takeExp u with
      | none => none
      | some (e, u) => some (sign ++ i ++ fr ++ e, u)

mutual
/-- de.rs `deserialize_any`: a value and what follows it. -/
def parseValue : Nat → Str → Option (Json × Str)
  | 0, _ => none
  | f + 1, t =>
    match skipWs t with
    | 'n' :: 'u' :: 'l' :: 'l' :: r => some (.null, r)
    | 't' :: 'r' :: 'u' :: 'e' :: r => some (.bool true, r)
    | 'f' :: 'a' :: 'l' :: 's' :: 'e' :: r => some (.bool false, r)
    | '"' :: r => (parseString (r.length + 1) r).map (fun p => (.str p.1, p.2))
    | '[' :: r => match skipWs r with
      | ']' :: r' => some (.arr [], r')
      | _ => (parseElems f r).map (fun p => (.arr p.1, p.2))
    | '{' :: r => match skipWs r with
      | '}' :: r' => some (.obj [], r')
      | _ => (parseEntries f r).map (fun p => (.obj p.1, p.2))
    | u => (takeNumber u).map (fun p => (.num p.1, p.2))

/-- de.rs `SeqAccess`: the elements up to the closing bracket. -/
def parseElems : Nat → Str → Option (List Json × Str)
  | 0, _ => none
  | f + 1, t =>
    match parseValue f t with
    | none => none
    | some (v, r) => match skipWs r with
      | ',' :: r' => (parseElems f r').map (fun p => (v :: p.1, p.2))
      | ']' :: r' => some ([v], r')
      | _ => none

/-- de.rs `MapAccess`: the entries up to the closing brace. -/
def parseEntries : Nat → Str → Option (List (Str × Json) × Str)
  | 0, _ => none
  | f + 1, t =>
    match skipWs t with
    | '"' :: r => match parseString (r.length + 1) r with
      | none => none
      | some (x, r) => match skipWs r with
        | ':' :: r => match parseValue f r with
          | none => none
          | some (v, r) => match skipWs r with
            | ',' :: r' => (parseEntries f r').map (fun p => ((x, v) :: p.1, p.2))
            | '}' :: r' => some ([(x, v)], r')
            | _ => none
        | _ => none
    | _ => none
end

/-- `serde_json::from_str`, as far as the text is concerned: one value and nothing but white space after it. -/
def jsonParse (t : Str) : Option Json :=
  match parseValue (2 * t.length + 2) t with
  | none => none
  | some (v, r) => if skipWs r = [] then some v else none

/-! ### settings.json -/

/-- src/config/structs.rs:6-12, with paths as they are written: `PathBuf` keeps the text it was made from. -/
structure RawBind where
  source : Str
  target : Str
  opt : BindOpt
  argument : Str
deriving DecidableEq, Repr

/-- src/sandbox/settings.rs:7-13, src/sandbox/mount_overlays.rs:19-23 -/
structure RawSettings where
  version : Str
  mounts : List (Str × Str)
  net : Net
  binds : List RawBind
deriving DecidableEq, Repr

/-- src/config/structs.rs:43-49: `#[serde(rename)]` -/
def netName : Net → Str
  | .none => str "none"
  | .host => str "host"

/-- src/config/structs.rs:20-25: unit variants are written as their names. -/
def optName : BindOpt → Str
  | .rw => str "ReadWrite"
  | .ro => str "ReadOnly"
  | .mask => str "Mask"

/-- `derive(Serialize)`: the fields in the order of their declaration (src/sandbox/settings.rs:7-13, src/sandbox/mount_overlays.rs:19-23, src/config/structs.rs:6-12). -/
def settingsJson (s : RawSettings) : Json :=
  .obj [(str "version", .str s.version),
    (str "mounts", .arr (s.mounts.map (fun m => .obj [(str "hash", .str m.1), (str "dir", .str m.2)]))),
    (str "network", .str (netName s.net)),
    (str "bind_mounts", .arr (s.binds.map (fun b => .obj [(str "source", .str b.source), (str "target", .str b.target), (str "options", .str (optName b.opt)), (str "argument", .str b.argument)])))]

/-- src/sandbox/settings.rs:38-46 `save_to_file`: the bytes written.  Not modelled: a path that is not UTF-8 (an error). -/
def saveSettings (s : RawSettings) : List Nat := utf8 (jsonPretty (settingsJson s))

/-- `derive(Deserialize)`: the field of that name; a missing or repeated one is an error (`none`), others are skipped. -/
def fieldOf (l : List (Str × Json)) (k : Str) : Option Json :=
  match l.filter (fun e => e.1 = k) with
  | [e] => some e.2
  | _ => none

/-- `derive(Deserialize)` for a struct: from an object, or from an array with the fields in order. -/
def structOf (names : List Str) : Json → Option (List Json)
  | .obj l => names.mapM (fieldOf l)
  | .arr l => if l.length = names.length then some l else none
  | _ => none

def textOf : Json → Option Str
  | .str s => some s
  | _ => none

/-- de.rs `deserialize_enum`: a unit variant, `"name"` or `{"name": null}`. -/
def variantOf : Json → Option Str
  | .str s => some s
  | .obj [(k, .null)] => some k
  | _ => none

def arrayOf {α : Type} (f : Json → Option α) : Json → Option (List α)
  | .arr l => l.mapM f
  | _ => none

def netOf (j : Json) : Option Net :=
  match variantOf j with
  | some s => if s = str "none" then some .none else if s = str "host" then some .host else none
  | none => none

def optOf (j : Json) : Option BindOpt :=
  match variantOf j with
  | some s => if s = str "ReadWrite" then some .rw else if s = str "ReadOnly" then some .ro else if s = str "Mask" then some .mask else none
  | none => none

def mountOf (j : Json) : Option (Str × Str) :=
  match structOf [str "hash", str "dir"] j with
  | some [h, d] => match textOf h, textOf d with
    | some h, some d => some (h, d)
    | _, _ => none
  | _ => none

def bindOf (j : Json) : Option RawBind :=
  match structOf [str "source", str "target", str "options", str "argument"] j with
  | some [s, t, o, a] => match textOf s, textOf t, optOf o, textOf a with
    | some s, some t, some o, some a => some ⟨s, t, o, a⟩
    | _, _, _, _ => none
  | _ => none

def settingsOfJson (j : Json) : Option RawSettings :=
  match structOf [str "version", str "mounts", str "network", str "bind_mounts"] j with
  | some [v, m, n, b] => match textOf v, arrayOf mountOf m, netOf n, arrayOf bindOf b with
    | some v, some m, some n, some b => some ⟨v, m, n, b⟩
    | _, _, _, _ => none
  | _ => none

/-- src/sandbox/settings.rs:48-62 `load_from_file`, of a file with these bytes; `none`: an error. -/
def loadSettings (bytes : List Nat) : Option RawSettings :=
  match utf8Decode bytes with
  | none => none
  | some t => match jsonParse t with
    | none => none
    | some j => settingsOfJson j

/-- `PartialEq for BindMount` (derived; paths are compared by components). -/
def RawBind.value (b : RawBind) : RPath × RPath × BindOpt × Str := (parsePath b.source, parsePath b.target, b.opt, b.argument)

/-- src/sandbox/settings.rs:27-36 `user_bind_mounts` -/
def rawUserBinds (s : RawSettings) : List RawBind :=
  stableSort (fun a b => decide (a.argument ≤ b.argument)) (s.binds.filter (fun b => b.argument ≠ str "data"))

/-- src/sandbox/settings.rs:64-152 `validate_against_config` -/
def validateRaw (existing current : RawSettings) : Except Clash Unit :=
  if existing.net ≠ current.net then .error .network
  else if existing.mounts ≠ current.mounts then .error .mounts
  else if (rawUserBinds existing).map RawBind.value ≠ (rawUserBinds current).map RawBind.value then .error .binds
  else .ok ()

/-- src/sandbox/get_or_create.rs:122-158: entering a running sandbox.  `file`: the bytes of settings.json (`none`: it does not exist); `current`: the settings of this invocation (`none`: its mounts
cannot be determined). -/
def joinFile (file : Option (List Nat)) (current : Option RawSettings) : Except JoinErr Unit :=
  match file with
  | none => .ok ()
  | some bytes => match loadSettings bytes with
    | none => .error .corrupt
    | some r => match current with
      | none => .error .noMounts
      | some c => match validateRaw r c with
        | .error e => .error (.clash e)
        | .ok _ => .ok ()

/-! ### Standard output with --json -/

/-- `BTreeMap::insert` (`serde_json::Map` without the feature `preserve_order`): sorted by key, a later value replaces an earlier one. -/
def mapInsert (l : List (Str × Json)) (k : Str) (v : Json) : List (Str × Json) :=
  match l with
  | [] => [(k, v)]
  | (x, w) :: r => if k = x then (k, v) :: r else if k < x then (k, v) :: (x, w) :: r else (x, w) :: mapInsert r k v

/-- src/util/output.rs:49-61 `print_json_output` after src/main.rs:97-178: what is written to standard output. -/
def jsonStdout (a : ActionRun) : Str :=
  let sets := a.sets ++ (match a.result with
    | .ok _ => [(str "status", Json.str (str "success"))]
    | .error e => [(str "status", .str (str "error")), (str "error", .str e)])
  jsonPretty (.obj (sets.foldl (fun l p => mapInsert l p.1 p.2) [])) ++ ['\n']

def optJson : Option Str → Json
  | none => .null
  | some s => .str s

/-- src/sandbox/changes/change_entries.rs:49-75 `to_json`: the keys in the order of the map. -/
def entryValue (e : EntryJson) : Json :=
  .obj ([(str "destination", .str e.destination)] ++ (match e.error with | none => [] | some x => [(str "error", .str x)]) ++
    [(str "operation", .str e.operation), (str "source", optJson e.source), (str "staged", optJson e.staged), (str "tmp_path", optJson e.tmpPath)])

/-- src/actions/status.rs:20-101 `status`, as far as the output goes. -/
def statusRun (env : Env) (st : State) : ActionRun := ⟨[(str "changes", .arr ((statusJson env st).map entryValue))], statusPrints env st, .ok ()⟩

end SB
