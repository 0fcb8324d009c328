import Verif.Model.Actions

/-!
# What status prints: src/sandbox/changes/change_entries.rs:49-160, src/actions/status.rs

Colours are left out: with a terminal the `colored` crate puts escape sequences around symbol and paths, otherwise the texts are plain.
-/

namespace SB

/-- `Path::display` of a relative path given by its components (std). -/
def relText : Path → Str
  | [] => []
  | [n] => n
  | n :: r => n ++ '/' :: relText r

/-- src/sandbox/changes/change_entries.rs:110-120: relative to the current directory if the path lies in it, absolute otherwise. -/
def shownPath (cwd p : Path) : Str := if cwd.isPrefixOf p then relText (p.drop cwd.length) else display p

/-- src/sandbox/changes/change_entries.rs:87-104 -/
def errorText : ChangeError → Str
  | .unsupportedFileType => str "Unsupported file type. Only files, directories, and symlinks are supported."
  | .redirectPathNotFound => str "Redirect path not found. Was the underlying path moved or deleted?"

/-- src/sandbox/changes/change_entries.rs:107-157 `display`: the source path is the destination (in full) if there is no source. -/
def entryLine (cwd : Path) (e : Entry) : Str :=
  let dst := shownPath cwd e.dest
  let src := match e.source with | some s => shownPath cwd s.path | none => display e.dest
  match e.op with
  | .set .create => str "   + " ++ dst
  | .set .modify => str "   ~ " ++ dst
  | .remove => str "   - " ++ src
  | .error x => str "   ! " ++ dst ++ str " (error: " ++ errorText x ++ str ")"
  | .rename => str "   > " ++ src ++ str " -> " ++ dst

/-- src/actions/status.rs:23-98: the strings handed to `println!`. -/
def statusPrints (env : Env) (st : State) : List Str :=
  let all := changes env st
  let sel := selected env st
  (if sel.any (fun e => match e.op with | .set _ => e.isActuallyModified | _ => true) then
    str "\nMatching changes:" :: (statusList sel).map (entryLine env.cwd)
  else [str "\nNo matching changes"]) ++
  (if nonMatchingCount all sel > 0 then [str "\n" ++ (toString (nonMatchingCount all sel)).toList ++ str " external or non-matching changes"] else []) ++
  [str "\n"]

/-- src/util/output.rs:19-26: `println!` of each. -/
def stdoutText (l : List Str) : Str := l.flatMap (fun s => s ++ ['\n'])

/-- What appears on standard output. -/
def statusText (env : Env) (st : State) : Str := stdoutText (statusPrints env st)

/-- src/sandbox/changes/change_entries.rs:49-75 `to_json` -/
structure EntryJson where
  destination : Str
  operation : Str
  source : Option Str
  staged : Option Str
  tmpPath : Option Str
  error : Option Str
deriving DecidableEq, Repr

def entryJson (e : Entry) : EntryJson where
  destination := display e.dest
  operation := match e.op with
    | .set .create => str "create"
    | .set .modify => str "modify"
    | .remove => str "remove"
    | .rename => str "rename"
    | .error _ => str "error"
  source := e.source.map (fun s => display s.path)
  staged := e.staged.map (fun s => display s.path)
  tmpPath := e.tmp.map display
  error := match e.op with
    | .error .unsupportedFileType => some (str "unsupported_file_type")
    | .error .redirectPathNotFound => some (str "redirect_path_not_found")
    | _ => none

/-- src/actions/status.rs:30-90: the value of `changes` in the JSON object.  Simplification: staged paths are relative to the storage of the sandbox. -/
def statusJson (env : Env) (st : State) : List EntryJson := (statusList (selected env st)).map entryJson

end SB
