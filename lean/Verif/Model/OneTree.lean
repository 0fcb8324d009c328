import Verif.Model.Actions

/-!
# One file tree: src/actions/accept.rs:118-438, src/actions/reject.rs:10-56

Everywhere else storage and host are two trees.  In reality the storage lies in the host's tree, by default in the home directory (src/config/cli.rs:38); the calls of accept and reject
name all paths from the root.  Here they run on the one tree, with the storage below `B`.
-/

namespace SB

/-- The operation with the full paths of the staged files (`staged.path` of src/sandbox/changes/file_details.rs is absolute). -/
def Op.at (B : Path) : Op → Op
  | .cp s t => .cp (B ++ s) t
  | .ln s t => .ln (B ++ s) t
  | .clean p => .clean (B ++ p)
  | op => op

/-- One operation of accept on the one tree. -/
def execOne (B : Path) (op : Op) (fs : FS) : FS × Option AccErr :=
  let r := exec (op.at B) ⟨fs, fs⟩
  match op with
  | .clean _ => (r.1.upper, r.2)
  | _ => (r.1.lower, r.2)

/-- Operations until the first error. -/
def runOne (B : Path) : List Op → FS → FS × Option AccErr
  | [], fs => (fs, none)
  | op :: ops, fs => match execOne B op fs with
    | (fs', none) => runOne B ops fs'
    | (fs', some e) => (fs', some e)

/-- src/actions/accept.rs:118-438 `accept` on the one tree `st.lower`; `st.upper` is what lies below `B`. -/
def acceptOne (B : Path) (env : Env) (st : State) : FS × Option AccErr :=
  let sel := matching env.glob env.cwd env.patterns (changes env st)
  if sel = [] then (st.lower, none)
  else match pretendCheck env st sel with
    | some e => (st.lower, some e)
    | none => runOne B (plan env sel) st.lower

/-- States of the one tree in which accept can be stopped while running `ops` (compare `CrashState`, Model/Accept.lean). -/
inductive CrashOne (B : Path) : List Op → FS → FS → Prop where
  | here {ops : List Op} {fs : FS} : CrashOne B ops fs fs
  | copying {s t : Path} {ops : List Op} {fs : FS} {st' : State} : Mid (.cp (B ++ s) t) ⟨fs, fs⟩ st' → CrashOne B (.cp s t :: ops) fs st'.lower
  | clearing {p : Path} {ops : List Op} {fs : FS} {st' : State} : Mid (.clean (B ++ p)) ⟨fs, fs⟩ st' → CrashOne B (.clean p :: ops) fs st'.upper
  | failed {op : Op} {ops : List Op} {fs fs' : FS} {e : AccErr} : execOne B op fs = (fs', some e) → CrashOne B (op :: ops) fs fs'
  | later {op : Op} {ops : List Op} {fs fs' fs'' : FS} : execOne B op fs = (fs', none) → CrashOne B ops fs' fs'' → CrashOne B (op :: ops) fs fs''

/-- The states of the one tree while `sandbox accept` runs (src/actions/accept.rs:118-438). -/
inductive AcceptOneState (B : Path) (env : Env) (st : State) : FS → Prop where
  | before : AcceptOneState B env st st.lower
  | during {fs : FS} : pretendCheck env st (selected env st) = none → CrashOne B (plan env (selected env st)) st.lower fs → AcceptOneState B env st fs

/-- The change with the full path of its staged file. -/
def Entry.at (B : Path) (e : Entry) : Entry := { e with staged := e.staged.map (fun s => { s with path := B ++ s.path }) }

/-- src/actions/reject.rs:10-56 `reject` on the one tree (the order of the full paths is that of the paths in the storage). -/
def rejectOne (B : Path) (env : Env) (st : State) : FS × Option Errno :=
  rejectLoop ((stableSort byStagedDescending (selected env st)).map (Entry.at B)) none st.lower

end SB
