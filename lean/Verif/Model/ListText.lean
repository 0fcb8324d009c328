import Verif.Model.JsonText
import Verif.Model.Sandboxes

/-!
# What `list` prints: src/actions/list.rs:14-52

Not modelled: the escape sequences for colours, which are left out when standard output is not a terminal.
-/

namespace SB

/-- src/actions/list.rs:20-36: the strings handed to `outln!`. -/
def listPrints (run stop : List Name) : List Str :=
  (if run.isEmpty then [] else str "Running sandboxes:" :: run) ++ (if !run.isEmpty && !stop.isEmpty then [[]] else []) ++
    (if stop.isEmpty then [] else str "Stopped sandboxes:" :: stop)

/-- src/actions/list.rs:14-52 `list`; the error is that of `get_sandboxes`, with some text. -/
def listRun (errText : Errno → Str) : Except Errno (List Name × List Name) → ActionRun
  | .error e => ⟨[], [], .error (errText e)⟩
  | .ok (run, stop) => ⟨[(str "running_sandboxes", .arr (run.map .str)), (str "stopped_sandboxes", .arr (stop.map .str))], listPrints run stop, .ok ()⟩

end SB
