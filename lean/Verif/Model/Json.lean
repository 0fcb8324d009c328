import Verif.Basic

/-!
# --json: src/util/output.rs and src/main.rs:60-178

An action is taken as what it can do to the output: it records values (`set_json_output`), prints lines (`print_output`) and returns.  `diff` writes to standard output
directly, but with --json it returns an error first (src/actions/diff.rs:23-25).
-/

namespace SB

/-- `serde_json::Value`; a number is kept as its text. -/
inductive Json where
  | null
  | bool (b : Bool)
  | num (text : Str)
  | str (s : Str)
  | arr (l : List Json)
  | obj (l : List (Str × Json))

/-- What an action does: values recorded in order, lines printed, the result. -/
structure ActionRun where
  sets : List (Str × Json)
  prints : List Str
  result : Except Str Unit

/-- src/util/output.rs:28-33: a later value replaces an earlier one. -/
def jsonSet (m : Str → Option Json) (k : Str) (v : Json) : Str → Option Json := fun k' => if k' = k then some v else m k'

def jsonSets (m : Str → Option Json) (l : List (Str × Json)) : Str → Option Json := l.foldl (fun m p => jsonSet m p.1 p.2) m

/-- What ends up on standard output. -/
inductive StdOut where
  | line (s : Str)
  | object (m : Str → Option Json)

/-- What happens before an action is started: src/main.rs:41-83.  `ready`: everything succeeded. -/
inductive Early where | badConfig (msg : Str) | badIdentity (msg : Str) | notRoot | ready
deriving DecidableEq, Repr

structure MainRun where
  stdout : List StdOut
  exit : Nat

/-- src/main.rs:54-83, 97-178, for an invocation with an action.  An error returned from main makes the exit code 1 (Rust's `Termination`). -/
def mainAction (json : Bool) (early : Early) (a : ActionRun) : MainRun :=
  match early with
  | .ready =>
    let lines := if json then [] else a.prints.map StdOut.line
    let failed := match a.result with | .ok _ => false | .error _ => true
    if json then
      let m := jsonSets (fun _ => none) a.sets
      let m := match a.result with
        | .ok _ => jsonSet m (str "status") (.str (str "success"))
        | .error e => jsonSet (jsonSet m (str "status") (.str (str "error"))) (str "error") (.str e)
      ⟨lines ++ [.object m], if failed then 1 else 0⟩
    else ⟨lines, if failed then 1 else 0⟩
  | _ => ⟨[], 1⟩

/-- src/actions/delete.rs:169-207: what `delete` records and returns after the deletions; `outcomes` are the sandboxes it went through, with the error if deleting failed. -/
def deleteRun (outcomes : List (Str × Option Str)) : ActionRun :=
  { sets := [(str "status", .str (str "success")),
      (str "deleted", .arr (outcomes.filterMap fun o => match o.2 with | none => some (.str o.1) | some _ => none)),
      (str "errors", .arr (outcomes.filterMap fun o => o.2.map .str))]
    prints := []
    result := .ok () }

end SB
