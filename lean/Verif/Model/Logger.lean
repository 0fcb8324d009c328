import Verif.Basic

/-!
# The logger: src/logger.rs, and its use in src/main.rs:41-73

Levels are numbered as in the `log` crate: Error 1, Warn 2, Info 3, Debug 4, Trace 5; a level filter is one of these or Off 0.  Colours and the text of a line are part of
the message.  One thread.
-/

namespace SB

/-- src/logger.rs:6-11; `out` is what has been written to standard error, oldest first. -/
structure Logger where
  level : Nat
  deferring : Bool
  deferred : List (Nat × Str)
  out : List Str
deriving DecidableEq, Repr

/-- src/logger.rs:14-21 `new` -/
def Logger.new (level : Nat) : Logger := ⟨level, true, [], []⟩

/-- The operations: logger.rs:29-31, 33-54, 62-99. -/
inductive LogOp where
  | setLevel (l : Nat)
  | printDeferred
  | log (lvl : Nat) (msg : Str)
deriving DecidableEq, Repr

/-- One operation: `set_level` 29-31, `print_deferred` 33-54, `log` 62-99 (`enabled` 58-60). -/
def Logger.step (s : Logger) : LogOp → Logger
  | .setLevel l => { s with level := l }
  | .printDeferred =>
    { s with
      out := s.out ++ (s.deferred.filter (fun d => decide (d.1 ≤ s.level))).map Prod.snd
      deferred := []
      deferring := false }
  | .log lvl msg =>
    if s.deferring then { s with deferred := s.deferred ++ [(lvl, msg)] }
    else if lvl ≤ s.level then { s with out := s.out ++ [msg] }
    else s

def Logger.run (s : Logger) (ops : List LogOp) : Logger := ops.foldl Logger.step s

/-- What main does with the logger (src/main.rs:42-73): the level of the command line (or Info), the messages of resolving the configuration and the identity, and, if
that succeeded (`cfg` is the level it gave), the level of the configuration, the deferred messages, and the rest of the run. -/
def mainLogOps (cli : Option Nat) (early : List (Nat × Str)) (cfg : Option Nat) (late : List (Nat × Str)) : List LogOp :=
  .setLevel (cli.getD 3) :: early.map (fun m => .log m.1 m.2) ++
    match cfg with
    | none => []
    | some l => .setLevel l :: .printDeferred :: late.map (fun m => .log m.1 m.2)

end SB
