import Verif.Model.Config
import Verif.Model.Exec

/-!
# The command line: src/config/cli.rs

The definitions of src/config/cli.rs, read by the rules of the clap library (version 4.5, clap_builder/src/parser/parser.rs and validator.rs, written from its documentation and source; clap is not part of
the repository).  Words are Unicode (clap refuses others for these definitions).  The text of messages is not modelled.
-/

namespace SB.Cli

/-- The options without a value (`SetTrue`): src/config/cli.rs:30-36, 77-86, 98-101; `all`, `yes`: src/config/cli.rs:170-172, 181-183. -/
inductive Flag where | new | last | noDefaultBinds | json | noConfig | ignored | all | yes
deriving DecidableEq, Repr

/-- The options with a value: src/config/cli.rs:16-28, 38-75, 88-96. -/
inductive Opt where | logLevel | name | storageDir | net | bind | mask | config
deriving DecidableEq, Repr

/-- src/config/cli.rs:123-188 -/
inductive Action where | config | list | status | diff | accept | reject | sync | stop | delete
deriving DecidableEq, Repr

/-- The name of a subcommand (clap's derive: the variant in lower case). -/
def actionOf (s : Str) : Option Action :=
  if s = str "config" then some .config else if s = str "list" then some .list else if s = str "status" then some .status
  else if s = str "diff" then some .diff else if s = str "accept" then some .accept else if s = str "reject" then some .reject
  else if s = str "sync" then some .sync else if s = str "stop" then some .stop else if s = str "delete" then some .delete else none

/-- Long names of options without a value, before an action (`none`) or after it.  All but `all` and `yes` are `global`. -/
def flagOf (pl : Option Action) (s : Str) : Option Flag :=
  if s = str "new" then some .new else if s = str "last" then some .last else if s = str "no-default-binds" then some .noDefaultBinds
  else if s = str "json" then some .json else if s = str "no-config" then some .noConfig else if s = str "ignored" then some .ignored
  else if s = str "all" ∧ pl = some .stop then some .all else if s = str "yes" ∧ pl = some .delete then some .yes else none

/-- Long names of options with a value, all `global`. -/
def optOf (s : Str) : Option Opt :=
  if s = str "log-level" then some .logLevel else if s = str "name" then some .name else if s = str "storage-dir" then some .storageDir
  else if s = str "net" then some .net else if s = str "bind" then some .bind else if s = str "mask" then some .mask
  else if s = str "config" then some .config else none

/-- What was given on the command line at one level (before the action, or after it). -/
structure Given where
  args : Args := {}
  json : Bool := false
  all : Bool := false
  yes : Bool := false
deriving DecidableEq

/-- clap's `SetTrue`: a second use is an error. -/
def setFlag (f : Flag) (g : Given) : Option Given :=
  match f with
  | .new => if g.args.new then none else some { g with args := { g.args with new := true } }
  | .last => if g.args.last then none else some { g with args := { g.args with last := true } }
  | .noDefaultBinds => if g.args.noDefaultBinds then none else some { g with args := { g.args with noDefaultBinds := true } }
  | .json => if g.json then none else some { g with json := true }
  | .noConfig => if g.args.noConfig then none else some { g with args := { g.args with noConfig := true } }
  | .ignored => if g.args.ignored then none else some { g with args := { g.args with ignored := true } }
  | .all => if g.all then none else some { g with all := true }
  | .yes => if g.yes then none else some { g with yes := true }

/-- src/config/structs.rs:43-49: clap's `ValueEnum` for `Network`. -/
def netEnum (s : Str) : Option Net := if s = str "none" then some .none else if s = str "host" then some .host else none

/-- The value of an option: clap's `Set` (a second use is an error) or `Append` with delimiter `,`; value parsers: src/config/cli.rs:22, 270-272 (log level), `value_enum` (net). -/
def setOpt (o : Opt) (v : Str) (g : Given) : Option Given :=
  match o with
  | .logLevel => if g.args.logLevel.isSome then none else (parseLevel v).map (fun l => { g with args := { g.args with logLevel := some l } })
  | .name => if g.args.name.isSome then none else some { g with args := { g.args with name := some v } }
  | .storageDir => if g.args.storageDir.isSome then none else some { g with args := { g.args with storageDir := some v } }
  | .net => if g.args.net.isSome then none else (netEnum v).map (fun n => { g with args := { g.args with net := some n } })
  | .bind => some { g with args := { g.args with bind := extend g.args.bind (splitComma v) } }
  | .mask => some { g with args := { g.args with mask := extend g.args.mask (splitComma v) } }
  | .config => some { g with args := { g.args with config := extend g.args.config (splitComma v) } }

/-- `default_missing_value` of the options whose value is optional and needs `=`: src/config/cli.rs:16-23, 44-51. -/
def missing : Opt → Option Str
  | .logLevel => some (str "trace")
  | .net => some (str "host")
  | _ => none

/-- What a word turns out to be. -/
inductive Next where
  | go (g : Given) (pend : Option Opt)     -- an option; `pend`: its value is the next word
  | value                                  -- not an option
  | refused
  | help
  | version

def Next.of : Option Given → Next
  | some g => .go g none
  | none => .refused

/-- Splits at the first `=`. -/
def splitEq : Str → Str × Option Str
  | [] => ([], none)
  | c :: r => if c = '=' then ([], some r) else (c :: (splitEq r).1, (splitEq r).2)

/-- clap's `parse_long_arg` for `--t`; `pend`: an option still waits for its value (then another option is an error).  Before the action, unknown options count as values, as the positional argument
there has `allow_hyphen_values` (src/config/cli.rs:110-111). -/
def longWord (pl : Option Action) (pend : Option Opt) (g : Given) (t : Str) : Next :=
  let n := (splitEq t).1
  let v := (splitEq t).2
  if n = str "help" then (if v.isSome || pend.isSome then .refused else .help)
  else if n = str "version" ∧ pl = none then (if v.isSome || pend.isSome then .refused else .version)
  else match flagOf pl n with
    | some f => if v.isSome || pend.isSome then .refused else .of (setFlag f g)
    | none => match optOf n with
      | some o => if pend.isSome then .refused else match v with
        | some v => .of (setOpt o v g)
        | none => match missing o with
          | some d => .of (setOpt o d g)
          | none => .go g (some o)
      | none => if pl = none then .value else .refused

/-- The loop of clap's `parse_short_arg`. -/
def shortChars (pl : Option Action) : Str → Given → Next
  | [], g => .go g none
  | c :: r, g =>
    if c = 'v' then
      if r.head? = some '=' then .of (setOpt .logLevel r.tail g)
      else match setOpt .logLevel (str "trace") g with
        | some g => shortChars pl r g
        | none => .refused
    else if c = 'h' then .help
    else if c = 'V' ∧ pl = none then .version
    else if c = 'y' ∧ pl = some .delete then match setFlag .yes g with
      | some g => shortChars pl r g
      | none => .refused
    else .refused

/-- clap's `parse_short_arg` for `-t`. -/
def shortWord (pl : Option Action) (pend : Option Opt) (g : Given) (t : Str) : Next :=
  if pl = none ∧ t.any (fun c => c ≠ 'v' && c ≠ 'h' && c ≠ 'V') then .value
  else if pend.isSome then .refused
  else shortChars pl t g

/-- A word that is not `--`. -/
def word (pl : Option Action) (pend : Option Opt) (g : Given) (w : Str) : Next :=
  if (str "--").isPrefixOf w then longWord pl pend g (w.drop 2)
  else if w.head? = some '-' ∧ w ≠ str "-" then shortWord pl pend g (w.drop 1)
  else .value

/-- What is to be done. -/
inductive Todo where
  | command (words : Option (List Str))
  | action (a : Action) (patterns : Option (List Str)) (all yes : Bool)
deriving DecidableEq, Repr

inductive Parsed where
  | refused | help | version
  | run (args : Args) (json : Bool) (what : Todo)
deriving DecidableEq

/-- clap's check of `conflicts_with`, per level: src/config/cli.rs:26, 31, 35, 94. -/
def conflicts (a : Args) : Bool :=
  (a.name.isSome && a.new) || (a.name.isSome && a.last) || (a.new && a.last) || (a.config.isSome && a.noConfig)

/-- No words: `None`. -/
def someWords (l : List Str) : Option (List Str) := if l = [] then none else some l

/-- The end of a level without an action: src/config/cli.rs:109-116, 257-268. -/
def finishCommand (g : Given) (ws : List Str) : Parsed :=
  match validateWords 0 ws with
  | none => .refused
  | some ws => if conflicts g.args then .refused else .run g.args g.json (.command (someWords ws))

/-- Global options: what was given after the action replaces what was given before (clap's `fill_in_global_values`). -/
def mergeArgs (a b : Args) : Args :=
  { logLevel := b.logLevel.or a.logLevel, name := b.name.or a.name, new := a.new || b.new, last := a.last || b.last, storageDir := b.storageDir.or a.storageDir, net := b.net.or a.net,
    bind := b.bind.or a.bind, mask := b.mask.or a.mask, noDefaultBinds := a.noDefaultBinds || b.noDefaultBinds, ignored := a.ignored || b.ignored, noConfig := a.noConfig || b.noConfig,
    config := b.config.or a.config }

/-- The end of the level after an action; `--all` conflicts with patterns (src/config/cli.rs:175), `sync` takes none (src/config/cli.rs:165). -/
def finishAction (top : Given) (a : Action) (g : Given) (ps : List Str) : Parsed :=
  if a = .sync ∧ ps ≠ [] then .refused
  else if (g.all && ps ≠ []) || conflicts g.args || conflicts top.args then .refused
  else .run (mergeArgs top.args g.args) (top.json || g.json) (.action a (someWords ps) g.all g.yes)

/-- The words after an action: clap's main loop; `ps`: the patterns so far. -/
def parseAction (top : Given) (a : Action) : Given → Option Opt → List Str → List Str → Parsed
  | g, pend, ps, [] => if pend.isSome then .refused else finishAction top a g ps
  | g, pend, ps, w :: ws =>
    if w = str "--" then (if pend.isSome then .refused else finishAction top a g (ps ++ ws))
    else match word (some a) pend g w with
      | .go g' p => parseAction top a g' p ps ws
      | .refused => .refused
      | .help => .help
      | .version => .version
      | .value => match pend with
        | some o => match setOpt o w g with
          | some g' => parseAction top a g' none ps ws
          | none => .refused
        | none => parseAction top a g none (ps ++ [w]) ws

/-- clap's main loop before an action.  The positional argument has `trailing_var_arg` (src/config/cli.rs:110): with the first value all words left belong to it.  (`help`: the rest is not looked at here.) -/
def parseTop : Given → Option Opt → List Str → Parsed
  | g, pend, [] => if pend.isSome then .refused else finishCommand g []
  | g, pend, w :: ws =>
    if pend = none ∧ w = str "help" then .help
    else match (if pend = none then actionOf w else none) with
      | some a => parseAction g a {} none [] ws
      | none =>
        if w = str "--" then (if pend.isSome then .refused else finishCommand g ws)
        else match word none pend g w with
          | .go g' p => parseTop g' p ws
          | .refused => .refused
          | .help => .help
          | .version => .version
          | .value => match pend with
            | some o => match setOpt o w g with
              | some g' => parseTop g' none ws
              | none => .refused
            | none => finishCommand g (w :: ws)

/-- src/main.rs:44 `Args::parse`: the words after the name of the program. -/
def parseArgs (ws : List Str) : Parsed := parseTop {} none ws

end SB.Cli
