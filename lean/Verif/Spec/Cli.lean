import Verif.Model.Cli

/-!
# Specification of the command line, as the help text and the README describe it

Only the names of the options and of the actions, and the reading of single values (`parseLevel`, `splitComma`), are shared with the model.
-/

namespace SB.Spec
open SB.Cli

/-- One option as the user means it: a switch, or an option with its value. -/
inductive Item where
  | flag (f : Flag)
  | value (o : Opt) (v : Str)
deriving DecidableEq

/-- The switches, as written after `--`. -/
def flagName : Flag → Str
  | .new => str "new" | .last => str "last" | .noDefaultBinds => str "no-default-binds" | .json => str "json" | .noConfig => str "no-config" | .ignored => str "ignored"
  | .all => str "all" | .yes => str "yes"

/-- The options with a value, as written after `--`. -/
def optName : Opt → Str
  | .logLevel => str "log-level" | .name => str "name" | .storageDir => str "storage-dir" | .net => str "net" | .bind => str "bind" | .mask => str "mask" | .config => str "config"

/-- The actions. -/
def actionName : Action → Str
  | .config => str "config" | .list => str "list" | .status => str "status" | .diff => str "diff" | .accept => str "accept" | .reject => str "reject" | .sync => str "sync"
  | .stop => str "stop" | .delete => str "delete"

/-- `--all` belongs to `stop`, `--yes` to `delete`; all other switches can stand anywhere. -/
def Allowed : Option Action → Flag → Prop
  | pl, .all => pl = some .stop
  | pl, .yes => pl = some .delete
  | _, _ => True

/-- The value of these options must follow an equals sign. -/
def NeedsEquals : Opt → Prop
  | .logLevel => True
  | .net => True
  | _ => False

/-- A word that begins with a dash and is not just a dash. -/
def Dashed (w : Str) : Prop := w.head? = some '-' ∧ w ≠ str "-"

/-- A word that is an option of the program (before an action): `--`, `--name`, `--name=…` for a known name, `-v`, `-h`, `-V` and combinations. -/
def KnownOption (w : Str) : Prop :=
  w = str "--" ∨
  (∃ n, ((∃ f, Allowed none f ∧ n = flagName f) ∨ (∃ o, n = optName o) ∨ n = str "help" ∨ n = str "version") ∧ (w = str "--" ++ n ∨ ∃ v, w = str "--" ++ n ++ str "=" ++ v)) ∨
  (∃ t, t ≠ [] ∧ w = str "-" ++ t ∧ ∀ c ∈ t, c ∈ ['v', 'h', 'V'])

/-- A word that can be the value of the option before it. -/
def CanBeValue : Option Action → Str → Prop
  | none, w => ¬ KnownOption w
  | some _, w => ¬ Dashed w

/-- The letters after a single dash (after an action): `v`, or `y` for `delete`; the last can be `v=LEVEL`. -/
inductive Letters (a : Action) : List Item → Str → Prop where
  | nil : Letters a [] []
  | v {items t} : t.head? ≠ some '=' → Letters a items t → Letters a (.value .logLevel (str "trace") :: items) ('v' :: t)
  | y {items t} : a = .delete → Letters a items t → Letters a (.flag .yes :: items) ('y' :: t)
  | level (l : Str) : Letters a [.value .logLevel l] ('v' :: '=' :: l)

/-- The spellings of options: before an action (or without one), or after one. -/
inductive Spells : Option Action → List Item → List Str → Prop where
  | flag {pl} (f : Flag) : Allowed pl f → Spells pl [.flag f] [str "--" ++ flagName f]
  | equals {pl} (o : Opt) (v : Str) : Spells pl [.value o v] [str "--" ++ optName o ++ str "=" ++ v]
  | next {pl} (o : Opt) (v : Str) : ¬ NeedsEquals o → CanBeValue pl v → Spells pl [.value o v] [str "--" ++ optName o, v]
  | net {pl} : Spells pl [.value .net (str "host")] [str "--net"]
  | level {pl} : Spells pl [.value .logLevel (str "trace")] [str "--log-level"]
  | verbose : Spells none [.value .logLevel (str "trace")] [str "-v"]
  | letters {a items t} : t ≠ [] → Letters a items t → Spells (some a) items [str "-" ++ t]

/-- A sequence of options before an action or a command. -/
inductive Options : List Item → List Str → Prop where
  | nil : Options [] []
  | more {i1 i2 w1 w2} : Spells none i1 w1 → Options i2 w2 → Options (i1 ++ i2) (w1 ++ w2)

/-- What follows an action: options and patterns, in any order; after `--` there are only patterns. -/
inductive Mixed (a : Action) : List Item → List Str → List Str → Prop where
  | nil : Mixed a [] [] []
  | option {i1 i2 w1 w2 ps} : Spells (some a) i1 w1 → Mixed a i2 ps w2 → Mixed a (i1 ++ i2) ps (w1 ++ w2)
  | pattern {i ps w} (p : Str) : ¬ Dashed p → Mixed a i ps w → Mixed a i (p :: ps) (p :: w)
  | rest (ps : List Str) : Mixed a [] ps (str "--" :: ps)

/-- What an item is about. -/
inductive Key where
  | flag (f : Flag)
  | opt (o : Opt)
deriving DecidableEq

def Item.about : Item → Key
  | .flag f => .flag f
  | .value o _ => .opt o

/-- These may be given several times. -/
def Repeated : Key → Prop
  | .opt .bind => True
  | .opt .mask => True
  | .opt .config => True
  | _ => False

/-- Every value is one the option knows, and nothing is given twice but `--bind`, `--mask` and `--config`. -/
structure Sensible (items : List Item) : Prop where
  level : ∀ v, .value .logLevel v ∈ items → (parseLevel v).isSome
  net : ∀ v, .value .net v ∈ items → v = str "none" ∨ v = str "host"
  once : ∀ k, ¬ Repeated k → (items.map Item.about).count k ≤ 1

/-- No two of `--name`, `--new`, `--last`, and not both `--config` and `--no-config`. -/
structure NoConflict (items : List Item) : Prop where
  nameNew : ¬ (.opt .name ∈ items.map Item.about ∧ .flag .new ∈ items.map Item.about)
  nameLast : ¬ (.opt .name ∈ items.map Item.about ∧ .flag .last ∈ items.map Item.about)
  newLast : ¬ (.flag .new ∈ items.map Item.about ∧ .flag .last ∈ items.map Item.about)
  config : ¬ (.opt .config ∈ items.map Item.about ∧ .flag .noConfig ∈ items.map Item.about)

def pieceOf (o : Opt) : Item → List Str
  | .value o' v => if o' = o then splitComma v else []
  | .flag _ => []

/-- The pieces of the values of a repeated option, in the order given; nothing if it is not given. -/
def pieces (o : Opt) (items : List Item) : Option (List Str) :=
  if .opt o ∈ items.map Item.about then some (items.flatMap (pieceOf o)) else none

/-- The settings are exactly the options given. -/
structure Means (items : List Item) (a : Args) (json : Bool) : Prop where
  logLevel : ∀ l, a.logLevel = some l ↔ ∃ v, .value .logLevel v ∈ items ∧ parseLevel v = some l
  name : ∀ v, a.name = some v ↔ .value .name v ∈ items
  storageDir : ∀ v, a.storageDir = some v ↔ .value .storageDir v ∈ items
  net : ∀ n, a.net = some n ↔ ∃ v, .value .net v ∈ items ∧ (v = str "none" ∧ n = .none ∨ v = str "host" ∧ n = .host)
  bind : a.bind = pieces .bind items
  mask : a.mask = pieces .mask items
  config : a.config = pieces .config items
  new : a.new = true ↔ .flag .new ∈ items
  last : a.last = true ↔ .flag .last ∈ items
  noDefaultBinds : a.noDefaultBinds = true ↔ .flag .noDefaultBinds ∈ items
  noConfig : a.noConfig = true ↔ .flag .noConfig ∈ items
  ignored : a.ignored = true ↔ .flag .ignored ∈ items
  json : json = true ↔ .flag .json ∈ items

/-- The words after the options, if a command begins there. -/
def BeginsCommand (w : Str) : Prop := w.head? ≠ some '-' ∧ w ≠ str "help" ∧ ∀ a, w ≠ actionName a

end SB.Spec
