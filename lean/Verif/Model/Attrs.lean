import Verif.Model.Accept

/-!
# Attributes beyond owner and mode: src/actions/accept.rs:118-511

A file can carry more than content, owner and mode: access control lists, file capabilities, `user.*` attributes, security labels.  Accept reads and writes none of them, so what becomes of them is
decided by the system calls it uses.  `X` is whatever a file can carry; the host's attributes are kept beside the tree.  Simplifications: what a new file inherits from its directory (default access control lists)
is the constant `bare`; that `chown` clears file capabilities is left out (accept changes the owner of directories, links and files it has just created only).
-/

namespace SB

/-- Host and storage, and the attributes of the host's files. -/
structure AttrState (X : Type) where
  st : State
  attr : Path → X

/-- The attributes after an operation that succeeded on the host `fs` (`exec` of Model/Accept, src/actions/accept.rs:403-511): `rename(2)` carries them along, new files have none, a file that is written keeps its own. -/
def attrAfter {X : Type} (bare : X) (fs : FS) (op : Op) (a : Path → X) : Path → X :=
  match op with
  | .mv p q =>
    match fs.canon p, fs.canon q with
    | .ok s, .ok d => fun x => if s = d then a x else if d.isPrefixOf x then a (s ++ x.drop d.length) else a x
    | _, _ => a
  | .cp _ t =>
    match fs.canon t with
    | .ok c => if (fs.get c).isSome then a else fun x => if x = c then bare else a x
    | .error _ => a
  | .ln _ p =>
    match fs.canon p with
    | .ok c => fun x => if x = c then bare else a x
    | .error _ => a
  | .mkdirIfNeeded p =>
    if fs.pisDir p then a
    else match fs.canon p with
      | .ok c => fun x => if x = c then bare else a x
      | .error _ => a
  | _ => a

/-- One operation. -/
def execAttrs {X : Type} (bare : X) (op : Op) (S : AttrState X) : AttrState X × Option AccErr :=
  match exec op S.st with
  | (st, none) => (⟨st, attrAfter bare S.st.lower op S.attr⟩, none)
  | (st, some e) => (⟨st, S.attr⟩, some e)

/-- Operations until the first error. -/
def runAttrs {X : Type} (bare : X) : List Op → AttrState X → AttrState X × Option AccErr
  | [], S => (S, none)
  | op :: ops, S =>
    match execAttrs bare op S with
    | (S', none) => runAttrs bare ops S'
    | (S', some e) => (S', some e)

/-- src/actions/accept.rs:118-438 `accept` -/
def acceptAttrs {X : Type} (bare : X) (env : Env) (S : AttrState X) : AttrState X × Option AccErr :=
  let sel := matching env.glob env.cwd env.patterns (changes env S.st)
  if sel = [] then (S, none)
  else match pretendCheck env S.st sel with
    | some e => (S, some e)
    | none => runAttrs bare (plan env sel) S

end SB
