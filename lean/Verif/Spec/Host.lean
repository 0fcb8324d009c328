import Verif.Model.Accept
import Verif.Spec.Core

/-!
# Specification vocabulary for the effect of accept on the host
-/

namespace SB.Spec

/-- Same type, content (or link target), owner and group, and same permission bits (links have none of their own). -/
def SameNode (a b : Node) : Prop :=
  a.kind = b.kind ∧ a.uid = b.uid ∧ a.gid = b.gid ∧ (ftype a.kind = .symlink ∨ a.perm = b.perm)

/-- The change creates or modifies a file, directory or link. -/
def IsSet (e : Entry) : Prop := ∃ t, e.op = .set t

/-- A UUID as text: not empty, no slash. -/
def UuidText (u : Str) : Prop := u ≠ [] ∧ '/' ∉ u

/-- File name of the temporary used for copying to `dest`: the extension replaced by (or extended with) a UUID. -/
def copyName (dest : Path) (u : Str) : Name := withExtension (fileName dest) u

/-- File name of the temporary used for renaming. -/
def renName (src dst : Path) (u : Str) : Name := str ".rename-" ++ fileName src ++ str "-to-" ++ fileName dst ++ str "-" ++ u

/-- The name occurs nowhere: not on the host, not in a selected change, not in the current directory. -/
structure NewName (env : Env) (host : FS) (sel : List Entry) (x : Name) : Prop where
  host : ∀ q ∈ host.keys, x ∉ q
  dest : ∀ e ∈ sel, x ∉ e.dest
  source : ∀ e ∈ sel, ∀ s, e.source = some s → x ∉ s.path
  cwd : x ∉ env.cwd

/-- Temporary names built from fresh UUIDs are new and pairwise different. -/
structure FreshTemps (env : Env) (host : FS) (sel : List Entry) : Prop where
  textR : ∀ i, UuidText (env.uuidR i)
  textC : ∀ i, UuidText (env.uuidC i)
  copy : ∀ i, ∀ e ∈ sel, NewName env host sel (copyName e.dest (env.uuidC i))
  ren : ∀ i, ∀ e ∈ sel, ∀ s, e.source = some s → NewName env host sel (renName s.path e.dest (env.uuidR i))
  renInj : ∀ i j, i ≠ j → ∀ e ∈ sel, ∀ e' ∈ sel, ∀ s s', e.source = some s → e'.source = some s' →
    renName s.path e.dest (env.uuidR i) ≠ renName s'.path e'.dest (env.uuidR j)
  renCopy : ∀ i j, ∀ e ∈ sel, ∀ e' ∈ sel, ∀ s, e.source = some s →
    renName s.path e.dest (env.uuidR i) ≠ copyName e'.dest (env.uuidC j)

/-- No symbolic link is in the way: the paths of the selected changes and the current directory are plain names with no symbolic link
strictly above them on the host; and no selected change (nor the current directory) ends up below a selected new link or below a link
inside a renamed directory, at its new place. -/
structure PlainHost (env : Env) (host : FS) (sel : List Entry) : Prop where
  dest : ∀ e ∈ sel, NormalPath e.dest ∧ e.dest ≠ [] ∧ ∀ y, Below y e.dest → ∀ n, host.get y = some n → ftype n.kind ≠ .symlink
  source : ∀ e ∈ sel, ∀ s, e.source = some s → NormalPath s.path ∧ ∀ y, Below y s.path → ∀ n, host.get y = some n → ftype n.kind ≠ .symlink
  cwd : NormalPath env.cwd ∧ ∀ y, y <+: env.cwd → ∀ n, host.get y = some n → ftype n.kind ≠ .symlink
  renamed : ∀ e ∈ sel, e.op = .rename → ∀ s, e.source = some s → ∀ r n, host.get (s.path ++ r) = some n → ftype n.kind = .symlink →
    (∀ e' ∈ sel, IsSet e' ∨ e'.op = .rename → ¬ Below (e.dest ++ r) e'.dest) ∧ ¬ e.dest ++ r <+: env.cwd
  links : ∀ e ∈ sel, IsSet e → ∀ s, e.staged = some s → ftype s.node.kind = .symlink →
    (∀ e' ∈ sel, IsSet e' ∨ e'.op = .rename → ¬ Below e.dest e'.dest) ∧ (∀ e' ∈ sel, e'.op = .rename → ¬ e.dest <+: env.cwd)

/-- Host paths that accepting `sel` may touch: removed paths, destinations, everything at or below a rename's source or destination, and
the temporaries. -/
inductive Touched (env : Env) (sel : List Entry) (q : Path) : Prop where
  | removed (e : Entry) (s : Details) : e ∈ sel → e.op = .remove → e.source = some s → s.path = q → Touched env sel q
  | dest (e : Entry) : e ∈ sel → IsSet e → e.dest = q → Touched env sel q
  | copyTemp (e : Entry) (i : Nat) : e ∈ sel → IsSet e → e.dest.dropLast ++ [copyName e.dest (env.uuidC i)] = q → Touched env sel q
  | renSource (e : Entry) (s : Details) : e ∈ sel → e.op = .rename → e.source = some s → s.path <+: q → Touched env sel q
  | renDest (e : Entry) : e ∈ sel → e.op = .rename → e.dest <+: q → Touched env sel q
  | renTemp (e : Entry) (s : Details) (i : Nat) : e ∈ sel → e.op = .rename → e.source = some s →
      env.cwd ++ [renName s.path e.dest (env.uuidR i)] <+: q → Touched env sel q

/-- Some selected change removes the host path. -/
def Removes (sel : List Entry) (q : Path) : Prop := ∃ e ∈ sel, e.op = .remove ∧ ∃ s, e.source = some s ∧ s.path = q

/-- Some selected change moves host path `s` to `d`. -/
def Renames (sel : List Entry) (s d : Path) : Prop := ∃ e ∈ sel, e.op = .rename ∧ e.dest = d ∧ ∃ x, e.source = some x ∧ x.path = s

/-- The host after all selected changes have been applied at once: created and modified paths are as staged; what was below a renamed path
is below its new name (except what was removed or renamed from there, and what a deeper change put there); nothing else has changed. -/
structure Applied (sel : List Entry) (before after : FS) : Prop where
  set : ∀ e ∈ sel, IsSet e → ∀ s, e.staged = some s → ∃ n, after.get e.dest = some n ∧ SameNode n s.node
  renamed : ∀ s d r, Renames sel s d → (∀ e ∈ sel, IsSet e → e.dest ≠ d ++ r) → (∀ s' d', Renames sel s' d' → Below d d' → ¬ d' <+: d ++ r) →
    ¬ Removes sel (s ++ r) → (∀ s' d', Renames sel s' d' → Below s s' → ¬ s' <+: s ++ r) → after.get (d ++ r) = before.get (s ++ r)
  taken : ∀ s d r, Renames sel s d → (∀ e ∈ sel, IsSet e → e.dest ≠ d ++ r) → (∀ s' d', Renames sel s' d' → Below d d' → ¬ d' <+: d ++ r) →
    (Removes sel (s ++ r) ∨ ∃ s' d', Renames sel s' d' ∧ Below s s' ∧ s' <+: s ++ r) → after.get (d ++ r) = none
  kept : ∀ q, (∀ e ∈ sel, IsSet e → e.dest ≠ q) → (∀ s d, Renames sel s d → ¬ d <+: q ∧ ¬ s <+: q) → ¬ Removes sel q →
    after.get q = before.get q
  gone : ∀ q, (∀ e ∈ sel, IsSet e → e.dest ≠ q) → (∀ s d, Renames sel s d → ¬ d <+: q) →
    (Removes sel q ∨ ∃ s d, Renames sel s d ∧ s <+: q) → after.get q = none

/-- A temporary file of accept: a copy beside its destination, or anything at or below the temporary of a rename. -/
inductive Temp (env : Env) (sel : List Entry) (q : Path) : Prop where
  | copy (e : Entry) (i : Nat) : e ∈ sel → IsSet e → e.dest.dropLast ++ [copyName e.dest (env.uuidC i)] = q → Temp env sel q
  | rename (e : Entry) (s : Details) (i : Nat) : e ∈ sel → e.op = .rename → e.source = some s →
      env.cwd ++ [renName s.path e.dest (env.uuidR i)] <+: q → Temp env sel q

/-- Type and content `k` (none = no file) at path `q` is complete: as it was there before, or as staged for it, or as it was before at the
place it is being renamed from; or there is nothing, but only if the path is being removed, renamed or replaced by a link. -/
def Complete (sel : List Entry) (before : FS) (q : Path) (k : Option Kind) : Prop :=
  k = (before.get q).map (·.kind) ∨
  (∃ e ∈ sel, IsSet e ∧ e.dest = q ∧ ∃ s, e.staged = some s ∧ k = some s.node.kind) ∨
  (∃ s d r, Renames sel s d ∧ q = d ++ r ∧ k = (before.get (s ++ r)).map (·.kind)) ∨
  (k = none ∧ (Removes sel q ∨ (∃ s d, Renames sel s d ∧ (s <+: q ∨ d <+: q)) ∨
    ∃ e ∈ sel, IsSet e ∧ e.dest = q ∧ ∃ s, e.staged = some s ∧ ftype s.node.kind = .symlink))

/-- No two selected changes create, modify or rename to the same path. -/
def DistinctDests (sel : List Entry) : Prop :=
  sel.Pairwise (fun e e' => (IsSet e ∨ e.op = .rename) → (IsSet e' ∨ e'.op = .rename) → e.dest ≠ e'.dest)

/-- Storage of different mounts never describes the same host path (overlayfs gives every mount its own upper directory, and what a nested
mount point covers cannot be changed through the outer mount). -/
def SeparateMounts (env : Env) (upper : FS) : Prop :=
  ∀ m m' sub sub' mp mp', m :: sub ∈ upper.keys → m' :: sub' ∈ upper.keys → env.decode m = some mp → env.decode m' = some mp' →
    sub ≠ [] → sub' ≠ [] → mp ++ sub = mp' ++ sub' → m = m'

/-- Ordinary circumstances for an accept: the host is a tree, temporary names are fresh, no symbolic link is in the way of the selected changes, and
no two stored paths describe the same host path. -/
structure Ordinary (env : Env) (st : State) : Prop where
  wf : st.lower.WF
  plain : PlainHost env st.lower (selected env st)
  fresh : FreshTemps env st.lower (selected env st)
  nodup : st.upper.keys.Nodup
  mounts : SeparateMounts env st.upper

end SB.Spec
