import Verif.Model.Changes
import Verif.Spec.Core

/-!
# What a process in the sandbox sees: overlayfs lookup

Written from the kernel documentation (Documentation/filesystems/overlayfs.rst) and `ovl_lookup` in fs/overlayfs/namei.c, for one upper and one lower layer; independent
of the program.  The lower layer of the mount kept in storage directory `m` is the host file system at mount point `mp`, its upper layer is the storage below `m`.
The host is one tree here.  In truth a lower layer is a single file system, without what is mounted inside it; Verif/Props/Layers.lean (C97) has the host as a table of file systems and shows that
this makes no difference at paths on overlaid file systems, and what happens elsewhere.
Not modelled: whiteouts and overlay attributes in the lower layer (the host), metacopy files, hard links.
-/

namespace SB.Spec

/-- An overlay whiteout: character device 0:0, or the whiteout attribute. -/
def isWhiteout (n : Node) : Bool := n.kind == .chr 0 || n.whiteout

/-- What overlayfs has found for a name: the node in the upper layer, if there is one, and the path in the lower layer (a host path), if there is one; for a directory that
is in both, the two are merged. -/
structure Found where
  upper : Option Node
  lower : Option Path
deriving DecidableEq

/-- A host path, if something is there. -/
def present (host : FS) (p : Path) : Option Path := if (host.get p).isSome then some p else none

/-- A host path, if it is a directory. -/
def presentDir (host : FS) (p : Path) : Option Path :=
  match host.get p with
  | some n => if ftype n.kind = .directory then some p else none
  | none => none

/-- Where the lower layer is searched for name `x` of a directory whose lower part is `parent`, given the redirect attribute of the upper directory found under that name
(none = no redirect): the redirect replaces the name; an absolute one starts at the root of the lower layer. -/
def lowerName (mp : Path) (parent : Option Path) (x : Name) : Option Str → Option Path
  | none => parent.map (· ++ [x])
  | some rd => if rd.head? = some '/' then some (mp ++ components rd) else parent.map (· ++ components rd)

/-- Lookup of a path given in reverse (last name first). -/
def lookupRev (st : State) (m : Name) (mp : Path) : List Name → Option Found
  | [] => some ⟨st.upper.get [m], some mp⟩
  | x :: r =>
    match lookupRev st m mp r with
    | none => none
    | some d =>
      let up := if (d.upper.any (fun n => ftype n.kind = .directory)) then st.upper.get (m :: (x :: r).reverse) else none
      match up with
      | some n =>
        if isWhiteout n then none                                             -- deleted
        else if ftype n.kind ≠ .directory then some ⟨some n, none⟩             -- a file hides the lower layer
        else if n.opq then some ⟨some n, none⟩                                 -- opaque: nothing is merged
        else some ⟨some n, (lowerName mp d.lower x n.redirect).bind (presentDir st.lower)⟩
      | none =>
        match (lowerName mp d.lower x none).bind (present st.lower) with
        | some l => some ⟨none, some l⟩
        | none => none

/-- Lookup of path `sub` in the mount stored in `m` with mount point `mp`. -/
def lookup (st : State) (m : Name) (mp sub : Path) : Option Found := lookupRev st m mp sub.reverse

/-- The node a process in the sandbox sees at `mp/sub`: the upper one, else the host's. -/
def view (st : State) (m : Name) (mp sub : Path) : Option Node :=
  (lookup st m mp sub).bind (fun f => match f.upper with
    | some n => some n
    | none => f.lower.bind st.lower.get)

/-- The host path that a stored path stands for: where overlayfs looks in the lower layer for it (to merge, hide or delete it), if something is there. -/
def origin (st : State) (m : Name) (mp : Path) (sub : Path) : Option Path :=
  match sub.reverse with
  | [] => some mp
  | x :: r =>
    match lookupRev st m mp r with
    | none => none
    | some d => (lowerName mp d.lower x ((st.upper.get (m :: sub)).bind (·.redirect))).bind (present st.lower)

/-- The host path a stored path (given in reverse) is named after, whether or not anything is there: the own name below the parent's, replaced by a redirect. -/
def namedRev (st : State) (m : Name) (mp : Path) : List Name → Path
  | [] => mp
  | x :: r =>
    match (st.upper.get (m :: (x :: r).reverse)).bind (·.redirect) with
    | none => namedRev st m mp r ++ [x]
    | some rd => if rd.head? = some '/' then mp ++ components rd else namedRev st m mp r ++ components rd

/-- The host path that stored path `sub` of the mount stored in `m` is named after. -/
def named (st : State) (m : Name) (mp sub : Path) : Path := namedRev st m mp sub.reverse

/-! The rules on small examples. -/

section
private def host : FS :=
  [ ([], { kind := .dir }), ([str "a"], { kind := .dir, uid := 1 }), ([str "a", str "x"], { kind := .reg (str "1") }), ([str "a", str "y"], { kind := .reg (str "2") }),
    ([str "f"], { kind := .reg (str "f") }) ]
private def F : Name := str "F4"
private def stor (l : FS) : State := ⟨host, [ ([], { kind := .dir }), ([F], { kind := .dir }) ] ++ l⟩
-- nothing stored: the host
example : view (stor []) F [] [str "a", str "x"] = some { kind := .reg (str "1") } := by decide
-- whiteout
example : view (stor [([F, str "a"], { kind := .chr 0 })]) F [] [str "a"] = none ∧ view (stor [([F, str "a"], { kind := .chr 0 })]) F [] [str "a", str "x"] = none := by decide
-- merged directory: attributes from the storage, files from both
example : view (stor [([F, str "a"], { kind := .dir, uid := 9 }), ([F, str "a", str "x"], { kind := .reg (str "new") })]) F [] [str "a"] = some { kind := .dir, uid := 9 } ∧
    view (stor [([F, str "a"], { kind := .dir, uid := 9 }), ([F, str "a", str "x"], { kind := .reg (str "new") })]) F [] [str "a", str "x"] = some { kind := .reg (str "new") } ∧
    view (stor [([F, str "a"], { kind := .dir, uid := 9 }), ([F, str "a", str "x"], { kind := .reg (str "new") })]) F [] [str "a", str "y"] = some { kind := .reg (str "2") } := by decide
-- opaque directory hides the host's
example : view (stor [([F, str "a"], { kind := .dir, opq := true })]) F [] [str "a", str "x"] = none := by decide
-- redirect: `a` renamed to `b`
example : view (stor [([F, str "b"], { kind := .dir, redirect := some (str "a") }), ([F, str "a"], { kind := .chr 0 })]) F [] [str "b", str "x"] = some { kind := .reg (str "1") } := by
  decide
end

end SB.Spec
