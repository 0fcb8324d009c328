import Verif.Model.Ignore

/-!
# Change detection (src/sandbox/changes/changes.rs, file_details.rs)
-/

namespace SB

/-- src/sandbox/changes/file_details.rs:10-14 `FileDetails`: a path and the `lstat` taken of it. `source` details refer to host
paths, `staged` details to storage paths. The overlay attributes, which the code reads again from the path, are part of
the node (nothing changes between the two reads). -/
structure Details where
  path : Path
  node : Node
deriving DecidableEq, Repr

/-- src/sandbox/changes/change_entries.rs:14-18 -/
inductive SetType where | create | modify
deriving DecidableEq, Repr

/-- src/sandbox/changes/change_entries.rs:81-85 -/
inductive ChangeError where | unsupportedFileType | redirectPathNotFound
deriving DecidableEq, Repr

/-- src/sandbox/changes/change_entries.rs:20-26 `EntryOperation` -/
inductive EntryOp where
  | set (t : SetType)
  | remove
  | rename
  | error (e : ChangeError)
deriving DecidableEq, Repr

/-- src/sandbox/changes/change_entries.rs:29-47 `ChangeEntry` -/
structure Entry where
  dest : Path
  op : EntryOp
  source : Option Details
  staged : Option Details
  tmp : Option Path := none
deriving DecidableEq, Repr

/-- src/sandbox/changes/file_details.rs:75-96 `is_removed`: the device number is masked to 8 bits major and 8 bits minor. -/
def Node.isRemoved (n : Node) : Bool :=
  match n.kind with
  | .chr rdev => (rdev / 256) % 256 == 0 && rdev % 256 == 0
  | _ => n.whiteout

/-- Regular file, directory or symbolic link: src/sandbox/changes/changes.rs:168-172. -/
def Node.supported (n : Node) : Bool := n.isReg || n.isDir || n.isLnk

/-- src/sandbox/changes/file_details.rs:17-38 `FileDetails::from_path` on the host.  An `lstat` error other than "not found" is
returned as an error by the code; here it is `none`.  It cannot occur at the call sites, which take only paths that `exists` or `WalkDir`
found: see `details_of_pexists` in Verif/Lib/ChangesLemmas.lean. -/
def details (fs : FS) (p : Path) : Option Details :=
  match fs.lstat p with
  | .ok n => some ⟨p, n⟩
  | .error _ => none

/-! ### src/util/find_mount_point.rs:4-24 -/

/-- First loop: nearest ancestor-or-self that exists; the argument is the reversed path. -/
def nearestExisting (fs : FS) : List Name → Path
  | [] => []
  | x :: r => if fs.pexists (x :: r).reverse then (x :: r).reverse else nearestExisting fs r

/-- `st_dev` of `lstat` (errors become device 0, they cannot occur for ancestors of an existing path). -/
def lstatDev (fs : FS) (p : Path) : Nat := match fs.lstat p with | .ok n => n.dev | .error _ => 0

/-- Second loop: walk up while the parent is on the same device. -/
def mountUp (fs : FS) (dev : Nat) : List Name → Path
  | [] => []
  | x :: r => if lstatDev fs r.reverse ≠ dev then (x :: r).reverse else mountUp fs dev r

/-- src/util/find_mount_point.rs:4-24 for an absolute path (a relative one can panic, see C33). -/
def findMountPoint (fs : FS) (p : Path) : Path :=
  let q := nearestExisting fs p.reverse
  mountUp fs (lstatDev fs q) q.reverse

/-! ### src/sandbox/changes/changes.rs:572-653 -/

/-- `if components.exists() { Some } else { None }` -/
def ifExists (fs : FS) (p : Path) : Option Path := if fs.pexists p then some p else none

/-- The `while` loop of `get_source_lower_path_for_upper_path`: `rsub` is the reversed remaining path inside the mount,
`comps` the components popped so far. -/
def sourceLoop (st : State) (m : Name) (mp : Path) : List Name → Path → Option Path
  | [], comps => ifExists st.lower (mp ++ comps)
  | x :: r, comps =>
    match st.upper.get (m :: (x :: r).reverse) with
    | none => ifExists st.lower (mp ++ comps)
    | some n =>
      match n.redirect with
      | some rd =>
        if rd.head? = some '/' then
          ifExists st.lower (findMountPoint st.lower (mp ++ (x :: r).reverse) ++ (components rd ++ comps))
        else
          ifExists st.lower ((mp ++ (x :: r).reverse).dropLast ++ (components rd ++ comps))
      | none => sourceLoop st m mp r (x :: comps)

/-- src/sandbox/changes/changes.rs:572-653 `get_source_lower_path_for_upper_path` -/
def sourcePath (st : State) (m : Name) (mp sub : Path) : Option Path := sourceLoop st m mp sub.reverse []

/-- src/sandbox/changes/changes.rs:655-669 `has_opaque_ancestor`.  Simplification: only directories inside the sandbox's storage are
examined (the code continues above the storage directory, where the attribute is not expected). -/
def hasOpaqueAncestor (st : State) (up : Path) : Bool :=
  (up.inits.dropLast).any (fun q => match st.upper.get q with | some n => n.opq | none => false)

/-- src/sandbox/changes/changes.rs:19-25 `UpperEntry` -/
structure UpperEntry where
  lowerPath : Path
  upperPath : Path
  node : Node
  sourcePath : Option Path
  sourceDetails : Option Details
deriving DecidableEq, Repr

/-- What the environment supplies: the decoder of mount directory names (`BASE32_NOPAD_NOCASE` + UTF-8, see
`Verif/Model/Base32.lean`), the glob matcher, the current directory, the command line patterns, `--ignored`, and fresh
UUIDs for renames and copies. -/
structure Env where
  decode : Name → Option Path
  glob : Str → Str → Bool
  cwd : Path
  patterns : List Str
  includeIgnored : Bool
  uuidR : Nat → Str
  uuidC : Nat → Str

/-- The storage paths kept by the loop of src/sandbox/changes/changes.rs:285-344 (undecodable mount names, the storage root, mount
roots and ignored paths are skipped), threading the rule cache. -/
def keepLoop (env : Env) (st : State) : List Path → IgnoreCache → List (Name × Path × Path)
  | [], _ => []
  | [] :: ks, cache => keepLoop env st ks cache
  | (m :: sub) :: ks, cache =>
    match env.decode m with
    | none => keepLoop env st ks cache
    | some mp =>
      if sub = [] then keepLoop env st ks cache
      else if env.includeIgnored then (m, mp, sub) :: keepLoop env st ks cache
      else
        let (ig, cache') := isIgnored env.glob st m mp sub cache
        if ig then keepLoop env st ks cache' else (m, mp, sub) :: keepLoop env st ks cache'

/-- Kept storage paths as (mount directory name, mount point, path inside the mount). `WalkDir` enumerates the storage. -/
def kept (env : Env) (st : State) : List (Name × Path × Path) := keepLoop env st st.upper.keys []

/-- src/sandbox/changes/changes.rs:346-372: details of one kept storage path. -/
def mkUpperEntry (st : State) (k : Name × Path × Path) : Option UpperEntry :=
  let (m, mp, sub) := k
  match st.upper.get (m :: sub) with
  | none => none
  | some n =>
    let sp := sourcePath st m mp sub
    some { lowerPath := mp ++ sub, upperPath := m :: sub, node := n, sourcePath := sp,
           sourceDetails := sp.bind (details st.lower) }

/-- src/sandbox/changes/changes.rs:280-375 `upper_entries` -/
def upperEntries (env : Env) (st : State) : List UpperEntry := (kept env st).filterMap (mkUpperEntry st)

/-- src/sandbox/changes/changes.rs:69-75: sources of renames. -/
def renamedPaths (ues : List UpperEntry) : List Path :=
  ues.filterMap (fun e => if e.node.redirect.isSome then e.sourcePath else none)

/-- src/sandbox/changes/changes.rs:88-132: the removals one storage path stands for. -/
def removesOf (st : State) (renamed : List Path) (e : UpperEntry) : List Entry :=
  match e.sourcePath with
  | none => []
  | some sp =>
    if e.node.opq || e.node.isRemoved || (!e.node.isDir && st.lower.pisDir sp) then
      if sp ∈ renamed then []
      else if st.lower.pisDir sp then
        (st.lower.walkDir sp).map (fun q =>
          { dest := q, op := .remove, source := details st.lower q,
            staged := if q = sp then some ⟨e.upperPath, e.node⟩ else none })
      else
        [{ dest := sp, op := .remove, source := e.sourceDetails, staged := some ⟨e.upperPath, e.node⟩ }]
    else []

/-- src/sandbox/changes/changes.rs:134-204: the rename, creation, modification or error one storage path stands for. -/
def setsOf (st : State) (e : UpperEntry) : List Entry :=
  if e.node.isRemoved then []
  else
    let staged := some (⟨e.upperPath, e.node⟩ : Details)
    if e.node.redirect.isSome then
      if e.sourceDetails.isNone then
        [{ dest := e.lowerPath, op := .error .redirectPathNotFound, source := e.sourceDetails, staged := staged }]
      else [{ dest := e.lowerPath, op := .rename, source := e.sourceDetails, staged := staged }]
    else if !e.node.supported then
      [{ dest := e.lowerPath, op := .error .unsupportedFileType, source := e.sourceDetails, staged := staged }]
    else
      [{ dest := e.lowerPath,
         op := .set (if e.sourceDetails.isSome && !hasOpaqueAncestor st e.upperPath then .modify else .create),
         source := e.sourceDetails, staged := staged }]

/-- src/sandbox/changes/changes.rs:54-208 `changes` -/
def changes (env : Env) (st : State) : List Entry :=
  let ues := upperEntries env st
  let renamed := renamedPaths ues
  ues.flatMap (fun e => removesOf st renamed e ++ setsOf st e)

/-! ### orders: src/sandbox/changes/changes.rs:549-571 (`a ≤ b` iff the comparison is not `Greater`) -/

/-- `by_reverse_source` -/
def byReverseSource (a b : Entry) : Bool :=
  match a.source, b.source with
  | some x, some y => decide (y.path ≤ x.path)
  | some _, none => true
  | none, some _ => false
  | none, none => true

/-- `by_destination` -/
def byDestination (a b : Entry) : Bool := decide (a.dest ≤ b.dest)

/-- `by_staged_descending` -/
def byStagedDescending (a b : Entry) : Bool :=
  match a.staged, b.staged with
  | some x, some y => decide (y.path ≤ x.path)
  | some _, none => false
  | none, some _ => true
  | none, none => decide (b.dest ≤ a.dest)

end SB
