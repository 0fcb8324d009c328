import Verif.Model.Prepare

/-!
# Mounts listed in a file: src/sandbox/mount_overlays.rs:27-139 with the `settings.json` of the storage directory

If the storage directory has a file `settings.json`, the program takes itself to be in a nested sandbox and reads the mounts from that file instead of the mount table (lines 121-136).  Unlike `MountHash` of
Verif/Model/Mounts.lean, whose names the program has made itself, the entries of the file are any texts.
-/

namespace SB

/-- src/sandbox/mount_overlays.rs:19-23 as it is in a file: any two texts. -/
structure RawMount where
  hash : Str
  dir : Str
deriving DecidableEq, Repr

/-- `settings.json` of the storage directory. -/
inductive ParentFile where
  | absent
  | bad
  | lists (l : List RawMount)
deriving DecidableEq, Repr

/-- `Path::join` (std): an absolute text replaces the path. -/
def joinText (p : Path) (s : Str) : Path := if s.head? = some '/' then components s else p ++ components s

/-- src/sandbox/mount_overlays.rs:121-139 `determine_mounts` -/
def determineRaw (base : Path) (parent : ParentFile) (table : Option (List MountEntry)) : Option (List RawMount) :=
  match parent with
  | .lists l => some l
  | .bad => none
  | .absent => (scanSystemMounts base table).map (·.map (fun m => ⟨m.hash, display m.dir⟩))

/-- src/sandbox/mount_overlays.rs:39-50: the three directories of a mount, with the owner of the mount's directory. -/
def prepareRawMount (cwd base : Path) (m : RawMount) (fs : FS) : Passed :=
  match fs.lstat (joinText cwd m.dir) with
  | .error e => ⟨[], fs, some (.sys e)⟩
  | .ok n =>
    (mkdirOwned fs (joinText (base ++ [str "work"]) m.hash) n.uid n.gid).andThen fun fs =>
    (mkdirOwned fs (joinText (base ++ [str "upper"]) m.hash) n.uid n.gid).andThen fun fs =>
    mkdirOwned fs (joinText (base ++ [str "overlay"]) m.hash) n.uid n.gid

/-- The loop of lines 36-103.  Simplification: that later directories may be made in overlays mounted before. -/
def prepareRawMounts (cwd base : Path) : List RawMount → FS → Passed
  | [], fs => ⟨[], fs, none⟩
  | m :: ms, fs => (prepareRawMount cwd base m fs).andThen (prepareRawMounts cwd base ms)

/-- `prepareStart` (Verif/Model/Prepare.lean) with mounts that are any texts. -/
def prepareRaw (cwd : Path) (fs : FS) (s : StartFiles) (ms : List RawMount) : Passed :=
  let base := sandboxDir s.storage s.name
  (mkdirOwned fs s.storage s.uid s.gid).andThen fun fs =>
  (prepareLock s.storage s.name fs).andThen fun fs =>
  (mkdirOwned fs base s.uid s.gid).andThen fun fs =>
  (mkdirOwned fs (base ++ [str "data"]) s.uid s.gid).andThen fun fs =>
  (prepareRawMounts cwd base ms fs).andThen fun fs =>
  (writeThrough fs 40 (base ++ [str "data", str "settings.json"]) s.text).andThen fun fs =>
  writeThrough fs 40 (pidFile s.storage s.name) (toString s.pid).toList

/-- src/sandbox/mount_overlays.rs:92-101: where on the host the overlay is mounted (`mount(2)` follows links). -/
def overlayAt (fs : FS) (base : Path) (m : RawMount) : Except Errno Path := fs.realpath (joinText (base ++ [str "overlay"]) m.hash)

/-- Lines 84-89: the options of that overlay (`Path::display` of the joined paths; `pre` is the text of the sandbox's directory). -/
def rawOptions (pre : Str) (m : RawMount) : Str :=
  let at' := fun kind => if m.hash.head? = some '/' then m.hash else pre ++ '/' :: kind ++ '/' :: m.hash
  overlayOptions m.dir (at' (str "upper")) (at' (str "work"))

end SB
