import Verif.Model.Accept
import Verif.Model.Base32
import Verif.Lib.Region

/-!
# Accept on a file system that bounds the length of names (src/actions/accept.rs)

The file systems of Linux accept names of at most 255 bytes (`NAME_MAX`); a call with a longer name fails with `ENAMETOOLONG`.  `Verif/Model/Accept.lean` leaves this limit out; here
every call of the real pass is subject to it.  Not modelled: `PATH_MAX`, the limit of 4096 bytes on a whole path.
-/

namespace SB

/-- The length of a name in bytes (kernel: `NAME_MAX` counts bytes). -/
def byteLen (n : Str) : Nat := (utf8 n).length

/-- No name on the path has more than 255 bytes. -/
def shortPath (p : Path) : Bool := p.all (fun n => decide (byteLen n ≤ 255))

/-- One operation of the real pass (src/actions/accept.rs:150-410) with the limit.  Simplification: the call fails as soon as one of its host paths has a name that is too long, even if an
ancestor of that name does not exist (which would be `ENOENT`, and which src/actions/accept.rs:321-328 takes as success; there the path is the place of a staged file, whose names are
short enough). -/
def execN (op : Op) (st : State) : State × Option AccErr :=
  if op.paths.all shortPath then exec op st else (st, some (.os .ENAMETOOLONG))

/-- Run operations until the first error: src/actions/accept.rs:135-411. -/
def runN : List Op → State → State × Option AccErr
  | [], st => (st, none)
  | op :: ops, st =>
    match execN op st with
    | (st', none) => runN ops st'
    | (st', some e) => (st', some e)

/-- src/actions/accept.rs:118-438 `accept`, with the limit. -/
def acceptN (env : Env) (st : State) : AcceptResult :=
  let all := changes env st
  let sel := matching env.glob env.cwd env.patterns all
  let nm := nonMatchingCount all sel
  if sel = [] then { state := st, error := none, accepted := 0, nonMatching := nm }
  else match pretendCheck env st sel with
    | some e => { state := st, error := some e, accepted := 0, nonMatching := nm }
    | none =>
      let (st', err) := runN (plan env sel) st
      { state := st', error := err, accepted := if err.isNone then acceptedCount sel else 0, nonMatching := nm }

end SB
