import Verif.Model.Race
import Verif.Model.Actions

/-!
# Accept beside the sandbox's own commands: src/actions/accept.rs:118-438

`accept` takes no lock and does not look whether processes run in the sandbox (src/main.rs:40-180: only the start of a sandbox takes a lock): between any two of its system calls
a command in the sandbox may change the storage.

Simplification: as in `Model/Race.lean`, the list of changes and the checks of the pretend pass see the storage of one moment; `fs::copy` is one operation, and so is the removal of one staged path.
-/

namespace SB

/-- The operations of accept in their order, with changes of the storage by commands in the sandbox in between (each leaves a file system).  The last argument is the error of accept: it does
nothing more then. -/
inductive InterleavedIn : List Op → List Write → State → State → Option AccErr → Prop where
  | done {st : State} : InterleavedIn [] [] st st none
  | other {ops : List Op} {w : Write} {ws : List Write} {st st' : State} {r : Option AccErr} :
      (write st.upper w).WF → InterleavedIn ops ws { st with upper := write st.upper w } st' r → InterleavedIn ops (w :: ws) st st' r
  | step {op : Op} {ops : List Op} {ws : List Write} {st st1 st' : State} {r : Option AccErr} :
      exec op st = (st1, none) → InterleavedIn ops ws st1 st' r → InterleavedIn (op :: ops) ws st st' r
  | failed {op : Op} {ops : List Op} {ws : List Write} {st st1 st' : State} {e : AccErr} :
      exec op st = (st1, some e) → InterleavedIn [] ws st1 st' none → InterleavedIn (op :: ops) ws st st' (some e)

/-- src/actions/accept.rs:118-438 `accept`, with changes of the storage by commands in the sandbox from the end of its checks on: the final state and the error. -/
inductive AcceptWhile (env : Env) (st : State) (ws : List Write) : State → Option AccErr → Prop where
  | nothing {st' : State} : matching env.glob env.cwd env.patterns (changes env st) = [] → InterleavedIn [] ws st st' none → AcceptWhile env st ws st' none
  | refused {st' : State} {e : AccErr} : matching env.glob env.cwd env.patterns (changes env st) ≠ [] → pretendCheck env st (matching env.glob env.cwd env.patterns (changes env st)) = some e →
      InterleavedIn [] ws st st' none → AcceptWhile env st ws st' (some e)
  | ran {st' : State} {r : Option AccErr} : matching env.glob env.cwd env.patterns (changes env st) ≠ [] → pretendCheck env st (matching env.glob env.cwd env.patterns (changes env st)) = none →
      InterleavedIn (plan env (matching env.glob env.cwd env.patterns (changes env st))) ws st st' r → AcceptWhile env st ws st' r

/-- The operations of accept with writes to the host (`hs`) and to the storage (`ws`) in between. -/
inductive InterleavedBoth : List Op → List Write → List Write → State → State → Option AccErr → Prop where
  | done {st : State} : InterleavedBoth [] [] [] st st none
  | host {ops : List Op} {w : Write} {hs ws : List Write} {st st' : State} {r : Option AccErr} :
      (write st.lower w).WF → InterleavedBoth ops hs ws { st with lower := write st.lower w } st' r → InterleavedBoth ops (w :: hs) ws st st' r
  | storage {ops : List Op} {w : Write} {hs ws : List Write} {st st' : State} {r : Option AccErr} :
      (write st.upper w).WF → InterleavedBoth ops hs ws { st with upper := write st.upper w } st' r → InterleavedBoth ops hs (w :: ws) st st' r
  | step {op : Op} {ops : List Op} {hs ws : List Write} {st st1 st' : State} {r : Option AccErr} :
      exec op st = (st1, none) → InterleavedBoth ops hs ws st1 st' r → InterleavedBoth (op :: ops) hs ws st st' r
  | failed {op : Op} {ops : List Op} {hs ws : List Write} {st st1 st' : State} {e : AccErr} :
      exec op st = (st1, some e) → InterleavedBoth [] hs ws st1 st' none → InterleavedBoth (op :: ops) hs ws st st' (some e)

/-- src/actions/accept.rs:118-438 `accept`, with writes of other programs to the host and of commands in the sandbox to the storage from the end of its checks on. -/
inductive AcceptAmid (env : Env) (st : State) (hs ws : List Write) : State → Option AccErr → Prop where
  | nothing {st' : State} : matching env.glob env.cwd env.patterns (changes env st) = [] → InterleavedBoth [] hs ws st st' none → AcceptAmid env st hs ws st' none
  | refused {st' : State} {e : AccErr} : matching env.glob env.cwd env.patterns (changes env st) ≠ [] → pretendCheck env st (matching env.glob env.cwd env.patterns (changes env st)) = some e →
      InterleavedBoth [] hs ws st st' none → AcceptAmid env st hs ws st' (some e)
  | ran {st' : State} {r : Option AccErr} : matching env.glob env.cwd env.patterns (changes env st) ≠ [] → pretendCheck env st (matching env.glob env.cwd env.patterns (changes env st)) = none →
      InterleavedBoth (plan env (matching env.glob env.cwd env.patterns (changes env st))) hs ws st st' r → AcceptAmid env st hs ws st' r

/-- src/actions/reject.rs:25-48: the loop over the changes, with changes of the storage by commands in the sandbox (or by another action) in between.  `last`: the staged path handled last. -/
inductive RejectIn : List Entry → Option Path → List Write → FS → FS → Option Errno → Prop where
  | done {last : Option Path} {up : FS} : RejectIn [] last [] up up none
  | other {l : List Entry} {last : Option Path} {w : Write} {ws : List Write} {up up' : FS} {r : Option Errno} : (write up w).WF → RejectIn l last ws (write up w) up' r → RejectIn l last (w :: ws) up up' r
  | step {e : Entry} {l : List Entry} {last : Option Path} {ws : List Write} {up up1 up' : FS} {r : Option Errno} : rejectLoop [e] last up = (up1, none) →
      RejectIn l ((e.staged.map (·.path)).or last) ws up1 up' r → RejectIn (e :: l) last ws up up' r
  | failed {e : Entry} {l : List Entry} {last : Option Path} {ws : List Write} {up up1 up' : FS} {x : Errno} : rejectLoop [e] last up = (up1, some x) →
      RejectIn [] last ws up1 up' none → RejectIn (e :: l) last ws up up' (some x)

/-- src/actions/reject.rs:10-56 `reject`, with such changes from the end of its scan on. -/
def RejectWhile (env : Env) (st : State) (ws : List Write) (st' : State) (r : Option Errno) : Prop :=
  st'.lower = st.lower ∧ RejectIn (stableSort byStagedDescending (selected env st)) none ws st.upper st'.upper r

end SB
