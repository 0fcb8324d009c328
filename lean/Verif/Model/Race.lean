import Verif.Model.Accept

/-!
# Accept beside other programs: src/actions/accept.rs:118-438

Between any two system calls of accept other processes may change the host.

Simplification: the list of changes (src/actions/accept.rs:126-131) and the checks of the pretend pass see the host of one moment; `fs::copy` is one operation.
-/

namespace SB

/-- What another process does to the host: a path gets a new node (is created, written, changed), or is removed. -/
structure Write where
  path : Path
  node : Option Node
deriving DecidableEq, Repr

/-- Its effect. -/
def write (fs : FS) (w : Write) : FS :=
  match w.node with
  | some n => fs.set w.path n
  | none => fs.del w.path

/-- The operations of accept in their order, with writes of others in between (each leaves a file system: directories exist, removed directories are empty).  The last argument is the error of accept:
it does nothing more then. -/
inductive Interleaved : List Op → List Write → State → State → Option AccErr → Prop where
  | done {st : State} : Interleaved [] [] st st none
  | other {ops : List Op} {w : Write} {ws : List Write} {st st' : State} {r : Option AccErr} :
      (write st.lower w).WF → Interleaved ops ws { st with lower := write st.lower w } st' r → Interleaved ops (w :: ws) st st' r
  | step {op : Op} {ops : List Op} {ws : List Write} {st st1 st' : State} {r : Option AccErr} :
      exec op st = (st1, none) → Interleaved ops ws st1 st' r → Interleaved (op :: ops) ws st st' r
  | failed {op : Op} {ops : List Op} {ws : List Write} {st st1 st' : State} {e : AccErr} :
      exec op st = (st1, some e) → Interleaved [] ws st1 st' none → Interleaved (op :: ops) ws st st' (some e)

/-- src/actions/accept.rs:118-438 `accept`, with writes of others from the end of its checks on: the final state and the error. -/
inductive AcceptBeside (env : Env) (st : State) (ws : List Write) : State → Option AccErr → Prop where
  | nothing {st' : State} : matching env.glob env.cwd env.patterns (changes env st) = [] → Interleaved [] ws st st' none → AcceptBeside env st ws st' none
  | refused {st' : State} {e : AccErr} : matching env.glob env.cwd env.patterns (changes env st) ≠ [] → pretendCheck env st (matching env.glob env.cwd env.patterns (changes env st)) = some e →
      Interleaved [] ws st st' none → AcceptBeside env st ws st' (some e)
  | ran {st' : State} {r : Option AccErr} : matching env.glob env.cwd env.patterns (changes env st) ≠ [] → pretendCheck env st (matching env.glob env.cwd env.patterns (changes env st)) = none →
      Interleaved (plan env (matching env.glob env.cwd env.patterns (changes env st))) ws st st' r → AcceptBeside env st ws st' r

end SB
