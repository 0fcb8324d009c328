import Verif.Model.Accept

/-!
# Several accepts of one sandbox at the same time

src/actions/accept.rs:118-438 takes no lock (src/main.rs:83-88 makes the sandbox with `from_location`; only starting, stopping and deleting lock, src/sandbox/get_or_create.rs:77-125).  Any number of accepts (and of rejects
and deletes) can therefore run at once, each stopped and continued by the scheduler between any two system calls.
-/

namespace SB

/-- An accept that has listed the changes and made its checks: what it selected, and the operations of the real pass that are left (`.ok []`: it has ended and reports success), or the error it has ended with. -/
structure Accepting where
  env : Env
  sel : List Entry
  left : Except AccErr (List Op)

/-- Everything that can have happened since the state `st0`: accepts have been started at any times, and their operations (src/actions/accept.rs:118-438, `exec`) interleaved in any way.
Some may have been stopped for good (a killed process is never scheduled again); an operation that takes several system calls can be seen half done and can fail half done; and other programs (`reject`, `delete`) have
removed any part of the storage.
A file or link of the storage that is copied can have been opened or read earlier, when it was still there (`late`: src/actions/accept.rs:320 reads the link before it removes anything, src/actions/accept.rs:472 `cp` opens the file;
nothing is ever added to the storage or changed in it here, so what was read is what was there at the beginning); and an accept can end with an error at any moment (`stop`: for example because what it has just seen is gone).
Simplifications: the listing and the checks of one accept (src/actions/accept.rs:118-137 and the pretend pass) see one state; between them and the first operation anything can happen. -/
inductive Together (st0 : State) : List Accepting → State → Prop where
  | none : Together st0 [] st0
  | start {ws : List Accepting} {st : State} (env : Env) : Together st0 ws st → pretendCheck env st (selected env st) = none →
      Together st0 (ws ++ [⟨env, selected env st, .ok (plan env (selected env st))⟩]) st
  | step {a b : List Accepting} {env : Env} {sel : List Entry} {op : Op} {r : List Op} {st st' : State} :
      Together st0 (a ++ ⟨env, sel, .ok (op :: r)⟩ :: b) st → exec op st = (st', none) → Together st0 (a ++ ⟨env, sel, .ok r⟩ :: b) st'
  | fail {a b : List Accepting} {env : Env} {sel : List Entry} {op : Op} {r : List Op} {st st' : State} {e : AccErr} :
      Together st0 (a ++ ⟨env, sel, .ok (op :: r)⟩ :: b) st → exec op st = (st', some e) → Together st0 (a ++ ⟨env, sel, .error e⟩ :: b) st'
  | half {a b : List Accepting} {env : Env} {sel : List Entry} {op : Op} {r : List Op} {st st' : State} :
      Together st0 (a ++ ⟨env, sel, .ok (op :: r)⟩ :: b) st → Mid op st st' → Together st0 (a ++ ⟨env, sel, .ok (op :: r)⟩ :: b) st'
  | broken {a b : List Accepting} {env : Env} {sel : List Entry} {op : Op} {r : List Op} {st st' : State} (e : AccErr) :
      Together st0 (a ++ ⟨env, sel, .ok (op :: r)⟩ :: b) st → Mid op st st' → Together st0 (a ++ ⟨env, sel, .error e⟩ :: b) st'
  | late {a b : List Accepting} {env : Env} {sel : List Entry} {op : Op} {r : List Op} {st st' : State} (hop : ∀ p, op ≠ .clean p) :
      Together st0 (a ++ ⟨env, sel, .ok (op :: r)⟩ :: b) st → exec op ⟨st.lower, st0.upper⟩ = (st', none) → Together st0 (a ++ ⟨env, sel, .ok r⟩ :: b) ⟨st'.lower, st.upper⟩
  | lateHalf {a b : List Accepting} {env : Env} {sel : List Entry} {op : Op} {r : List Op} {st st' : State} (hop : ∀ p, op ≠ .clean p) :
      Together st0 (a ++ ⟨env, sel, .ok (op :: r)⟩ :: b) st → Mid op ⟨st.lower, st0.upper⟩ st' → Together st0 (a ++ ⟨env, sel, .ok (op :: r)⟩ :: b) ⟨st'.lower, st.upper⟩
  | stop {a b : List Accepting} {env : Env} {sel : List Entry} {l : Except AccErr (List Op)} {st : State} (e : AccErr) :
      Together st0 (a ++ ⟨env, sel, l⟩ :: b) st → Together st0 (a ++ ⟨env, sel, .error e⟩ :: b) st
  | drop {ws : List Accepting} {st : State} (keep : Path → Bool) : Together st0 ws st → Together st0 ws { st with upper := st.upper.filter (fun e => keep e.1) }

end SB
