import Verif.Model.Changes

/-!
# The numbers in the question of `delete`: src/sandbox/changes/changes.rs:210-273, src/actions/delete.rs:119-150
-/

namespace SB

/-- `Path::is_dir` of a storage path (src/sandbox/changes/changes.rs:249): symbolic links are followed, absolute ones on the host.  Simplification: `rel p` says whether the
relative link at `p`, followed from the storage directory, leads to a directory. -/
def storedIsDir (rel : Path → Bool) (st : State) (p : Path) : Bool :=
  match st.upper.get p with
  | none => false
  | some n => match n.kind with
    | .dir => true
    | .lnk t => if t.head? = some '/' then st.lower.pisDir (components t) else rel p
    | _ => false

/-- src/sandbox/changes/changes.rs:216-267: (entries that are not ignored, ignored entries). -/
def countLoop (env : Env) (rel : Path → Bool) (st : State) : List Path → IgnoreCache → Nat × Nat
  | [], _ => (0, 0)
  | [] :: ks, c => countLoop env rel st ks c
  | (m :: sub) :: ks, c =>
    match env.decode m with
    | none => countLoop env rel st ks c
    | some mp =>
      if sub = [] then countLoop env rel st ks c
      else if storedIsDir rel st (m :: sub) then countLoop env rel st ks c
      else if env.includeIgnored then
        let r := countLoop env rel st ks c
        (r.1 + 1, r.2)
      else
        let (ig, c') := isIgnored env.glob st m mp sub c
        let r := countLoop env rel st ks c'
        if ig then (r.1, r.2 + 1) else (r.1 + 1, r.2)

/-- src/sandbox/changes/changes.rs:210-273 `count_upper_entries` -/
def countUpper (env : Env) (rel : Path → Bool) (st : State) : Nat × Nat := countLoop env rel st st.upper.keys []

/-- src/actions/delete.rs:130-150: the line shown for a sandbox. -/
def deleteLine (running : Bool) (name : Name) (n : Nat × Nat) : Str :=
  str "  " ++ (if running then str "running" else str "stopped") ++ str " " ++ name ++ str " (" ++ (toString n.1).toList ++ str " entries, " ++
    (toString n.2).toList ++ str " ignored)"

end SB
