import Verif.Model.Actions
import Verif.Model.Base32
import Verif.Model.Count

/-!
# File names are bytes: src/sandbox/changes/changes.rs:54-75, 210-375, 395-400, src/sandbox/changes/file_details.rs:99-152, 174-178

On the disk a name is any sequence of bytes other than `/` and NUL.  The rest of the model works with text; here the loops over the storage are modelled for names as they are on the disk, and
where they stop.  After that, if they have not stopped, everything is text.
-/

namespace SB

/-- A file name on the disk: bytes. -/
abbrev RawName := List Nat
abbrev RawPath := List RawName

/-- The storage (`upper`) of a sandbox as it is on the disk. -/
abbrev RawStore := List (RawPath × Node)

/-- Host and storage. -/
structure RawState where
  lower : FS
  store : RawStore

/-- `Path::to_str` (std): the text of a path, if it is UTF-8. -/
def textPath : RawPath → Option Path
  | [] => some []
  | n :: p =>
    match utf8Decode n, textPath p with
    | some t, some q => some (t :: q)
    | _, _ => none

/-- The replacement character. -/
def replChar : Char := Char.ofNat 0xFFFD

/-- `Utf8Chunks` (std): every maximal beginning of a character that is not completed, and every other stray byte, becomes one replacement character. -/
def lossyN : Nat → List Nat → Str
  | 0, _ => []
  | _, [] => []
  | k + 1, a :: r =>
    if a < 0x80 then Char.ofNat a :: lossyN k r
    else if 0xC2 ≤ a ∧ a ≤ 0xDF then
      match r with
      | b :: r1 => if isCont b then Char.ofNat ((a - 0xC0) * 64 + (b - 0x80)) :: lossyN k r1 else replChar :: lossyN k (b :: r1)
      | [] => [replChar]
    else if 0xE0 ≤ a ∧ a ≤ 0xEF then
      match r with
      | b :: r1 =>
        if isCont b && (a != 0xE0 || 0xA0 ≤ b) && (a != 0xED || b < 0xA0) then
          match r1 with
          | c :: r2 =>
            if isCont c then Char.ofNat ((a - 0xE0) * 4096 + (b - 0x80) * 64 + (c - 0x80)) :: lossyN k r2 else replChar :: lossyN k (c :: r2)
          | [] => [replChar]
        else replChar :: lossyN k (b :: r1)
      | [] => [replChar]
    else if 0xF0 ≤ a ∧ a ≤ 0xF4 then
      match r with
      | b :: r1 =>
        if isCont b && (a != 0xF0 || 0x90 ≤ b) && (a != 0xF4 || b < 0x90) then
          match r1 with
          | c :: r2 =>
            if isCont c then
              match r2 with
              | d :: r3 =>
                if isCont d then Char.ofNat ((a - 0xF0) * 262144 + (b - 0x80) * 4096 + (c - 0x80) * 64 + (d - 0x80)) :: lossyN k r3
                else replChar :: lossyN k (d :: r3)
              | [] => [replChar]
            else replChar :: lossyN k (c :: r2)
          | [] => [replChar]
        else replChar :: lossyN k (b :: r1)
      | [] => [replChar]
    else replChar :: lossyN k r

/-- The whole name (every step consumes a byte). -/
def lossyChunks (l : List Nat) : Str := lossyN l.length l

/-- `String::from_utf8_lossy` (std), which `path_to_cstring` applies (src/sandbox/changes/file_details.rs:174-178): valid text is left as it is. -/
def lossy (n : RawName) : RawName :=
  match utf8Decode n with
  | some _ => n
  | none => utf8 (lossyChunks n)

/-- How a loop over the storage ends. `otherFile`: the overlay attributes of another file are used; what follows is not modelled. -/
inductive Scan where
  | fine
  | panicked
  | failed
  | otherFile
deriving DecidableEq, Repr

/-- `BASE32_NOPAD_NOCASE.decode` of a component (src/sandbox/changes/changes.rs:298-319): bytes outside the alphabet, so all that are not ASCII, are refused. -/
def rawDecode (env : Env) (m : RawName) : Option Path := (utf8Decode m).bind env.decode

/-- src/sandbox/changes/changes.rs:285-375 as far as it depends on names being text.  Without `--ignored`, `is_ignored` (395-397) needs the text of the path: `expect` panics.  With it, the
first thing asked is the redirect of the path itself (585-595), from the file of the *lossy* name: file_details.rs:112-135 fails if there is none. -/
def rawScan (env : Env) (store : RawStore) : RawStore → Scan
  | [] => .fine
  | ([], _) :: ks => rawScan env store ks
  | (m :: sub, _) :: ks =>
    match rawDecode env m with
    | none => rawScan env store ks
    | some _ =>
      if sub = [] then rawScan env store ks
      else match textPath (m :: sub) with
        | some _ => rawScan env store ks
        | none =>
          if env.includeIgnored then
            if (m :: sub).map lossy ∈ store.map Prod.fst then .otherFile else .failed
          else .panicked

/-- The storage as text; paths that are not text are left out (if the loop gets through, they are not below a mount directory). -/
def textStore (store : RawStore) : FS := store.filterMap (fun e => (textPath e.1).map (fun q => (q, e.2)))

/-- Host and storage as text. -/
def RawState.text (st : RawState) : State := ⟨st.lower, textStore st.store⟩

/-- How an action ends. -/
inductive RawEnd (α : Type) where
  | done (a : α)
  | panicked
  | failed
  | otherFile
deriving DecidableEq, Repr

/-- An action that asks for the changes before it does anything else: src/actions/status.rs:25, diff.rs:28, accept.rs:126, reject.rs:18. -/
def onChanges (env : Env) (st : RawState) (act : State → α) : RawEnd α :=
  match rawScan env st.store st.store with
  | .fine => .done (act st.text)
  | .panicked => .panicked
  | .failed => .failed
  | .otherFile => .otherFile

/-- src/actions/status.rs:18-101 -/
def rawStatus (env : Env) (st : RawState) : RawEnd (List Entry × Nat) := onChanges env st (status env)
/-- src/actions/diff.rs:15-148 -/
def rawDiff (env : Env) (st : RawState) : RawEnd (List DiffOut) := onChanges env st (diff env)
/-- src/actions/accept.rs:114-430: what is on the disk afterwards and the error. -/
def rawAccept (env : Env) (st : RawState) : RawEnd AcceptResult := onChanges env st (accept env)
/-- src/actions/reject.rs:10-56 -/
def rawReject (env : Env) (st : RawState) : RawEnd (State × Option Errno) := onChanges env st (reject env)

/-- The loop of `count_upper_entries` (src/sandbox/changes/changes.rs:216-267) as far as it depends on names being text; `dir p` says whether `Path::is_dir` holds of the stored path.
There is no other use of a lossy name: with `--ignored` nothing is asked. -/
def rawCountScan (env : Env) (dir : RawPath → Bool) : RawStore → Scan
  | [] => .fine
  | ([], _) :: ks => rawCountScan env dir ks
  | (m :: sub, _) :: ks =>
    match rawDecode env m with
    | none => rawCountScan env dir ks
    | some _ =>
      if sub = [] then rawCountScan env dir ks
      else if dir (m :: sub) then rawCountScan env dir ks
      else if env.includeIgnored then rawCountScan env dir ks
      else match textPath (m :: sub) with
        | some _ => rawCountScan env dir ks
        | none => .panicked

end SB
