import Verif.FS

/-!
# Ignore rules (src/sandbox/changes/changes.rs)

The glob matcher `fast_glob::glob_match` is a parameter `glob : pattern → text → Bool` of the model.
-/

namespace SB

/-- Host file system and sandbox storage.  `upper` is keyed by the path below the sandbox's `upper` directory:
first the encoded mount point, then the path inside that mount (src/sandbox/sandbox_struct.rs:5-20).
Simplification: storage and host are two separate trees (the storage directory is not itself part of the host tree
whose changes are examined). -/
structure State where
  lower : FS
  upper : FS
deriving DecidableEq, Repr

/-- src/sandbox/changes/changes.rs:27-30 `IgnorePattern`. -/
structure IgnorePattern where
  negate : Bool
  pattern : Str
deriving DecidableEq, Repr

/-- src/sandbox/changes/changes.rs:37-45 `BUILT_IN_IGNORE_PATTERNS`. -/
def builtInIgnore : List Str :=
  [ str "/tmp/**", str "/home/*/.*/**", str "/home/*/.*", str "/root/.*/**", str "/root/.*", str "**/.git/**", str "**/.git" ]

/-- Unicode `White_Space`, the characters removed by `str::trim` (std). -/
def isWs (c : Char) : Bool :=
  let n := c.toNat
  (9 ≤ n && n ≤ 13) || n == 0x20 || n == 0x85 || n == 0xA0 || n == 0x1680 || (0x2000 ≤ n && n ≤ 0x200A) ||
  n == 0x2028 || n == 0x2029 || n == 0x202F || n == 0x205F || n == 0x3000

/-- `str::trim` (std). -/
def trim (s : Str) : Str := ((s.dropWhile isWs).reverse.dropWhile isWs).reverse

/-- Split at `\n`; always at least one piece. -/
def splitNl : Str → List Str
  | [] => [[]]
  | c :: cs =>
    if c = '\n' then [] :: splitNl cs
    else match splitNl cs with
      | [] => [[c]]
      | w :: ws => (c :: w) :: ws

/-- Drop one trailing carriage return. -/
def stripCr (l : Str) : Str := if l.getLast? = some '\r' then l.dropLast else l

/-- `str::lines` (std): pieces between newlines; one trailing `\r` is removed from each piece that was ended by a newline; the piece after the
last newline is kept as it is, and dropped if empty. -/
def lines (s : Str) : List Str :=
  let ps := splitNl s
  ps.dropLast.map stripCr ++ (if ps.getLast? = some [] then [] else ps.getLast?.toList)

/-- One pass of `trimmed.replace("//", "/")` (non-overlapping, left to right). -/
def replaceSlashes : Str → Str
  | '/' :: '/' :: r => '/' :: replaceSlashes r
  | c :: r => c :: replaceSlashes r
  | [] => []

/-- Collapse runs of `/` to one: the result of the loop at src/sandbox/changes/changes.rs:495-497 (`while contains "//" {
replace }`), written as one structural recursion. -/
def squeeze : Str → Str
  | [] => []
  | c :: r => if c = '/' ∧ r.head? = some '/' then squeeze r else c :: squeeze r

/-- `trim_end_matches('/')`. -/
def trimEndSlash (s : Str) : Str := (s.reverse.dropWhile (· = '/')).reverse

/-- The rules one line of an ignore file produces; src/sandbox/changes/changes.rs:471-546 (loop body). -/
def parseIgnoreLine (line : Str) : List IgnorePattern :=
  let t0 := trim line
  let t0 := if (str "\\ ").isSuffixOf line then t0.dropLast ++ [' '] else t0
  let orig := t0
  if t0 = [] ∨ t0.head? = some '#' then []
  else
    let esc := (str "\\!").isPrefixOf t0
    let negate := !esc && t0.head? = some '!'
    let t1 := if esc || negate then t0.tail else t0
    let t2 := squeeze t1
    let t3 :=
      if t2.head? = some '/' then t2.tail
      else if !t2.contains '/' && !(str "**").isPrefixOf t2 then str "**/" ++ t2
      else t2
    let onlyDirs := t3.getLast? = some '/'
    let t4 := if onlyDirs then trimEndSlash t3 ++ str "/**" else t3
    let extra :=
      if !onlyDirs && !orig.contains '*' && !orig.contains '?' then [⟨negate, t4 ++ str "/**"⟩] else []
    extra ++ [⟨negate, t4⟩]

/-- src/sandbox/changes/changes.rs:470-547 `parse_ignore_content`. -/
def parseIgnoreContent (content : Str) : List IgnorePattern := (lines content).flatMap parseIgnoreLine

/-- The host's tree together with the sandbox's storage, as the program sees them (it runs outside the sandbox).  The storage is at the name `[]`, which no
file has, so that it does not collide with anything on the host.  Simplification: `..` in the top directory of the storage leads to `/`. -/
def storageView (st : State) : FS := st.lower ++ st.upper.map (fun e => ([] :: e.1, e.2))

/-- `std::fs::read_to_string` below the sandbox's storage.  Symbolic links are followed, absolute ones to the host's files. -/
def readUpper (st : State) (p : Path) : Option Str :=
  match (storageView st).resolveN 40 [[]] p with
  | .error _ => none
  | .ok c => match (storageView st).get c with
    | some n => match n.kind with | .reg d => some d | _ => none
    | none => none

/-- `std::fs::read_to_string` on the host (follows symbolic links). -/
def readLower (st : State) (p : Path) : Option Str :=
  match st.lower.stat p with
  | .ok n => match n.kind with | .reg d => some d | _ => none
  | .error _ => none

/-- src/sandbox/changes/changes.rs:452-467 `resolve_ignores`. -/
def resolveIgnores (st : State) (upperDir lowerDir : Path) : List IgnorePattern :=
  [str ".gitignore", str ".ignore"].flatMap (fun f =>
    match readUpper st (upperDir ++ [f]) with
    | some c => parseIgnoreContent c
    | none => match readLower st (lowerDir ++ [f]) with
      | some c => parseIgnoreContent c
      | none => [])

/-- Components joined by `/` (a relative `PathBuf` as text). -/
def joinSlash : Path → Str
  | [] => []
  | [n] => n
  | n :: m :: r => n ++ '/' :: joinSlash (m :: r)

abbrev IgnoreCache := List (Path × List IgnorePattern)

def cacheGet (c : IgnoreCache) (p : Path) : Option (List IgnorePattern) :=
  (c.find? (fun e => e.1 = p)).map (·.2)

/-- Apply rules in order, last match wins (src/sandbox/changes/changes.rs:439-443). -/
def applyRules (glob : Str → Str → Bool) (rel : Str) (ignored : Bool) (ps : List IgnorePattern) : Bool :=
  ps.foldl (fun ig p => if glob p.pattern rel then !p.negate else ig) ignored

/-- The loop over path components of src/sandbox/changes/changes.rs:422-444; `done` are the components already
pushed. -/
def ignoreLoop (glob : Str → Str → Bool) (st : State) (m : Name) (mp : Path) :
    Path → Path → Bool → IgnoreCache → Bool × IgnoreCache
  | _, [], ig, cache => (ig, cache)
  | done, c :: rest, ig, cache =>
    let dir := done ++ [c]
    let (ps, cache) := match cacheGet cache (mp ++ dir) with
      | some ps => (ps, cache)
      | none =>
        let ps := resolveIgnores st (m :: dir) (mp ++ dir)
        (ps, (mp ++ dir, ps) :: cache)
    ignoreLoop glob st m mp dir rest (applyRules glob (joinSlash rest) ig ps) cache

/-- src/sandbox/changes/changes.rs:383-447 `is_ignored` for the storage path `m :: sub` of mount point `mp`. -/
def isIgnored (glob : Str → Str → Bool) (st : State) (m : Name) (mp sub : Path) (cache : IgnoreCache) :
    Bool × IgnoreCache :=
  if builtInIgnore.any (fun p => glob p (display (mp ++ sub))) then (true, cache)
  else ignoreLoop glob st m mp [] sub false cache

end SB
