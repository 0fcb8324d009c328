import Verif.Model.Ignore

/-!
# Specification of ignore rules, written independently of the scan, its cache and its loops
-/

namespace SB.Spec

/-- Text of ignore file `f` in a directory: the sandbox's copy if there is one, else the host's copy, else none. -/
def ignoreText (st : State) (upperDir lowerDir : Path) (f : Name) : Option Str :=
  match readUpper st (upperDir ++ [f]) with
  | some t => some t
  | none => readLower st (lowerDir ++ [f])

/-- The rules of one directory: those of `.gitignore`, then those of `.ignore`. -/
def rulesAt (st : State) (upperDir lowerDir : Path) : List IgnorePattern :=
  ((ignoreText st upperDir lowerDir (str ".gitignore")).elim [] parseIgnoreContent) ++
  ((ignoreText st upperDir lowerDir (str ".ignore")).elim [] parseIgnoreContent)

/-- All rules that concern the path `mp/sub` stored under `m`, each with the path's text relative to the directory of the rule, from the outermost
directory (just below the mount point) to the path itself. -/
def rulesFor (st : State) (m : Name) (mp sub : Path) : List (IgnorePattern × Str) :=
  (List.range sub.length).flatMap (fun i =>
    (rulesAt st (m :: sub.take (i + 1)) (mp ++ sub.take (i + 1))).map (fun r => (r, joinSlash (sub.drop (i + 1)))))

/-- The last matching rule exists and is not a negation. -/
def LastMatchHides (glob : Str → Str → Bool) (rules : List (IgnorePattern × Str)) : Prop :=
  ∃ pre r post, rules = pre ++ r :: post ∧ glob r.1.pattern r.2 = true ∧ r.1.negate = false ∧ ∀ x ∈ post, glob x.1.pattern x.2 = false

/-- Hidden by a built-in rule. -/
def BuiltIn (glob : Str → Str → Bool) (p : Path) : Prop :=
  ∃ b ∈ ["/tmp/**", "/home/*/.*/**", "/home/*/.*", "/root/.*/**", "/root/.*", "**/.git/**", "**/.git"], glob (str b) (display p) = true

end SB.Spec
