import Verif.Basic

/-!
# What is assumed of `fast_glob::glob_match`

The library is not part of the repository.  Theorems that depend on matching take `GlobLaws glob` (or single laws) as a hypothesis;
`Verif/Model/Glob.lean` contains an executable matcher that satisfies the laws, so the hypothesis is consistent.
-/

namespace SB

/-- Characters with a meaning in a glob pattern. -/
def isGlobMeta (c : Char) : Bool := c ∈ ['*', '?', '[', ']', '{', '}', '\\', '!']

/-- A pattern without special characters. -/
def Literal (p : Str) : Prop := ∀ c ∈ p, isGlobMeta c = false

instance (p : Str) : Decidable (Literal p) := by unfold Literal; infer_instance

/-- Text of a path as it is passed to the matcher: non-empty components separated by single slashes, possibly starting with one. -/
def PathText (s : Str) : Prop := s.getLast? ≠ some '/' ∧ ¬ ['/', '/'] <:+: s

instance (s : Str) : Decidable (PathText s) := by unfold PathText; infer_instance

structure GlobLaws (glob : Str → Str → Bool) : Prop where
  /-- a literal pattern matches exactly itself -/
  lit : ∀ p s, Literal p → (glob p s = true ↔ s = p)
  /-- `p/**` matches exactly the paths strictly below `p` -/
  below : ∀ p s, Literal p → PathText s → (glob (p ++ str "/**") s = true ↔ (p ++ ['/']) <+: s)
  /-- `**/w` matches exactly the relative paths whose last component(s) are `w` -/
  anyDepth : ∀ w s, Literal w → w ≠ [] → w.head? ≠ some '/' → PathText s → s.head? ≠ some '/' →
    (glob (str "**/" ++ w) s = true ↔ s = w ∨ ('/' :: w) <:+ s)
  /-- `**/w/**` matches exactly the relative paths strictly below a directory whose last component(s) are `w` -/
  anyDepthBelow : ∀ w s, Literal w → w ≠ [] → w.head? ≠ some '/' → PathText s → s.head? ≠ some '/' →
    (glob (str "**/" ++ w ++ str "/**") s = true ↔ (w ++ ['/']) <+: s ∨ ('/' :: w ++ ['/']) <:+: s)

end SB
