import Verif.Props.IgnoreWild
import Verif.Props.SelectScope
import Verif.Props.Ignore
import Verif.Model.Accept

/-!
# C28: names that begin with an exclamation mark

`fast_glob::glob_match` reads a leading `!` of its pattern as a negation (`Spec.GlobNegates`, src of the library, assumed).  The program removes the backslash of `\!…` and the slash of
`/…` before it hands the pattern over, so that a `!` that belongs to the name becomes such a negation.
-/

namespace SB

/-- What is below `q` is not `q`. -/
theorem below_ne {q p : Path} (h : Below q p) : p ≠ q := by
  rintro rfl
  obtain ⟨r, hr, he⟩ := h
  exact hr (by simpa using he.symm)

/-- The two rules `!q/**` and `!q` together hide everything: nothing is both `q` and below it. -/
theorem bang_hides (glob : Str → Str → Bool) (hg : GlobLaws glob) (hn : Spec.GlobNegates glob) (q : Path) (hq : ∀ n ∈ q, Spec.PlainName n) (hne : q ≠ []) (p : Path) (hp : NormalPath p) (ig : Bool) :
    applyRules glob (joinSlash p) ig [⟨false, '!' :: joinSlash q ++ str "/**"⟩, ⟨false, '!' :: joinSlash q⟩] = true := by
  rw [applyTwo, List.cons_append, hn, hn]
  obtain ⟨h2, h1⟩ := literal_path hg hq hne hp
  by_cases h : p = q
  · have hb : glob (joinSlash q ++ str "/**") (joinSlash p) = false := by
      rw [← Bool.not_eq_true, h1]
      exact fun hb => below_ne hb h
    simp [hb]
  · have hb : glob (joinSlash q) (joinSlash p) = false := by
      rw [← Bool.not_eq_true, h2]
      exact h
    simp [hb]

/-- gitignore(5): `/name` matches the item of that name directly in the directory of the file, whatever character the name begins with, and hides what is below it. -/
def Spec.GitHidesHere (n : Name) (p : Path) : Prop := p.head? = some n

/-- gitignore(5): "put a backslash in front of the first `!` for patterns that begin with a literal `!`"; with a slash inside, the line is relative to the directory of the file. -/
def Spec.GitHidesPath (q p : Path) : Prop := q <+: p

/-- **C28 refuted** for `/!name`: the line hides everything below the directory of the ignore file, whatever its name, where gitignore hides the item `!name` there.
The leading slash is removed, and the matcher takes the `!` of the name for a negation. -/
theorem C28_refuted_bang (glob : Str → Str → Bool) (hg : GlobLaws glob) (hneg : Spec.GlobNegates glob) (n : Name) (hn : Spec.PlainName n) :
    (∀ p, NormalPath p → Spec.LineHides glob ('/' :: '!' :: n) p) ∧ ∃ p, NormalPath p ∧ ¬ Spec.GitHidesHere ('!' :: n) p := by
  refine ⟨fun p hp => ?_, [str "x"], by decide, fun h => ?_⟩
  rotate_left
  · simp [Spec.GitHidesHere, str] at h
  obtain ⟨f1, f2, f3, f4⟩ := hn.literal_facts
  have hw := trim_eq_ws hn.trimmed
  have hpre : (str "\\!").isPrefixOf ('/' :: '!' :: n) = false := notPrefix_of_not_mem (c := '\\') (by decide) (by simp [f1])
  have hns : '/' ∉ '!' :: n := by simp [hn.noSlash]
  have hsq : squeeze ('/' :: '!' :: n) = '/' :: '!' :: n := by
    rw [squeeze_cons (.inr (by simp)), squeeze_noSlash hns]
  have hparse : parseIgnoreLine ('/' :: '!' :: n) = [⟨false, '!' :: n ++ str "/**"⟩, ⟨false, '!' :: n⟩] := by
    rw [parse_core ('/' :: '!' :: n) ('/' :: '!' :: n) false (trim_id (by decide) (fun d hd => by
        cases n with
        | nil => exact absurd rfl hn.ne
        | cons x n => rw [List.getLast?_cons_cons, List.getLast?_cons_cons] at hd; exact hw.2 d hd))
      (by simp) (by simp) (noEscSpace (by simp [f1])) (by simp [hpre]) (by simp [hpre]) (by simp [f3]) (by simp [f4])]
    simp only [hsq, List.head?_cons, if_true, List.tail_cons]
    rw [if_neg (getLast_ne_of_not_mem hns)]
  unfold Spec.LineHides
  rw [hparse]
  exact bang_hides glob hg hneg [n] (by simpa using hn) (by simp) p hp false

example : GlobLaws globRef ∧ Spec.GlobNegates globRef ∧ Spec.PlainName (str "keep") ∧ ¬ Spec.GitHidesHere (str "!keep") [str "src", str "main"] ∧
    Spec.LineHides globRef (str "/!keep") [str "src", str "main"] ∧ ¬ Spec.LineHides globRef (str "/keep") [str "src", str "main"] :=
  ⟨globRef_laws, globRef_negates, by decide, by unfold Spec.GitHidesHere; decide, by decide, by decide⟩

/-- **C28 refuted** for `\!a/b`: a line that begins with an escaped exclamation mark and has a slash inside hides everything below the directory of the ignore file, where gitignore
hides the one path that begins with `!`. -/
theorem C28_refuted_escaped_path (glob : Str → Str → Bool) (hg : GlobLaws glob) (hneg : Spec.GlobNegates glob) (n : Name) (r : Path) (hq : ∀ m ∈ n :: r, Spec.PlainName m) (hr : r ≠ [])
    (ht : trim ('\\' :: '!' :: joinSlash (n :: r)) = '\\' :: '!' :: joinSlash (n :: r)) :
    (∀ p, NormalPath p → Spec.LineHides glob ('\\' :: '!' :: joinSlash (n :: r)) p) ∧ ∃ p, NormalPath p ∧ ¬ Spec.GitHidesPath (('!' :: n) :: r) p := by
  refine ⟨fun p hp => ?_, [str "x"], by decide, fun h => ?_⟩
  rotate_left
  · have := h.length_le
    cases r with
    | nil => exact hr rfl
    | cons x r => simp at this
  have hn := hq n (by simp)
  have hwn : ∀ w ∈ n :: r, Spec.WildName w := fun w hw =>
    ⟨(hq w hw).ne, (hq w hw).noSlash, fun c hc hm => absurd ((hq w hw).literal c hc) (by simp [hm]), fun hi => (hq w hw).literal_facts.2.2.1 (hi.subset (by simp))⟩
  have no : ∀ c, isGlobMeta c = true → c ∉ joinSlash (n :: r) := by
    intro c hm hc
    rcases mem_joinSlash hc with rfl | ⟨w, hw, hc⟩
    · revert hm; decide
    · exact (hq w hw).literal.not_mem hm hc
  have hlast : (joinSlash (n :: r)).getLast? ≠ some '/' := joinSlash_last (by simp) hwn
  have hne : joinSlash (n :: r) ≠ [] := by
    have := joinSlash_head r hn.ne
    intro e
    rw [e] at this
    cases hx : n with
    | nil => exact hn.ne hx
    | cons c x => rw [hx] at this; cases this
  have hhead : (joinSlash (n :: r)).head? ≠ some '/' := by
    rw [joinSlash_head r hn.ne]
    exact head_not_slash (hwn n (by simp))
  have hslash : ('!' :: joinSlash (n :: r)).contains '/' = true := by
    match r, hr with
    | x :: r, _ => simp [joinSlash]
  have hpre : (str "\\!").isPrefixOf ('\\' :: '!' :: joinSlash (n :: r)) = true := by
    rw [List.isPrefixOf_iff_prefix]; exact ⟨_, rfl⟩
  have hesc : (str "\\ ").isSuffixOf ('\\' :: '!' :: joinSlash (n :: r)) = false := by
    by_contra hc
    rw [Bool.not_eq_false, List.isSuffixOf_iff_suffix] at hc
    obtain ⟨u, hu⟩ := hc
    have : ('\\' :: '!' :: joinSlash (n :: r)).getLast? = some ' ' := by
      rw [← hu, getLast_append_ne (by simp [str])]
      rfl
    have := (trim_eq_ws ht).2 ' ' this
    simp [isWs] at this
  have hparse : parseIgnoreLine ('\\' :: '!' :: joinSlash (n :: r)) = [⟨false, '!' :: joinSlash (n :: r) ++ str "/**"⟩, ⟨false, '!' :: joinSlash (n :: r)⟩] := by
    rw [parse_core _ ('!' :: joinSlash (n :: r)) false ht (by simp) (by simp) hesc (by simp [hpre]) (by simp [hpre])
      (by simp [no '*' (by decide)]) (by simp [no '?' (by decide)])]
    simp only [squeeze_cons (.inl (show '!' ≠ '/' by decide)), squeeze_join hwn, List.head?_cons, Option.some.injEq, hslash, Bool.not_true, Bool.false_and, Bool.false_eq_true, if_false]
    rw [if_neg (show ¬ '!' = '/' by decide), List.getLast?_cons_of_ne_nil hne, if_neg hlast]
  unfold Spec.LineHides
  rw [hparse]
  exact bang_hides glob hg hneg (n :: r) hq (by simp) p hp false

example : Spec.LineHides globRef (str "\\!a/b") [str "src", str "main"] ∧ ¬ Spec.LineHides globRef (str "a/b") [str "src", str "main"] ∧
    (∀ m ∈ [str "a", str "b"], Spec.PlainName m) ∧ trim (str "\\!a/b") = str "\\!a/b" ∧ ¬ Spec.GitHidesPath [str "!a", str "b"] [str "src", str "main"] :=
  ⟨by decide, by decide, by decide, by decide, by unfold Spec.GitHidesPath; decide⟩

def exBang : State := ⟨[([], { kind := .dir })], [([], { kind := .dir }), ([str "F4"], { kind := .dir }), ([str "F4", str "d"], { kind := .dir }),
  ([str "F4", str "d", str ".gitignore"], { kind := .reg (str "/!keep\n") }), ([str "F4", str "d", str "f"], { kind := .reg (str "1") })]⟩

/-- `echo '/!keep' > d/.gitignore; echo 1 > d/f` in a sandbox: none of the three changes is listed, not even the new directory `d` itself, and accepting "everything" leaves them out. -/
theorem C28_refuted_bang_lists : ∃ st : State, st.upper.get [str "F4", str "d", str "f"] = some { kind := .reg (str "1") } ∧ st.lower.get [str "d", str "f"] = none ∧
    readUpper st [str "F4", str "d", str ".gitignore"] = some (str "/!keep\n") ∧
    (changes { exIgnEnv with patterns := [str "/**"] } st).map (·.dest) = [] ∧
    (accept { exIgnEnv with patterns := [str "/**"] } st).error = none ∧ (accept { exIgnEnv with patterns := [str "/**"] } st).state.lower.get [str "d", str "f"] = none :=
  ⟨exBang, by decide +kernel, by decide +kernel, by decide +kernel, by decide +kernel, by decide +kernel, by decide +kernel⟩

/-- The path is in normal form and its text is empty only for the directory itself. -/
theorem joinSlash_nil_iff {p : Path} (hp : NormalPath p) : joinSlash p = [] ↔ p = [] := by
  constructor
  · intro h
    cases p with
    | nil => rfl
    | cons n r =>
      have hn : n ≠ [] := (hp n (by simp)).1
      rw [List.eq_nil_iff_forall_not_mem] at h
      cases n with
      | nil => exact absurd rfl hn
      | cons c n => exact absurd (joinSlash_mem (ws := (c :: n) :: r) (w := c :: n) (by simp) (by simp)) (h c)
  · rintro rfl; rfl

/-- **C28 refuted** for the line `/`, which matches nothing in gitignore (a name is missing): it hides the directory of the ignore file itself, and nothing in it. -/
theorem C28_refuted_slash (glob : Str → Str → Bool) (hg : GlobLaws glob) (p : Path) (hp : NormalPath p) : Spec.LineHides glob (str "/") p ↔ p = [] := by
  have hparse : parseIgnoreLine (str "/") = [⟨false, str "/**"⟩, ⟨false, []⟩] := by decide
  unfold Spec.LineHides
  rw [hparse, applyTwo]
  have h1 := hg.lit [] (joinSlash p) (by intro c hc; cases hc)
  have h2 : glob (str "/**") (joinSlash p) = false := by
    rw [← Bool.not_eq_true]
    intro hb
    have := (hg.below [] (joinSlash p) (by intro c hc; cases hc) (pathText_join hp)).1 hb
    obtain ⟨t, ht⟩ := this
    cases p with
    | nil => cases ht
    | cons n r =>
      have hh := joinSlash_head r (hp n (by simp)).1
      rw [← ht] at hh
      exact head_ne_of_not_mem (hp n (by simp)).2.1 hh.symm
  rw [h2, Bool.false_or, ← joinSlash_nil_iff hp, ← h1]
  cases glob [] (joinSlash p) <;> simp

/-- `echo / > d/.gitignore; echo 1 > d/f` in a sandbox: the new file is listed, its new directory is not, and accepting everything fails at the file, whose directory is missing. -/
def exSlash : State := ⟨[([], { kind := .dir })], [([], { kind := .dir }), ([str "F4"], { kind := .dir }), ([str "F4", str "d"], { kind := .dir }),
  ([str "F4", str "d", str ".gitignore"], { kind := .reg (str "/\n") }), ([str "F4", str "d", str "f"], { kind := .reg (str "1") })]⟩
example : (changes { exIgnEnv with patterns := [str "/**"] } exSlash).map (·.dest) = [[str "d", str ".gitignore"], [str "d", str "f"]] ∧
    (accept { exIgnEnv with patterns := [str "/**"] } exSlash).error ≠ none := ⟨by decide +kernel, by decide +kernel⟩

/-! ### names that begin with a number sign -/

/-- What is further assumed of `fast_glob::glob_match`: a backslash in front of a number sign makes no difference. -/
structure Spec.GlobHash (glob : Str → Str → Bool) : Prop where
  item : ∀ n s, Literal n → '/' ∉ n → glob (str "**/" ++ '\\' :: '#' :: n) s = glob (str "**/" ++ '#' :: n) s
  below : ∀ n s, Literal n → '/' ∉ n → glob (str "**/" ++ '\\' :: '#' :: n ++ str "/**") s = glob (str "**/" ++ '#' :: n ++ str "/**") s

/-- An escaped character stands for itself. -/
theorem wild_escape (c : Char) (p s : Str) : wild ('\\' :: c :: p) s = true ↔ ∃ t, s = c :: t ∧ wild p t = true := by
  rw [wild.eq_def]
  cases s with
  | nil => simp
  | cons d s =>
    simp only [Bool.and_eq_true, beq_iff_eq, List.cons.injEq]
    constructor
    · rintro ⟨rfl, h⟩; exact ⟨s, ⟨rfl, rfl⟩, h⟩
    · rintro ⟨t, ⟨rfl, rfl⟩, h⟩; exact ⟨rfl, h⟩

theorem wild_hash (n s : Str) : wild ('\\' :: '#' :: n) s = wild ('#' :: n) s := by
  rw [Bool.eq_iff_iff, wild_escape, wild_lit (by decide) (by decide) (by decide)]
  cases s with
  | nil => simp
  | cons d s =>
    simp only [Bool.and_eq_true, beq_iff_eq, List.cons.injEq]
    constructor
    · rintro ⟨t, ⟨rfl, rfl⟩, h⟩; exact ⟨rfl, h⟩
    · rintro ⟨rfl, h⟩; exact ⟨s, ⟨rfl, rfl⟩, h⟩

theorem globComps_hash (n : Str) (r : List Str) : ∀ ts, globComps (('\\' :: '#' :: n) :: r) ts = globComps (('#' :: n) :: r) ts := by
  intro ts
  conv_lhs => rw [globComps.eq_def]
  conv_rhs => rw [globComps.eq_def]
  have h1 : ('\\' :: '#' :: n) ≠ ['*', '*'] := by simp
  have h2 : ('#' :: n) ≠ ['*', '*'] := by simp
  simp only [h1, h2, if_false, wild_hash]

theorem globComps_stars {r : List Str} (hr : r ≠ []) (ts : List Str) : globComps (['*', '*'] :: r) ts = ts.tails.any (globComps r) := by
  rw [globComps.eq_def]
  have : r.isEmpty = false := by cases r with
    | nil => exact absurd rfl hr
    | cons _ _ => rfl
  simp [this]

/-- The reference matcher satisfies the law, so it is consistent. -/
theorem globRef_hash : Spec.GlobHash globRef := by
  have key : ∀ (n : Str) (r : List Str), globComps (['*', '*'] :: ('\\' :: '#' :: n) :: r) = globComps (['*', '*'] :: ('#' :: n) :: r) := by
    intro n r
    funext ts
    rw [globComps_stars (by simp), globComps_stars (by simp)]
    rw [show globComps (('\\' :: '#' :: n) :: r) = globComps (('#' :: n) :: r) from funext (globComps_hash n r)]
  have sp : ∀ x : Str, splitSlash (str "**/" ++ x) = ['*', '*'] :: splitSlash x := by
    intro x
    have := split_append (str "**") x
    rw [splitSlash_stars] at this
    exact this
  constructor
  · intro n s hl hs
    rw [globRef_literal_head (by simp [str]), globRef_literal_head (by simp [str]), sp, sp, split_noSlash (n := '\\' :: '#' :: n) (by simp [hs]), split_noSlash (n := '#' :: n) (by simp [hs]), key]
  · intro n s hl hs
    rw [globRef_literal_head (by simp [str]), globRef_literal_head (by simp [str]), List.append_assoc, List.append_assoc, sp, sp,
      show str "/**" = '/' :: str "**" from rfl, split_append, split_append, splitSlash_stars, split_noSlash (n := '\\' :: '#' :: n) (by simp [hs]), split_noSlash (n := '#' :: n) (by simp [hs])]
    exact congrFun (key n [['*', '*']]) _

/-- **C28**, `\#name` is not a comment: it hides the item `#name` at every depth and everything below it; nothing else. -/
theorem C28_hash (glob : Str → Str → Bool) (hg : GlobLaws glob) (hh : Spec.GlobHash glob) (n : Name) (hn : Spec.PlainName n) (p : Path) (hp : NormalPath p) :
    Spec.LineHides glob ('\\' :: '#' :: n) p ↔ '#' :: n ∈ p := by
  obtain ⟨f1, f2, f3, f4⟩ := hn.literal_facts
  have hw := trim_eq_ws hn.trimmed
  have hpre : (str "\\!").isPrefixOf ('\\' :: '#' :: n) = false := notPrefix_of_not_mem (c := '!') (by decide) (by simp [f2])
  have hns : '/' ∉ '\\' :: '#' :: n := by simp [hn.noSlash]
  have hlast : ∀ d, ('\\' :: '#' :: n).getLast? = some d → isWs d = false := fun d hd => by
    cases n with
    | nil => exact absurd rfl hn.ne
    | cons x n => rw [List.getLast?_cons_cons, List.getLast?_cons_cons] at hd; exact hw.2 d hd
  have hesc : (str "\\ ").isSuffixOf ('\\' :: '#' :: n) = false := by
    by_contra hc
    rw [Bool.not_eq_false, List.isSuffixOf_iff_suffix] at hc
    obtain ⟨u, hu⟩ := hc
    have := hlast ' ' (by rw [← hu, getLast_append_ne (by simp [str])]; rfl)
    simp [isWs] at this
  have hparse : parseIgnoreLine ('\\' :: '#' :: n) = [⟨false, str "**/" ++ '\\' :: '#' :: n ++ str "/**"⟩, ⟨false, str "**/" ++ '\\' :: '#' :: n⟩] := by
    rw [parse_core ('\\' :: '#' :: n) ('\\' :: '#' :: n) false (trim_id (by decide) hlast) (by simp) (by simp) hesc (by simp [hpre]) (by simp [hpre]) (by simp [f3]) (by simp [f4])]
    simp only [squeeze_noSlash hns, head_ne_of_not_mem hns, if_false, contains_false hns,
      notPrefix_of_not_mem (p := str "**") (s := '\\' :: '#' :: n) (c := '*') (by decide) (by simp [f3]), Bool.not_false, Bool.and_true, if_true]
    rw [getLast_append_ne (by simp), if_neg (getLast_ne_of_not_mem hns)]
  have hlit : LitName ('#' :: n) := ⟨by simp, by simp [hn.noSlash], fun c hc => by
    rcases List.mem_cons.1 hc with rfl | hc
    · decide
    · exact hn.literal c hc⟩
  unfold Spec.LineHides
  rw [hparse, applyTwo, hh.item n _ hn.literal hn.noSlash, hh.below n _ hn.literal hn.noSlash]
  have h1 := anyDepthBelow_path hg hlit hp
  have h2 := anyDepth_path hg hlit hp
  rw [mem_iff_dropLast_or, ← h1, ← h2]
  cases glob (str "**/" ++ '#' :: n ++ str "/**") (joinSlash p) <;> cases glob (str "**/" ++ '#' :: n) (joinSlash p) <;> simp

example : Spec.LineHides globRef (str "\\#tmp") [str "d", str "#tmp", str "x"] ∧ ¬ Spec.LineHides globRef (str "#tmp") [str "d", str "#tmp", str "x"] ∧
    ¬ Spec.LineHides globRef (str "\\#tmp") [str "d", str "tmp"] ∧ Spec.GlobHash globRef ∧ Spec.PlainName (str "tmp") := ⟨by decide, by decide, by decide, globRef_hash, by decide⟩

/-! ### blanks at the ends of a line -/

theorem trim_before (c : Char) (hc : isWs c = true) (s : Str) : trim (c :: s) = trim s := by
  unfold trim
  rw [List.dropWhile_cons_of_pos hc]

/-- **C28 refuted** for blanks at the beginning of a line, which belong to the name in gitignore (only blanks at the end are dropped): the line ` name` hides `name`, at every depth, and not
the item whose name begins with a blank. -/
theorem C28_refuted_leading_blank (glob : Str → Str → Bool) (hg : GlobLaws glob) (n : Name) (hn : Spec.PlainName n) (p : Path) (hp : NormalPath p) :
    Spec.LineHides glob (' ' :: n) p ↔ n ∈ p := by
  rw [← C28_name glob hg n hn p hp]
  obtain ⟨f1, f2, f3, f4⟩ := hn.literal_facts
  have h1 : (str "\\ ").isSuffixOf (' ' :: n) = false := noEscSpace (by simp [f1])
  have h2 : (str "\\ ").isSuffixOf n = false := noEscSpace f1
  unfold Spec.LineHides parseIgnoreLine
  simp only [trim_before ' ' (by decide) n, h1, h2]

example : Spec.LineHides globRef (str " tmp") [str "d", str "tmp"] ∧ ¬ Spec.LineHides globRef (str " tmp") [str "d", str " tmp"] := ⟨by decide, by decide⟩

/-- **C28**, a blank at the end of a line belongs to the name if a backslash is before it: the line hides the item whose name ends with the blank, at every depth, and everything below it;
nothing else. -/
theorem C28_trailing_blank (glob : Str → Str → Bool) (hg : GlobLaws glob) (n : Name) (hn : Spec.PlainName n) (p : Path) (hp : NormalPath p) :
    Spec.LineHides glob (n ++ str "\\ ") p ↔ n ++ str " " ∈ p := by
  obtain ⟨f1, f2, f3, f4⟩ := hn.literal_facts
  have hw := trim_eq_ws hn.trimmed
  obtain ⟨c, r, hcr⟩ := List.exists_cons_of_ne_nil hn.ne
  have htrim : trim (n ++ str "\\ ") = n ++ ['\\'] := by
    unfold trim
    have hc : isWs c = false := hw.1 c (by rw [hcr]; rfl)
    have h1 : (n ++ str "\\ ").dropWhile isWs = n ++ str "\\ " := by
      rw [hcr, List.cons_append, List.dropWhile_cons_of_neg (by simp [hc])]
    rw [h1, List.reverse_append, show (str "\\ ").reverse = [' ', '\\'] from rfl, List.cons_append, List.dropWhile_cons_of_pos (by decide),
      List.cons_append, List.dropWhile_cons_of_neg (by decide)]
    simp
  have hsuf : (str "\\ ").isSuffixOf (n ++ str "\\ ") = true := by
    rw [List.isSuffixOf_iff_suffix]; exact List.suffix_append _ _
  have hlit : LitName (n ++ str " ") := ⟨by simp [hn.ne], by simp [str, hn.noSlash], fun d hd => by
    rcases List.mem_append.1 hd with hd | hd
    · exact hn.literal d hd
    · rw [show d = ' ' by simpa [str] using hd]; decide⟩
  have hh : (n ++ str " ").head? = n.head? := by rw [hcr]; rfl
  have hneg : (n ++ str " ").head? ≠ some '!' := by rw [hh]; exact head_ne_of_not_mem f2
  have hsl : (n ++ str " ").head? ≠ some '/' := by rw [hh]; exact head_ne_of_not_mem hn.noSlash
  have hcom : (n ++ str " ").head? ≠ some '#' := by rw [hh]; exact hn.notComment
  have hesc : (str "\\!").isPrefixOf (n ++ str " ") = false := notPrefix_of_not_mem (c := '!') (by decide) (by simp [f2, str])
  have hst : (str "**").isPrefixOf (n ++ str " ") = false := notPrefix_of_not_mem (c := '*') (by decide) (by simp [f3, str])
  have hparse : parseIgnoreLine (n ++ str "\\ ") = [⟨false, str "**/" ++ (n ++ str " ") ++ str "/**"⟩, ⟨false, str "**/" ++ (n ++ str " ")⟩] := by
    unfold parseIgnoreLine
    have hd : (n ++ ['\\']).dropLast ++ [' '] = n ++ str " " := by rw [List.dropLast_concat]; rfl
    simp only [htrim, hsuf, if_true, hd, hlit.ne, hcom, or_self, if_false, hesc, Bool.not_false, Bool.true_and, hneg, decide_false, Bool.or_self, Bool.false_eq_true,
      squeeze_noSlash hlit.noSlash, hsl, contains_false hlit.noSlash, hst, Bool.and_self]
    have h3 : (str "**/" ++ (n ++ str " ")).getLast? ≠ some '/' := by
      rw [getLast_append_ne hlit.ne]; exact getLast_ne_of_not_mem hlit.noSlash
    have h4 : (n ++ str " ").contains '*' = false := contains_false (by simp [f3, str])
    have h5 : (n ++ str " ").contains '?' = false := contains_false (by simp [f4, str])
    simp only [h3, decide_false, Bool.not_false, h4, h5, Bool.and_self, if_true, if_false, Bool.false_eq_true, List.singleton_append]
  unfold Spec.LineHides
  rw [hparse, applyTwo]
  have h1 := anyDepthBelow_path hg hlit hp
  have h2 := anyDepth_path hg hlit hp
  rw [mem_iff_dropLast_or, ← h1, ← h2]
  cases glob (str "**/" ++ (n ++ str " ") ++ str "/**") (joinSlash p) <;> cases glob (str "**/" ++ (n ++ str " ")) (joinSlash p) <;> simp

example : Spec.LineHides globRef (str "tmp\\ ") [str "d", str "tmp ", str "x"] ∧ ¬ Spec.LineHides globRef (str "tmp\\ ") [str "d", str "tmp"] ∧
    Spec.LineHides globRef (str "tmp ") [str "d", str "tmp"] := ⟨by decide, by decide, by decide⟩

end SB
