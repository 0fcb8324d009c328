import Verif.Lib.White
import Verif.Model.Glob
import Verif.Lib.TextLemmas
import Verif.Lib.PathLemmas

/-!
# C28: what a line of an ignore file means
-/

namespace SB

/-- The rules of one line hide the item at relative path `p` (nothing hidden before). -/
def Spec.LineHides (glob : Str → Str → Bool) (line : Str) (p : Path) : Prop := applyRules glob (joinSlash p) false (parseIgnoreLine line) = true

instance (glob : Str → Str → Bool) (l : Str) (p : Path) : Decidable (Spec.LineHides glob l p) := by unfold Spec.LineHides; infer_instance

/-- The rules of one line re-include the item at relative path `p` (hidden before). -/
def Spec.LineShows (glob : Str → Str → Bool) (line : Str) (p : Path) : Prop := applyRules glob (joinSlash p) true (parseIgnoreLine line) = false

/-- A file name written literally in an ignore file: no glob characters, not starting with `#`, no surrounding blanks. -/
structure Spec.PlainName (n : Name) : Prop where
  ne : n ≠ []
  noSlash : '/' ∉ n
  literal : Literal n
  notComment : n.head? ≠ some '#'
  trimmed : trim n = n

instance (n : Name) : Decidable (Spec.PlainName n) :=
  decidable_of_iff (n ≠ [] ∧ '/' ∉ n ∧ Literal n ∧ n.head? ≠ some '#' ∧ trim n = n)
    ⟨fun ⟨a, b, c, d, e⟩ => ⟨a, b, c, d, e⟩, fun ⟨a, b, c, d, e⟩ => ⟨a, b, c, d, e⟩⟩

/-- A name without slashes and special characters. -/
structure LitName (n : Name) : Prop where
  ne : n ≠ []
  noSlash : '/' ∉ n
  literal : Literal n

theorem Spec.PlainName.lit {n : Name} (h : Spec.PlainName n) : LitName n := ⟨h.ne, h.noSlash, h.literal⟩

/-! ### texts and paths -/

theorem slash_join {p : Path} (h : p ≠ []) : '/' :: joinSlash p = display p := by
  unfold display
  rw [if_neg h]
  induction p with
  | nil => exact absurd rfl h
  | cons n p ih =>
    cases p with
    | nil => simp [joinSlash]
    | cons m r =>
      have := ih (by simp)
      simp only [joinSlash, List.flatMap_cons, List.cons_append] at this ⊢
      rw [this]

theorem split_join {p : Path} (hp : ∀ n ∈ p, '/' ∉ n) (h : p ≠ []) : splitSlash (joinSlash p) = p := by
  have h1 : splitSlash ('/' :: joinSlash p) = [] :: p := by
    rw [slash_join h, display, if_neg h]; exact split_flatMap hp
  simpa [splitSlash] using h1

theorem pathText_join {p : Path} (hp : NormalPath p) : PathText (joinSlash p) := by
  by_cases h : p = []
  · subst h; decide
  · have h1 := pathText_display hp h
    rw [← slash_join h] at h1
    refine ⟨?_, fun hi => h1.2 (hi.trans (List.suffix_cons _ _).isInfix)⟩
    intro hl
    apply h1.1
    cases hj : joinSlash p with
    | nil => rw [hj] at hl; simp at hl
    | cons c r => rw [hj] at hl; rw [List.getLast?_cons_cons]; exact hl

theorem head_join {p : Path} (hp : NormalPath p) : (joinSlash p).head? ≠ some '/' := by
  cases p with
  | nil => simp [joinSlash]
  | cons n p =>
    obtain ⟨h1, h2, _⟩ := hp n (by simp)
    have : ∃ r, joinSlash (n :: p) = n ++ r := by cases p <;> simp [joinSlash]
    obtain ⟨r, hr⟩ := this
    rw [hr]
    cases n with
    | nil => exact absurd rfl h1
    | cons c n => rw [List.cons_append, List.head?_cons]; rintro h; cases h; simp at h2

theorem NormalPath.noSlash {p : Path} (hp : NormalPath p) : ∀ n ∈ p, '/' ∉ n := fun n hn => (hp n hn).2.1

theorem join_ne {p : Path} (hp : NormalPath p) (h : p ≠ []) : joinSlash p ≠ [] := by
  intro he
  have := split_join hp.noSlash h
  rw [he] at this
  have h1 := hp [] (by rw [← this]; simp [splitSlash])
  exact h1.1 rfl

/-- `**/n` on paths. -/
theorem anyDepth_path {glob : Str → Str → Bool} (hg : GlobLaws glob) {n : Name} (hn : LitName n) {p : Path} (hp : NormalPath p) :
    glob (str "**/" ++ n) (joinSlash p) = true ↔ p.getLast? = some n := by
  have hh : n.head? ≠ some '/' := by
    intro h; cases n with
    | nil => simp at h
    | cons c n => simp at h; subst h; exact hn.noSlash (by simp)
  rw [hg.anyDepth n _ hn.literal hn.ne hh (pathText_join hp) (head_join hp)]
  by_cases hpe : p = []
  · subst hpe
    simp only [joinSlash, List.getLast?_nil, reduceCtorEq, iff_false, not_or]
    exact ⟨fun h => hn.ne h.symm, fun h => by have := h.length_le; simp at this⟩
  have hs := split_join hp.noSlash hpe
  constructor
  · rintro (h | ⟨u, h⟩)
    · rw [h, split_noSlash hn.noSlash] at hs; rw [← hs]; rfl
    · rw [← h, split_append, split_noSlash hn.noSlash] at hs
      rw [← hs]; simp
  · intro h
    obtain ⟨a, rfl⟩ := List.getLast?_eq_some_iff.1 h
    by_cases ha : a = []
    · subst ha; left; rfl
    · right; exact ⟨joinSlash a, by rw [join_append ha (by simp)]; rfl⟩

/-- `**/n/**` on paths. -/
theorem anyDepthBelow_path {glob : Str → Str → Bool} (hg : GlobLaws glob) {n : Name} (hn : LitName n) {p : Path} (hp : NormalPath p) :
    glob (str "**/" ++ n ++ str "/**") (joinSlash p) = true ↔ n ∈ p.dropLast := by
  have hh : n.head? ≠ some '/' := by
    intro h; cases n with
    | nil => simp at h
    | cons c n => simp at h; subst h; exact hn.noSlash (by simp)
  rw [hg.anyDepthBelow n _ hn.literal hn.ne hh (pathText_join hp) (head_join hp)]
  by_cases hpe : p = []
  · subst hpe
    simp only [joinSlash, List.dropLast_nil, List.not_mem_nil, iff_false, not_or]
    exact ⟨fun h => by have := h.length_le; simp at this, fun h => by have := h.length_le; simp at this⟩
  have hs := split_join hp.noSlash hpe
  constructor
  · rintro (⟨v, h⟩ | ⟨u, v, h⟩)
    · have h' : n ++ '/' :: v = joinSlash p := by rw [← h]; simp
      rw [← h', split_append, split_noSlash hn.noSlash] at hs
      rw [← hs, List.singleton_append, List.dropLast_cons_of_ne_nil (splitSlash_ne_nil v)]; simp
    · have h' : u ++ '/' :: (n ++ '/' :: v) = joinSlash p := by rw [← h]; simp
      rw [← h', split_append, split_append, split_noSlash hn.noSlash] at hs
      rw [← hs, List.singleton_append, List.dropLast_append_of_ne_nil (by simp), List.dropLast_cons_of_ne_nil (splitSlash_ne_nil v)]; simp
  · intro h
    obtain ⟨a, b, hab⟩ := List.append_of_mem h
    have hl : p = a ++ n :: (b ++ [p.getLast hpe]) := by
      conv_lhs => rw [← List.dropLast_append_getLast hpe, hab]
      simp
    rw [hl]
    by_cases ha : a = []
    · subst ha
      left
      refine ⟨joinSlash (b ++ [p.getLast hpe]), ?_⟩
      have := join_append (a := [n]) (b := b ++ [p.getLast hpe]) (by simp) (by simp)
      simp only [List.singleton_append] at this
      rw [List.nil_append, this]; simp [joinSlash]
    · right
      refine ⟨joinSlash a, joinSlash (b ++ [p.getLast hpe]), ?_⟩
      rw [join_append ha (by simp)]
      have := join_append (a := [n]) (b := b ++ [p.getLast hpe]) (by simp) (by simp)
      simp only [List.singleton_append] at this
      rw [this]; simp [joinSlash]

/-- A literal relative path on paths. -/
theorem literal_path {glob : Str → Str → Bool} (hg : GlobLaws glob) {q p : Path} (hq : ∀ n ∈ q, Spec.PlainName n) (hqne : q ≠ []) (hp : NormalPath p) :
    (glob (joinSlash q) (joinSlash p) = true ↔ p = q) ∧ (glob (joinSlash q ++ str "/**") (joinSlash p) = true ↔ Below q p) := by
  have hlit : Literal (joinSlash q) := by
    have key : ∀ q : Path, (∀ n ∈ q, Literal n) → Literal (joinSlash q) := by
      intro q
      induction q with
      | nil => intro _; simp [joinSlash, Literal]
      | cons n q ih =>
        intro h
        cases q with
        | nil => simpa [joinSlash] using h n (by simp)
        | cons m r =>
          intro c hc
          simp only [joinSlash, List.mem_append, List.mem_cons] at hc
          rcases hc with hc | rfl | hc
          · exact h n (by simp) c hc
          · decide
          · exact ih (fun x hx => h x (by simp [hx])) c hc
    exact key q (fun n hn => (hq n hn).literal)
  have hqs := split_join (fun n hn => (hq n hn).noSlash) hqne
  constructor
  · rw [hg.lit _ _ hlit]
    constructor
    · intro h
      by_cases hpe : p = []
      · subst hpe
        have h1 : splitSlash (joinSlash q) = [[]] := by rw [← h]; rfl
        rw [hqs] at h1
        exact absurd rfl (hq [] (by rw [h1]; simp)).ne
      · rw [← split_join hp.noSlash hpe, h, hqs]
    · rintro rfl; rfl
  · rw [hg.below _ _ hlit (pathText_join hp)]
    constructor
    · rintro ⟨v, h⟩
      have h' : joinSlash q ++ '/' :: v = joinSlash p := by rw [← h]; simp
      have hpe : p ≠ [] := by rintro rfl; simp [joinSlash] at h'
      have := split_join hp.noSlash hpe
      rw [← h', split_append, hqs] at this
      exact ⟨splitSlash v, splitSlash_ne_nil v, this.symm⟩
    · rintro ⟨r, hr, rfl⟩
      exact ⟨joinSlash r, by rw [join_append hqne hr]; simp⟩

/-! ### what a line parses to -/

theorem squeeze_noSlash {s : Str} (h : '/' ∉ s) : squeeze s = s := by
  induction s with
  | nil => rfl
  | cons c s ih =>
    have hc : c ≠ '/' := by rintro rfl; simp at h
    simp only [squeeze, hc, false_and, if_false]
    rw [ih (by simp at h; exact h.2)]

theorem trim_id {c : Char} {s : Str} (h1 : isWs c = false) (h2 : ∀ d, (c :: s).getLast? = some d → isWs d = false) : trim (c :: s) = c :: s := by
  unfold trim
  rw [List.dropWhile_cons_of_neg (by simp [h1])]
  cases hr : (c :: s).reverse with
  | nil => simp at hr
  | cons d r =>
    have hd : (c :: s).getLast? = some d := by
      rw [← List.head?_reverse, hr]; rfl
    rw [List.dropWhile_cons_of_neg (by simp [h2 d hd]), ← hr, List.reverse_reverse]

theorem trim_eq_ws {s : Str} (h : trim s = s) : (∀ c, s.head? = some c → isWs c = false) ∧ (∀ d, s.getLast? = some d → isWs d = false) := by
  have hlen : ∀ l : Str, (l.dropWhile isWs).length ≤ l.length := fun l => (List.dropWhile_sublist _).length_le
  have h1 : s.dropWhile isWs = s := by
    have hl : (trim s).length = s.length := by rw [h]
    unfold trim at hl
    rw [List.length_reverse] at hl
    have a := hlen ((s.dropWhile isWs).reverse)
    rw [List.length_reverse] at a
    have b := hlen s
    exact (List.dropWhile_sublist _).eq_of_length (by omega)
  have h2 : (s.reverse.dropWhile isWs) = s.reverse := by
    have hl := h
    unfold trim at hl
    rw [h1] at hl
    rw [← List.reverse_inj, hl, List.reverse_reverse]
  constructor
  · intro c hc
    cases s with
    | nil => simp at hc
    | cons x s =>
      simp at hc; subst hc
      by_contra hn
      rw [List.dropWhile_cons_of_pos (by simpa using hn)] at h1
      have := congrArg List.length h1
      have b := hlen s
      simp at this; omega
  · intro d hd
    rw [← List.head?_reverse] at hd
    cases hr : s.reverse with
    | nil => rw [hr] at hd; simp at hd
    | cons x r =>
      rw [hr] at hd h2
      simp at hd; subst hd
      by_contra hn
      rw [List.dropWhile_cons_of_pos (by simpa using hn)] at h2
      have := congrArg List.length h2
      have b := hlen r
      simp at this; omega

theorem noEscSpace {s : Str} (h : '\\' ∉ s) : (str "\\ ").isSuffixOf s = false := by
  by_contra hc
  rw [Bool.not_eq_false, List.isSuffixOf_iff_suffix] at hc
  exact h (hc.subset (by decide))

theorem Literal.not_mem {s : Str} (h : Literal s) {c : Char} (hc : isGlobMeta c = true) : c ∉ s := by
  intro hm; rw [h c hm] at hc; cases hc

theorem Spec.PlainName.literal_facts {n : Name} (h : Spec.PlainName n) :
    '\\' ∉ n ∧ '!' ∉ n ∧ '*' ∉ n ∧ '?' ∉ n :=
  ⟨h.literal.not_mem (by decide), h.literal.not_mem (by decide), h.literal.not_mem (by decide), h.literal.not_mem (by decide)⟩

theorem head_ne_of_not_mem {s : Str} {c : Char} (h : c ∉ s) : s.head? ≠ some c := by
  intro hh; exact h (List.mem_of_mem_head? hh)

theorem getLast_append_ne {a b : Str} (hb : b ≠ []) : (a ++ b).getLast? = b.getLast? := by
  rw [List.getLast?_append]; cases h : b.getLast? with
  | none => exact absurd (List.getLast?_eq_none_iff.1 h) hb
  | some c => rfl

theorem getLast_ne_of_not_mem {s : Str} {c : Char} (h : c ∉ s) : s.getLast? ≠ some c := by
  intro hh; exact h (List.mem_of_getLast? hh)

/-- The rules of a literal line after the prefixes have been handled. -/
theorem parse_core (line t1 : Str) (neg : Bool) (htrim : trim line = line) (hne : line ≠ []) (hcom : line.head? ≠ some '#') (hesc : (str "\\ ").isSuffixOf line = false)
    (h1 : (if (str "\\!").isPrefixOf line || (!(str "\\!").isPrefixOf line && line.head? = some '!') then line.tail else line) = t1)
    (hneg : (!(str "\\!").isPrefixOf line && decide (line.head? = some '!')) = neg) (hstar : '*' ∉ line) (hq : '?' ∉ line) :
    parseIgnoreLine line =
      let t2 := squeeze t1
      let t3 := if t2.head? = some '/' then t2.tail else if !t2.contains '/' && !(str "**").isPrefixOf t2 then str "**/" ++ t2 else t2
      if t3.getLast? = some '/' then [⟨neg, trimEndSlash t3 ++ str "/**"⟩] else [⟨neg, t3 ++ str "/**"⟩, ⟨neg, t3⟩] := by
  unfold parseIgnoreLine
  simp only [htrim, hesc, Bool.false_eq_true, if_false, hne, hcom, or_self]
  simp only [hneg] at h1 ⊢
  rw [h1]
  have hs : line.contains '*' = false := by rw [← Bool.not_eq_true, List.contains_iff_mem]; exact hstar
  have hq' : line.contains '?' = false := by rw [← Bool.not_eq_true, List.contains_iff_mem]; exact hq
  simp only [hs, hq', Bool.not_false, Bool.and_true]
  generalize (if (squeeze t1).head? = some '/' then (squeeze t1).tail else if (!(squeeze t1).contains '/' && !(str "**").isPrefixOf (squeeze t1)) = true
    then str "**/" ++ squeeze t1 else squeeze t1) = t3
  by_cases h3 : t3.getLast? = some '/' <;> simp [h3]

theorem contains_false {s : Str} {c : Char} (h : c ∉ s) : s.contains c = false := by
  rw [← Bool.not_eq_true, List.contains_iff_mem]; exact h

theorem notPrefix_of_not_mem {p s : Str} {c : Char} (hc : c ∈ p) (h : c ∉ s) : p.isPrefixOf s = false := by
  by_contra hn
  rw [Bool.not_eq_false, List.isPrefixOf_iff_prefix] at hn
  exact h (hn.subset hc)

theorem parse_name {n : Name} (hn : Spec.PlainName n) : parseIgnoreLine n = [⟨false, str "**/" ++ n ++ str "/**"⟩, ⟨false, str "**/" ++ n⟩] := by
  obtain ⟨f1, f2, f3, f4⟩ := hn.literal_facts
  have hp : (str "\\!").isPrefixOf n = false := notPrefix_of_not_mem (c := '!') (by decide) f2
  rw [parse_core n n false hn.trimmed hn.ne hn.notComment (noEscSpace f1)
    (by simp [hp, head_ne_of_not_mem f2]) (by simp [hp, head_ne_of_not_mem f2]) f3 f4]
  simp only [squeeze_noSlash hn.noSlash, head_ne_of_not_mem hn.noSlash, if_false, contains_false hn.noSlash,
    notPrefix_of_not_mem (p := str "**") (c := '*') (by decide) f3, Bool.not_false, Bool.and_true, if_true]
  rw [getLast_append_ne hn.ne, if_neg (getLast_ne_of_not_mem hn.noSlash)]

theorem applyTwo (glob : Str → Str → Bool) (rel : Str) (ig neg : Bool) (a b : Str) :
    applyRules glob rel ig [⟨neg, a⟩, ⟨neg, b⟩] = if glob a rel || glob b rel then !neg else ig := by
  unfold applyRules
  simp only [List.foldl_cons, List.foldl_nil]
  cases glob a rel <;> cases glob b rel <;> simp

theorem mem_iff_dropLast_or {p : Path} {n : Name} : n ∈ p ↔ n ∈ p.dropLast ∨ p.getLast? = some n := by
  by_cases h : p = []
  · subst h; simp
  · conv_lhs => rw [← List.dropLast_append_getLast h]
    rw [List.mem_append, List.mem_singleton, List.getLast?_eq_some_getLast h, Option.some.injEq]
    constructor
    · rintro (h | h)
      · exact Or.inl h
      · exact Or.inr h.symm
    · rintro (h | h)
      · exact Or.inl h
      · exact Or.inr h.symm

/-- **C28**, a plain name hides the item of that name at every depth, and everything below it; nothing else. -/
theorem C28_name (glob : Str → Str → Bool) (hg : GlobLaws glob) (n : Name) (hn : Spec.PlainName n) (p : Path) (hp : NormalPath p) :
    Spec.LineHides glob n p ↔ n ∈ p := by
  unfold Spec.LineHides
  rw [parse_name hn, applyTwo]
  have h1 := anyDepthBelow_path hg hn.lit hp
  have h2 := anyDepth_path hg hn.lit hp
  rw [mem_iff_dropLast_or, ← h1, ← h2]
  cases glob (str "**/" ++ n ++ str "/**") (joinSlash p) <;> cases glob (str "**/" ++ n) (joinSlash p) <;> simp

/-- **C28**, `!name` re-includes exactly what `name` hides and hides nothing. -/
theorem C28_negated (glob : Str → Str → Bool) (hg : GlobLaws glob) (n : Name) (hn : Spec.PlainName n) (p : Path) (hp : NormalPath p) :
    (Spec.LineShows glob ('!' :: n) p ↔ n ∈ p) ∧ ¬ Spec.LineHides glob ('!' :: n) p := by
  obtain ⟨f1, f2, f3, f4⟩ := hn.literal_facts
  have hw := trim_eq_ws hn.trimmed
  have hpre : (str "\\!").isPrefixOf ('!' :: n) = false := by
    rw [show str "\\!" = '\\' :: ['!'] from rfl, List.isPrefixOf]; simp
  have hparse : parseIgnoreLine ('!' :: n) = [⟨true, str "**/" ++ n ++ str "/**"⟩, ⟨true, str "**/" ++ n⟩] := by
    rw [parse_core ('!' :: n) n true (trim_id (by decide) (fun d hd => by
        cases n with
        | nil => exact absurd rfl hn.ne
        | cons x n => rw [List.getLast?_cons_cons] at hd; exact hw.2 d hd))
      (by simp) (by simp) (noEscSpace (by simp [f1])) (by simp [hpre]) (by simp [hpre]) (by simp [f3]) (by simp [f4])]
    simp only [squeeze_noSlash hn.noSlash, head_ne_of_not_mem hn.noSlash, if_false, contains_false hn.noSlash,
      notPrefix_of_not_mem (p := str "**") (c := '*') (by decide) f3, Bool.not_false, Bool.and_true, if_true]
    rw [getLast_append_ne hn.ne, if_neg (getLast_ne_of_not_mem hn.noSlash)]
  unfold Spec.LineHides Spec.LineShows
  rw [hparse, applyTwo, applyTwo]
  have h1 := anyDepthBelow_path hg hn.lit hp
  have h2 := anyDepth_path hg hn.lit hp
  rw [mem_iff_dropLast_or, ← h1, ← h2]
  cases glob (str "**/" ++ n ++ str "/**") (joinSlash p) <;> cases glob (str "**/" ++ n) (joinSlash p) <;> simp

/-- **C28**, `\!name` is not a negation: its rules are those of the name `!name`. -/
theorem C28_escaped (n : Name) (hn : Spec.PlainName n) :
    parseIgnoreLine ('\\' :: '!' :: n) = [⟨false, str "**/!" ++ n ++ str "/**"⟩, ⟨false, str "**/!" ++ n⟩] := by
  obtain ⟨f1, f2, f3, f4⟩ := hn.literal_facts
  have hw := trim_eq_ws hn.trimmed
  have hpre : (str "\\!").isPrefixOf ('\\' :: '!' :: n) = true := by
    rw [List.isPrefixOf_iff_prefix]; exact ⟨n, rfl⟩
  have hesc : (str "\\ ").isSuffixOf ('\\' :: '!' :: n) = false := by
    by_contra hc
    rw [Bool.not_eq_false, List.isSuffixOf_iff_suffix] at hc
    obtain ⟨u, hu⟩ := hc
    have : n.getLast? = some ' ' := by
      have h := congrArg List.getLast? hu
      rw [getLast_append_ne (by simp)] at h
      cases n with
      | nil => exact absurd rfl hn.ne
      | cons x n => rw [List.getLast?_cons_cons, List.getLast?_cons_cons] at h; rw [← h]; rfl
    have := hw.2 ' ' this
    simp [isWs] at this
  have hns : '/' ∉ '!' :: n := by simp [hn.noSlash]
  rw [parse_core ('\\' :: '!' :: n) ('!' :: n) false (trim_id (by decide) (fun d hd => by
      cases n with
      | nil => exact absurd rfl hn.ne
      | cons x n => rw [List.getLast?_cons_cons, List.getLast?_cons_cons] at hd; exact hw.2 d hd))
    (by simp) (by simp) hesc (by simp [hpre]) (by simp [hpre]) (by simp [f3]) (by simp [f4])]
  simp only [squeeze_noSlash hns, head_ne_of_not_mem hns, if_false, contains_false hns,
    notPrefix_of_not_mem (p := str "**") (s := '!' :: n) (c := '*') (by decide) (by simp [f3]), Bool.not_false, Bool.and_true, if_true]
  rw [getLast_append_ne (by simp), if_neg (getLast_ne_of_not_mem hns)]
  rfl

/-- **C28**, `/name` hides the item of that name directly in the directory of the ignore file, and everything below it; nothing else. -/
theorem C28_anchored (glob : Str → Str → Bool) (hg : GlobLaws glob) (n : Name) (hn : Spec.PlainName n) (p : Path) (hp : NormalPath p) :
    Spec.LineHides glob ('/' :: n) p ↔ p.head? = some n := by
  obtain ⟨f1, f2, f3, f4⟩ := hn.literal_facts
  have hw := trim_eq_ws hn.trimmed
  have hpre : (str "\\!").isPrefixOf ('/' :: n) = false := notPrefix_of_not_mem (c := '!') (by decide) (by simp [f2])
  have hsq : squeeze ('/' :: n) = '/' :: n := by
    simp only [squeeze, head_ne_of_not_mem hn.noSlash, and_false, if_false, squeeze_noSlash hn.noSlash]
  have hparse : parseIgnoreLine ('/' :: n) = [⟨false, n ++ str "/**"⟩, ⟨false, n⟩] := by
    rw [parse_core ('/' :: n) ('/' :: n) false (trim_id (by decide) (fun d hd => by
        cases n with
        | nil => exact absurd rfl hn.ne
        | cons x n => rw [List.getLast?_cons_cons] at hd; exact hw.2 d hd))
      (by simp) (by simp) (noEscSpace (by simp [f1])) (by simp [hpre]) (by simp [hpre]) (by simp [f3]) (by simp [f4])]
    simp only [hsq, List.head?_cons, if_true, List.tail_cons]
    rw [if_neg (getLast_ne_of_not_mem hn.noSlash)]
  obtain ⟨h1, h2⟩ := literal_path hg (q := [n]) (by simpa using hn) (by simp) hp
  unfold Spec.LineHides
  rw [hparse, applyTwo]
  have : p.head? = some n ↔ Below [n] p ∨ p = [n] := by
    cases p with
    | nil => simp [Below]
    | cons x r =>
      simp only [List.head?_cons, Option.some.injEq, Below, List.singleton_append, List.cons.injEq]
      constructor
      · rintro rfl
        by_cases hr : r = []
        · exact Or.inr ⟨rfl, hr⟩
        · exact Or.inl ⟨r, hr, rfl, rfl⟩
      · rintro (⟨_, _, rfl, _⟩ | ⟨rfl, _⟩) <;> rfl
  rw [this, ← h1, ← h2]
  simp only [joinSlash]
  cases glob (n ++ str "/**") (joinSlash p) <;> cases glob n (joinSlash p) <;> simp

/-- **C28**, `name/` hides everything strictly below the directory of that name next to the ignore file, and nothing else. -/
theorem C28_directory (glob : Str → Str → Bool) (hg : GlobLaws glob) (n : Name) (hn : Spec.PlainName n) (p : Path) (hp : NormalPath p) :
    Spec.LineHides glob (n ++ ['/']) p ↔ Below [n] p := by
  obtain ⟨f1, f2, f3, f4⟩ := hn.literal_facts
  have hw := trim_eq_ws hn.trimmed
  have hpre : (str "\\!").isPrefixOf (n ++ ['/']) = false := notPrefix_of_not_mem (c := '!') (by decide) (by simp [f2])
  have hsq : ∀ s : Str, '/' ∉ s → squeeze (s ++ ['/']) = s ++ ['/'] := by
    intro s
    induction s with
    | nil => intro _; rfl
    | cons c s ih =>
      intro h
      have hc : c ≠ '/' := by rintro rfl; simp at h
      simp only [List.cons_append, squeeze, hc, false_and, if_false]
      rw [ih (by simp at h; exact h.2)]
  have hhead : (n ++ ['/']).head? ≠ some '/' ∧ (n ++ ['/']).head? ≠ some '#' ∧ (n ++ ['/']).head? ≠ some '!' := by
    have := hn.ne; have h1 := hn.noSlash; have h2 := hn.notComment
    cases n with
    | nil => exact absurd rfl this
    | cons x n =>
      simp only [List.cons_append, List.head?_cons, Option.some.injEq, ne_eq] at h2 ⊢
      refine ⟨?_, h2, ?_⟩
      · rintro rfl; simp at h1
      · rintro rfl; simp at f2
  have htrim : trim (n ++ ['/']) = n ++ ['/'] := by
    have := hn.ne
    cases n with
    | nil => exact absurd rfl this
    | cons x n =>
      refine trim_id (hw.1 x rfl) (fun d hd => ?_)
      have h1 : ((x :: n) ++ ['/']).getLast? = some '/' := List.getLast?_concat
      have h2 : ((x :: n) ++ ['/']).getLast? = some d := hd
      rw [h1] at h2; cases h2; decide
  have hte : trimEndSlash (n ++ ['/']) = n := by
    unfold trimEndSlash
    rw [List.reverse_append]
    simp only [List.reverse_cons, List.reverse_nil, List.nil_append, List.singleton_append]
    rw [List.dropWhile_cons_of_pos (by simp)]
    cases hr : n.reverse with
    | nil => rw [List.reverse_eq_nil_iff] at hr; exact absurd hr hn.ne
    | cons x r =>
      have hx : x ≠ '/' := by
        rintro rfl
        exact hn.noSlash (List.mem_reverse.1 (by rw [hr]; simp))
      rw [List.dropWhile_cons_of_neg (by simp [hx]), ← hr, List.reverse_reverse]
  have hparse : parseIgnoreLine (n ++ ['/']) = [⟨false, n ++ str "/**"⟩] := by
    rw [parse_core (n ++ ['/']) (n ++ ['/']) false htrim (by simp) hhead.2.1 (noEscSpace (by simp [f1]))
      (by simp only [hpre, hhead.2.2]; simp) (by simp only [hpre, hhead.2.2]; simp) (by simp [f3]) (by simp [f4])]
    simp only [hsq n hn.noSlash, hhead.1, if_false]
    have : (n ++ ['/']).contains '/' = true := by rw [List.contains_iff_mem]; simp
    simp only [this, Bool.not_true, Bool.false_and, Bool.false_eq_true, if_false]
    rw [if_pos (by simp), hte]
  obtain ⟨_, h2⟩ := literal_path hg (q := [n]) (by simpa using hn) (by simp) hp
  unfold Spec.LineHides
  rw [hparse, ← h2]
  simp only [applyRules, List.foldl_cons, List.foldl_nil, joinSlash]
  cases glob (n ++ str "/**") (joinSlash p) <;> simp

/-- **C28**, blank lines add no rule. -/
theorem C28_blank (line : Str) (h : ∀ c ∈ line, Spec.white c = true) : parseIgnoreLine line = [] := by
  rw [← isWs_eq] at h
  have ht : trim line = [] := by
    unfold trim
    have : line.dropWhile isWs = [] := by
      clear * - h
      induction line with
      | nil => rfl
      | cons c r ih => rw [List.dropWhile_cons_of_pos (h c (by simp))]; exact ih (fun d hd => h d (by simp [hd]))
    rw [this]; rfl
  have he : (str "\\ ").isSuffixOf line = false := by
    refine noEscSpace (fun hm => ?_)
    have := h _ hm
    simp [isWs] at this
  unfold parseIgnoreLine
  simp [ht, he]

theorem mem_dropWs {s : Str} {c : Char} (h : c ∈ s) (hc : isWs c = false) : c ∈ s.dropWhile isWs := by
  induction s with
  | nil => cases h
  | cons d s ih =>
    by_cases hd : isWs d = true
    · rw [List.dropWhile_cons_of_pos hd]
      rcases List.mem_cons.1 h with rfl | h
      · rw [hc] at hd; cases hd
      · exact ih h
    · rw [List.dropWhile_cons_of_neg hd]; exact h

theorem mem_trim {s : Str} {c : Char} (h : c ∈ s) (hc : isWs c = false) : c ∈ trim s := by
  unfold trim
  rw [List.mem_reverse]
  exact mem_dropWs (List.mem_reverse.2 (mem_dropWs h hc)) hc

/-- **C28**, comment lines (possibly indented) add no rule. -/
theorem C28_comment (line : Str) (h : (trim line).head? = some '#') : parseIgnoreLine line = [] := by
  have hne : (trim line).length ≠ 1 ∨ (str "\\ ").isSuffixOf line = false := by
    by_contra hc
    rw [not_or, not_not, Bool.not_eq_false, List.isSuffixOf_iff_suffix] at hc
    obtain ⟨c, hl⟩ := List.length_eq_one_iff.1 hc.1
    have := mem_trim (hc.2.subset (by decide : '\\' ∈ str "\\ ")) (by decide)
    rw [hl] at this h
    simp at this h
    subst h; cases this
  unfold parseIgnoreLine
  simp only
  split
  · next hs =>
    rcases hne with hne | hne
    · cases ht : trim line with
      | nil => rw [ht] at h; simp at h
      | cons c r =>
        rw [ht] at h hne
        cases r with
        | nil => simp at hne
        | cons d r =>
          simp only [List.head?_cons, Option.some.injEq] at h
          subst h
          simp
    · rw [hne] at hs; cases hs
  · simp [h]

/-- **C28 refuted** against gitignore's documented meaning of a trailing slash ("if there is a separator at the end only, the pattern matches at any level"):
`build/` does not hide `sub/build/x`. -/
theorem C28_refuted_trailing_slash : ¬ Spec.LineHides globRef (str "build/") [str "sub", str "build", str "x"] ∧
    Spec.LineHides globRef (str "build/") [str "build", str "x"] := by decide

/-! ### files -/

theorem splitNl_append (a b : Str) (h : '\n' ∉ a) : splitNl (a ++ '\n' :: b) = a :: splitNl b := by
  induction a with
  | nil => simp [splitNl]
  | cons c a ih =>
    have hc : c ≠ '\n' := by rintro rfl; simp at h
    simp only [List.cons_append, splitNl, hc, if_false]
    rw [ih (by simp at h; exact h.2)]

theorem splitNl_ne (s : Str) : splitNl s ≠ [] := by
  cases s with
  | nil => simp [splitNl]
  | cons c s =>
    simp only [splitNl]
    split
    · simp
    · split <;> simp

/-- **C28**, a file is its lines: whatever the line ends (LF or CR LF), the rules of a file are the rules of its lines in order. -/
theorem C28_file (ls : List (Str × Bool)) (h : ∀ l ∈ ls, '\n' ∉ l.1 ∧ l.1.getLast? ≠ some '\r') :
    parseIgnoreContent (ls.flatMap (fun l => l.1 ++ (if l.2 then ['\r', '\n'] else ['\n']))) = ls.flatMap (fun l => parseIgnoreLine l.1) := by
  have key : lines (ls.flatMap (fun l => l.1 ++ (if l.2 then ['\r', '\n'] else ['\n']))) = ls.map (·.1) := by
    induction ls with
    | nil => rfl
    | cons l ls ih =>
      obtain ⟨h1, h2⟩ := h l (by simp)
      have ih := ih (fun x hx => h x (by simp [hx]))
      rw [List.flatMap_cons]
      obtain ⟨w, hw, hw'⟩ : ∃ w, l.1 ++ (if l.2 then ['\r', '\n'] else ['\n']) = w ++ ['\n'] ∧ ('\n' ∉ w ∧ stripCr w = l.1) := by
        cases l.2 with
        | true =>
          refine ⟨l.1 ++ ['\r'], by simp, by simp [h1], ?_⟩
          simp [stripCr]
        | false => exact ⟨l.1, rfl, h1, by simp [stripCr, h2]⟩
      rw [hw, List.append_assoc, List.singleton_append]
      generalize ls.flatMap (fun l => l.1 ++ (if l.2 then ['\r', '\n'] else ['\n'])) = t at ih ⊢
      unfold lines at ih ⊢
      simp only at ih ⊢
      rw [splitNl_append _ _ hw'.1]
      have hne := splitNl_ne t
      rw [List.dropLast_cons_of_ne_nil hne]
      have hl : (w :: splitNl t).getLast? = (splitNl t).getLast? := by
        cases hs : splitNl t with
        | nil => exact absurd hs hne
        | cons x r => rw [List.getLast?_cons_cons]
      rw [hl, List.map_cons, List.cons_append, ih, hw'.2, List.map_cons]
  unfold parseIgnoreContent
  rw [key, List.flatMap_map]

/-! ### the slash loop -/

theorem squeeze_replace (s : Str) : squeeze (replaceSlashes s) = squeeze s := by
  have hhead : ∀ s : Str, (replaceSlashes s).head? = s.head? := by
    intro s
    unfold replaceSlashes
    split <;> rfl
  induction s using replaceSlashes.induct with
  | case1 r ih =>
    rw [replaceSlashes]
    have h2 : squeeze ('/' :: '/' :: r) = squeeze ('/' :: r) := by simp [squeeze]
    rw [h2]
    simp only [squeeze, hhead, ih]
  | case2 c r hc ih =>
    rw [replaceSlashes.eq_2 c r hc]
    simp only [squeeze, hhead, ih]
  | case3 => rfl

/-- The loop `while t.contains("//") { t = t.replace("//", "/") }` ends, and with the text the model uses. -/
theorem squeeze_is_loop (s : Str) : ∃ k, (replaceSlashes^[k] s) = squeeze s ∧ ¬ ['/', '/'] <:+: squeeze s ∧
    ∀ j < k, ['/', '/'] <:+: (replaceSlashes^[j] s) := by
  have hno : ∀ s : Str, ¬ ['/', '/'] <:+: s → squeeze s = s := by
    intro s
    induction s with
    | nil => intro _; rfl
    | cons c r ih =>
      intro h
      have hr : ¬ ['/', '/'] <:+: r := fun hi => h (hi.trans (List.suffix_cons _ _).isInfix)
      simp only [squeeze]
      rw [if_neg, ih hr]
      rintro ⟨rfl, hh⟩
      cases r with
      | nil => simp at hh
      | cons d r => simp at hh; subst hh; exact h ⟨[], r, by simp⟩
  have hlen : ∀ s : Str, (replaceSlashes s).length ≤ s.length := by
    intro s
    induction s using replaceSlashes.induct with
    | case1 r ih => rw [replaceSlashes]; simp; omega
    | case2 c r hc ih => rw [replaceSlashes.eq_2 c r hc]; simp; omega
    | case3 => simp [replaceSlashes]
  have hlt : ∀ s : Str, ['/', '/'] <:+: s → (replaceSlashes s).length < s.length := by
    intro s
    induction s using replaceSlashes.induct with
    | case1 r ih => intro _; rw [replaceSlashes]; have := hlen r; simp; omega
    | case2 c r hc ih =>
      intro h
      rw [replaceSlashes.eq_2 c r hc]
      have : ['/', '/'] <:+: r := by
        obtain ⟨u, v, h⟩ := h
        cases u with
        | nil =>
          simp only [List.nil_append, List.cons_append, List.cons.injEq] at h
          obtain ⟨rfl, rfl⟩ := h
          exact (hc _ rfl rfl).elim
        | cons x u =>
          simp only [List.cons_append, List.cons.injEq] at h
          exact ⟨u, v, by simpa using h.2⟩
      have := ih this
      simp; omega
    | case3 => intro h; have := h.length_le; simp at this
  have hclean : ∀ s : Str, ¬ ['/', '/'] <:+: squeeze s := by
    intro s
    induction s with
    | nil => intro h; have := h.length_le; simp [squeeze] at this
    | cons c r ih =>
      simp only [squeeze]
      split
      · exact ih
      · next hc =>
        rintro ⟨u, v, h⟩
        cases u with
        | nil =>
          simp only [List.nil_append, List.cons_append, List.cons.injEq] at h
          obtain ⟨rfl, h⟩ := h
          apply hc
          refine ⟨rfl, ?_⟩
          have : ∀ s : Str, (squeeze s).head? = s.head? := by
            intro s
            induction s with
            | nil => rfl
            | cons c r ih =>
              simp only [squeeze]
              split
              · next h => rw [ih, h.2, h.1]; rfl
              · rfl
          rw [← this r, ← h]; rfl
        | cons x u =>
          simp only [List.cons_append, List.cons.injEq] at h
          exact ih ⟨u, v, by simpa using h.2⟩
  have main : ∀ (n : Nat) (s : Str), s.length ≤ n → ∃ k, (replaceSlashes^[k] s) = squeeze s ∧ ∀ j < k, ['/', '/'] <:+: (replaceSlashes^[j] s) := by
    intro n
    induction n with
    | zero =>
      intro s hs
      have : s = [] := List.length_eq_zero_iff.1 (by omega)
      subst this
      exact ⟨0, rfl, fun j hj => by omega⟩
    | succ n ih =>
      intro s hs
      by_cases h : ['/', '/'] <:+: s
      · obtain ⟨k, h1, h2⟩ := ih (replaceSlashes s) (by have := hlt s h; omega)
        refine ⟨k + 1, by rw [Function.iterate_succ_apply, h1, squeeze_replace], fun j hj => ?_⟩
        cases j with
        | zero => exact h
        | succ j => rw [Function.iterate_succ_apply]; exact h2 j (by omega)
      · exact ⟨0, (hno s h).symm, fun j hj => by omega⟩
  obtain ⟨k, h1, h2⟩ := main s.length s le_rfl
  exact ⟨k, h1, hclean s, h2⟩

/-! Non-vacuity. -/
example : Spec.PlainName (str "node_modules") ∧ Spec.PlainName (str "a b.txt") := by decide
example : Spec.LineHides globRef (str "target") [str "x", str "target", str "debug"] ∧ ¬ Spec.LineHides globRef (str "/target") [str "x", str "target"] ∧
    Spec.LineHides globRef (str "  /target ") [str "target"] := by decide
example : parseIgnoreContent (str "# c\r\n\nfoo\n!bar/") = parseIgnoreLine (str "foo") ++ parseIgnoreLine (str "!bar/") := by decide

end SB
