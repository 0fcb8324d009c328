import Verif.Props.IgnoreBang

/-! # C28: an exclamation mark re-includes what the line without it hides, for every line -/

namespace SB

/-- A line that is a pattern of its own: not blank, no comment, no blanks around it, and no exclamation mark of its own at the beginning. -/
structure Spec.PatternLine (l : Str) : Prop where
  ne : l ≠ []
  trimmed : trim l = l
  notComment : l.head? ≠ some '#'
  notNegated : l.head? ≠ some '!'
  notEscaped : ¬ str "\\!" <+: l

instance (l : Str) : Decidable (Spec.PatternLine l) :=
  decidable_of_iff (l ≠ [] ∧ trim l = l ∧ l.head? ≠ some '#' ∧ l.head? ≠ some '!' ∧ ¬ str "\\!" <+: l)
    ⟨fun ⟨a, b, c, d, e⟩ => ⟨a, b, c, d, e⟩, fun ⟨a, b, c, d, e⟩ => ⟨a, b, c, d, e⟩⟩

theorem suffix_blank {l : Str} (h : trim l = l) : (str "\\ ").isSuffixOf l = false := by
  by_contra hc
  rw [Bool.not_eq_false, List.isSuffixOf_iff_suffix] at hc
  obtain ⟨u, hu⟩ := hc
  have := (trim_eq_ws h).2 ' ' (by rw [← hu, getLast_append_ne (by simp [str])]; rfl)
  simp [isWs] at this

/-- The rules of `!line` are those of the line, negated. -/
theorem parse_negated {l : Str} (h : Spec.PatternLine l) : parseIgnoreLine ('!' :: l) = (parseIgnoreLine l).map (fun r => { r with negate := true }) ∧ ∀ r ∈ parseIgnoreLine l, r.negate = false := by
  have ht : trim ('!' :: l) = '!' :: l := trim_id (by decide) (fun d hd => by
    obtain ⟨c, r, rfl⟩ := List.exists_cons_of_ne_nil h.ne
    rw [List.getLast?_cons_cons] at hd
    exact (trim_eq_ws h.trimmed).2 d hd)
  have hp : (str "\\!").isPrefixOf l = false := by
    rw [← Bool.not_eq_true, List.isPrefixOf_iff_prefix]; exact h.notEscaped
  have hp' : (str "\\!").isPrefixOf ('!' :: l) = false := by
    rw [show str "\\!" = '\\' :: ['!'] from rfl, List.isPrefixOf]; simp
  have hs : ('!' :: l).contains '*' = l.contains '*' := by simp
  have hq : ('!' :: l).contains '?' = l.contains '?' := by simp
  unfold parseIgnoreLine
  simp only [ht, h.trimmed, suffix_blank ht, suffix_blank h.trimmed, Bool.false_eq_true, if_false, h.ne, h.notComment, or_self, hp, hp', Bool.not_false, Bool.true_and, hs, hq,
    h.notNegated, decide_false, decide_true, Bool.or_false, Bool.or_true, if_true, List.tail_cons, List.head?_cons, Option.some.injEq, reduceCtorEq, show ('!' = '#') = False from by decide]
  generalize (if (squeeze l).head? = some '/' then (squeeze l).tail else if (!(squeeze l).contains '/' && !(str "**").isPrefixOf (squeeze l)) = true
    then str "**/" ++ squeeze l else squeeze l) = t3
  constructor
  · split <;> simp
  · split <;> simp

theorem fold_negated (glob : Str → Str → Bool) (rel : Str) : ∀ (rs : List IgnorePattern), (∀ r ∈ rs, r.negate = false) → ∀ ig,
    applyRules glob rel (!ig) (rs.map (fun r => { r with negate := true })) = !applyRules glob rel ig rs
  | [], _, _ => rfl
  | r :: rs, h, ig => by
    have ih := fold_negated glob rel rs (fun r hr => h r (by simp [hr]))
    have hr := h r (by simp)
    unfold applyRules at ih ⊢
    simp only [List.map_cons, List.foldl_cons, hr, Bool.not_true, Bool.not_false]
    cases glob r.pattern rel with
    | true => simpa using ih true
    | false => simpa using ih ig

/-- **C28**, for every line and every matcher: `!line` re-includes exactly what the line hides, and hides nothing. -/
theorem C28_negation (glob : Str → Str → Bool) (l : Str) (h : Spec.PatternLine l) (p : Path) :
    (Spec.LineShows glob ('!' :: l) p ↔ Spec.LineHides glob l p) ∧ ¬ Spec.LineHides glob ('!' :: l) p := by
  obtain ⟨h1, h2⟩ := parse_negated h
  unfold Spec.LineShows Spec.LineHides
  rw [h1]
  have := fold_negated glob (joinSlash p) _ h2 false
  rw [Bool.not_false] at this
  refine ⟨by rw [this]; simp, ?_⟩
  have key : ∀ rs : List IgnorePattern, applyRules glob (joinSlash p) false (rs.map (fun r => { r with negate := true })) = false := by
    intro rs
    induction rs with
    | nil => rfl
    | cons r rs ih =>
      unfold applyRules at ih ⊢
      simp only [List.map_cons, List.foldl_cons, Bool.not_true, ite_self]
      exact ih
  rw [key]
  simp

example : Spec.PatternLine (str "/a/b*/") ∧ Spec.LineHides globRef (str "/a/b*/") [str "a", str "bc", str "x"] ∧ Spec.LineShows globRef (str "!/a/b*/") [str "a", str "bc", str "x"] ∧
    ¬ Spec.LineShows globRef (str "!/a/b*/") [str "a", str "c", str "x"] := by
  refine ⟨by decide, by decide, ?_, ?_⟩ <;> unfold Spec.LineShows <;> decide

theorem squeeze_head (s : Str) : (squeeze s).head? = s.head? := by
  induction s with
  | nil => rfl
  | cons c r ih =>
    rw [squeeze]
    split
    · next h => rw [ih, h.2, List.head?_cons, h.1]
    · rfl

theorem mem_squeeze {c : Char} (s : Str) : c ∈ squeeze s ↔ c ∈ s := by
  induction s with
  | nil => simp [squeeze]
  | cons d r ih =>
    rw [squeeze]
    split
    · next h =>
      rw [ih, List.mem_cons]
      constructor
      · exact .inr
      · rintro (rfl | h')
        · rw [h.1]; exact List.mem_of_mem_head? h.2
        · exact h'
    · rw [List.mem_cons, List.mem_cons, ih]

/-- **C28**, for every line and every matcher: a slash at the beginning makes no difference to a line that has one elsewhere; such a line is relative to the directory of its file anyway. -/
theorem C28_slash_inside (glob : Str → Str → Bool) (l : Str) (h : Spec.PatternLine l) (hs : '/' ∈ l) (hh : l.head? ≠ some '/') (p : Path) :
    Spec.LineHides glob ('/' :: l) p ↔ Spec.LineHides glob l p := by
  have ht : trim ('/' :: l) = '/' :: l := trim_id (by decide) (fun d hd => by
    obtain ⟨c, r, rfl⟩ := List.exists_cons_of_ne_nil h.ne
    rw [List.getLast?_cons_cons] at hd
    exact (trim_eq_ws h.trimmed).2 d hd)
  have hp : (str "\\!").isPrefixOf l = false := by
    rw [← Bool.not_eq_true, List.isPrefixOf_iff_prefix]; exact h.notEscaped
  have hp' : (str "\\!").isPrefixOf ('/' :: l) = false := by
    rw [show str "\\!" = '\\' :: ['!'] from rfl, List.isPrefixOf]; simp
  have hst : ('/' :: l).contains '*' = l.contains '*' := by simp
  have hq : ('/' :: l).contains '?' = l.contains '?' := by simp
  have hsq : squeeze ('/' :: l) = '/' :: squeeze l := squeeze_cons (.inr hh)
  have hc : (squeeze l).contains '/' = true := by rw [List.contains_iff_mem, mem_squeeze]; exact hs
  have hparse : parseIgnoreLine ('/' :: l) = parseIgnoreLine l := by
    unfold parseIgnoreLine
    simp only [ht, h.trimmed, suffix_blank ht, suffix_blank h.trimmed, Bool.false_eq_true, if_false, h.ne, h.notComment, or_self, hp, hp', Bool.not_false, Bool.true_and, hst, hq,
      h.notNegated, decide_false, Bool.or_false, if_true, List.tail_cons, List.head?_cons, Option.some.injEq, reduceCtorEq, show ('/' = '#') = False from by decide,
      show ('/' = '!') = False from by decide, hsq, squeeze_head, hh, hc, Bool.not_true, Bool.false_and]
  unfold Spec.LineHides
  rw [hparse]

example : Spec.PatternLine (str "a/b*") ∧ Spec.LineHides globRef (str "/a/b*") [str "a", str "bc"] ∧ Spec.LineHides globRef (str "a/b*") [str "a", str "bc"] ∧
    ¬ Spec.LineHides globRef (str "a/b*") [str "d", str "a", str "bc"] ∧ Spec.LineHides globRef (str "b*") [str "d", str "a", str "bc"] ∧ ¬ Spec.LineHides globRef (str "/b*") [str "d", str "a", str "bc"] :=
  ⟨by decide, by decide, by decide, by decide, by decide, by decide⟩

/-! ### files -/

/-- The text of a file with the given lines. -/
def Spec.fileOf (ls : List Str) : Str := ls.flatMap (fun l => l ++ ['\n'])

/-- The rules of a file hide the item at relative path `p`. -/
def Spec.FileHides (glob : Str → Str → Bool) (content : Str) (p : Path) : Prop := applyRules glob (joinSlash p) false (parseIgnoreContent content) = true

instance (glob : Str → Str → Bool) (c : Str) (p : Path) : Decidable (Spec.FileHides glob c p) := by unfold Spec.FileHides; infer_instance

theorem parse_fileOf {ls : List Str} (h : ∀ l ∈ ls, '\n' ∉ l ∧ l.getLast? ≠ some '\r') : parseIgnoreContent (Spec.fileOf ls) = ls.flatMap parseIgnoreLine := by
  have := C28_file (ls.map (fun l => (l, false))) (fun x hx => by
    obtain ⟨l, hl, rfl⟩ := List.mem_map.1 hx
    exact h l hl)
  rw [List.flatMap_map, List.flatMap_map] at this
  simpa [Spec.fileOf] using this

theorem fold_plain (glob : Str → Str → Bool) (rel : Str) : ∀ (rs : List IgnorePattern), (∀ r ∈ rs, r.negate = false) → ∀ ig,
    applyRules glob rel ig rs = (ig || applyRules glob rel false rs)
  | [], _, ig => by simp [applyRules]
  | r :: rs, h, ig => by
    have hr := h r (by simp)
    have ih := fold_plain glob rel rs (fun r hr => h r (by simp [hr]))
    unfold applyRules at ih ⊢
    simp only [List.foldl_cons, hr, Bool.not_false]
    cases glob r.pattern rel with
    | true => rw [if_pos rfl, if_pos rfl, ih true]; simp
    | false => simpa using ih ig

/-- **C28**, for every file and every matcher, a further line adds what it hides. -/
theorem C28_line_added (glob : Str → Str → Bool) (ls : List Str) (l : Str) (h : ∀ x ∈ ls ++ [l], '\n' ∉ x ∧ x.getLast? ≠ some '\r') (hl : Spec.PatternLine l) (p : Path) :
    Spec.FileHides glob (Spec.fileOf (ls ++ [l])) p ↔ Spec.FileHides glob (Spec.fileOf ls) p ∨ Spec.LineHides glob l p := by
  unfold Spec.FileHides Spec.LineHides
  rw [parse_fileOf h, parse_fileOf (fun x hx => h x (by simp [hx]))]
  have : applyRules glob (joinSlash p) false ((ls ++ [l]).flatMap parseIgnoreLine) = applyRules glob (joinSlash p) (applyRules glob (joinSlash p) false (ls.flatMap parseIgnoreLine)) (parseIgnoreLine l) := by
    simp [applyRules, List.foldl_append]
  rw [this, fold_plain glob _ _ (parse_negated hl).2, Bool.or_eq_true]

/-- **C28**, for every file and every matcher, a further line `!line` takes back what the line hides, whatever lines hid it. -/
theorem C28_line_negated (glob : Str → Str → Bool) (ls : List Str) (l : Str) (h : ∀ x ∈ ls ++ ['!' :: l], '\n' ∉ x ∧ x.getLast? ≠ some '\r') (hl : Spec.PatternLine l) (p : Path) :
    Spec.FileHides glob (Spec.fileOf (ls ++ ['!' :: l])) p ↔ Spec.FileHides glob (Spec.fileOf ls) p ∧ ¬ Spec.LineHides glob l p := by
  unfold Spec.FileHides Spec.LineHides
  rw [parse_fileOf h, parse_fileOf (fun x hx => h x (by simp [hx]))]
  obtain ⟨h1, h2⟩ := parse_negated hl
  have : applyRules glob (joinSlash p) false ((ls ++ ['!' :: l]).flatMap parseIgnoreLine) =
      applyRules glob (joinSlash p) (applyRules glob (joinSlash p) false (ls.flatMap parseIgnoreLine)) (parseIgnoreLine ('!' :: l)) := by
    simp [applyRules, List.foldl_append]
  rw [this, h1]
  have hf := fold_negated glob (joinSlash p) _ h2 (!applyRules glob (joinSlash p) false (ls.flatMap parseIgnoreLine))
  rw [Bool.not_not] at hf
  rw [hf, fold_plain glob _ _ h2]
  simp

/-- **C28**, blank lines and comments add nothing to a file. -/
theorem C28_line_empty (glob : Str → Str → Bool) (ls : List Str) (l : Str) (h : ∀ x ∈ ls ++ [l], '\n' ∉ x ∧ x.getLast? ≠ some '\r') (hl : parseIgnoreLine l = []) (p : Path) :
    Spec.FileHides glob (Spec.fileOf (ls ++ [l])) p ↔ Spec.FileHides glob (Spec.fileOf ls) p := by
  unfold Spec.FileHides
  rw [parse_fileOf h, parse_fileOf (fun x hx => h x (by simp [hx])), List.flatMap_append, List.flatMap_singleton, hl, List.append_nil]

example : Spec.FileHides globRef (str "*.o\n!keep.o\n# c\n") [str "a.o"] ∧ ¬ Spec.FileHides globRef (str "*.o\n!keep.o\n# c\n") [str "keep.o"] ∧
    Spec.fileOf [str "*.o", str "!keep.o", str "# c"] = str "*.o\n!keep.o\n# c\n" ∧ Spec.PatternLine (str "keep.o") ∧ parseIgnoreLine (str "# c") = [] :=
  ⟨by decide, by decide, by decide, by decide, by decide⟩

/-- **C28 refuted** against gitignore's "it is not possible to re-include a file if a parent directory of that file is excluded": the lines `d` and `!d/x` hide the directory `d` and show `d/x`.
(`accept` then fails at `d/x` if `d` is new: its directory is not made.) -/
theorem C28_refuted_parent (glob : Str → Str → Bool) (hg : GlobLaws glob) (d x : Name) (hd : Spec.PlainName d) (hx : Spec.PlainName x) (hdn : NormalName d) (hxn : NormalName x)
    (h : ∀ l ∈ [d, '!' :: joinSlash [d, x]], '\n' ∉ l ∧ l.getLast? ≠ some '\r') (ht : Spec.PatternLine (joinSlash [d, x])) (hpd : Spec.PatternLine d) :
    Spec.FileHides glob (Spec.fileOf [d, '!' :: joinSlash [d, x]]) [d] ∧ ¬ Spec.FileHides glob (Spec.fileOf [d, '!' :: joinSlash [d, x]]) [d, x] := by
  have one : ∀ p, NormalPath p → (Spec.FileHides glob (Spec.fileOf [d]) p ↔ d ∈ p) := by
    intro p hp
    have := C28_line_added glob [] d (fun y hy => h y (by simp at hy ⊢; exact .inl hy)) hpd p
    rw [List.nil_append] at this
    rw [this, C28_name glob hg d hd p hp]
    constructor
    · rintro (h | h)
      · cases h
      · exact h
    · exact .inr
  have n1 : NormalPath [d] := by intro y hy; rw [List.mem_singleton] at hy; exact hy ▸ hdn
  have n2 : NormalPath [d, x] := by
    intro y hy
    rcases List.mem_cons.1 hy with rfl | hy
    · exact hdn
    · rw [List.mem_singleton] at hy; exact hy ▸ hxn
  have hq : ∀ n ∈ [d, x], Spec.PlainName n := by
    intro y hy
    rcases List.mem_cons.1 hy with rfl | hy
    · exact hd
    · rw [List.mem_singleton] at hy; exact hy ▸ hx
  have e : [d, '!' :: joinSlash [d, x]] = [d] ++ ['!' :: joinSlash [d, x]] := rfl
  rw [e, C28_line_negated glob [d] _ h ht, C28_line_negated glob [d] _ h ht, one _ n1, one _ n2, C28_path glob hg [d, x] hq (by simp) ht.trimmed _ n1,
    C28_path glob hg [d, x] hq (by simp) ht.trimmed _ n2]
  simp

example : Spec.FileHides globRef (str "build\n!build/keep\n") [str "build"] ∧ ¬ Spec.FileHides globRef (str "build\n!build/keep\n") [str "build", str "keep"] ∧
    (∀ l ∈ [str "build", '!' :: joinSlash [str "build", str "keep"]], '\n' ∉ l ∧ l.getLast? ≠ some '\r') ∧ Spec.PatternLine (joinSlash [str "build", str "keep"]) ∧ Spec.PatternLine (str "build") ∧
    Spec.PlainName (str "build") ∧ Spec.PlainName (str "keep") := ⟨by decide, by decide, by decide, by decide, by decide, by decide, by decide⟩

/-! ### directories -/

theorem squeeze_snoc (s : Str) (h : s.getLast? ≠ some '/') : squeeze (s ++ ['/']) = squeeze s ++ ['/'] := by
  induction s with
  | nil => rfl
  | cons c r ih =>
    cases r with
    | nil =>
      have hc : c ≠ '/' := by rintro rfl; simp at h
      rw [List.singleton_append, squeeze_cons (.inl hc)]
      simp [squeeze, hc]
    | cons d r =>
      rw [List.getLast?_cons_cons] at h
      have ih := ih h
      rw [List.cons_append, squeeze, ih]
      conv_rhs => rw [squeeze]
      simp only [List.cons_append, List.head?_cons]
      by_cases hc : c = '/' ∧ some d = some '/' <;> simp only [hc, if_true, if_false] <;> rfl

/-- **C28**, a path with a slash at its end hides what is below the directory at that path, relative to the directory of the ignore file, and nothing else (not the directory itself). -/
theorem C28_directory_path (glob : Str → Str → Bool) (hg : GlobLaws glob) (q : Path) (hq : ∀ n ∈ q, Spec.PlainName n) (hne : q ≠ []) (ht : Spec.PatternLine (joinSlash q))
    (p : Path) (hp : NormalPath p) : Spec.LineHides glob (joinSlash q ++ ['/']) p ↔ Below q p := by
  have hwn : ∀ w ∈ q, Spec.WildName w := fun w hw =>
    ⟨(hq w hw).ne, (hq w hw).noSlash, fun c hc hm => absurd ((hq w hw).literal c hc) (by simp [hm]), fun hi => (hq w hw).literal_facts.2.2.1 (hi.subset (by simp))⟩
  have hlast : (joinSlash q).getLast? ≠ some '/' := joinSlash_last hne hwn
  have hj : joinSlash q ≠ [] := ht.ne
  have hhd : (joinSlash q ++ ['/']).head? = (joinSlash q).head? := by
    obtain ⟨c, r, hcr⟩ := List.exists_cons_of_ne_nil hj
    rw [hcr]; rfl
  have hhead : (joinSlash q).head? ≠ some '/' := by
    obtain ⟨n, r, rfl⟩ := List.exists_cons_of_ne_nil hne
    rw [joinSlash_head r (hq n (by simp)).ne]
    exact head_not_slash (hwn n (by simp))
  have htrim : trim (joinSlash q ++ ['/']) = joinSlash q ++ ['/'] := by
    obtain ⟨c, r, hcr⟩ := List.exists_cons_of_ne_nil hj
    rw [hcr, List.cons_append]
    refine trim_id ((trim_eq_ws ht.trimmed).1 c (by rw [hcr]; rfl)) (fun d hd => ?_)
    rw [show c :: (r ++ ['/']) = (c :: r) ++ ['/'] from rfl, getLast_append_ne (by simp)] at hd
    cases hd
    decide
  have no : ∀ c, isGlobMeta c = true → c ∉ joinSlash q ++ ['/'] := by
    intro c hm hc
    rcases List.mem_append.1 hc with hc | hc
    · rcases mem_joinSlash hc with rfl | ⟨w, hw, hc⟩
      · revert hm; decide
      · exact (hq w hw).literal.not_mem hm hc
    · rw [List.mem_singleton] at hc
      subst hc
      revert hm; decide
  have hpre : (str "\\!").isPrefixOf (joinSlash q ++ ['/']) = false := notPrefix_of_not_mem (c := '!') (by decide) (no '!' (by decide))
  have hcont : (joinSlash q ++ ['/']).contains '/' = true := List.contains_iff_mem.2 (by simp)
  have hte : trimEndSlash (joinSlash q ++ ['/']) = joinSlash q := by
    unfold trimEndSlash
    rw [List.reverse_append, List.reverse_singleton, List.singleton_append, List.dropWhile_cons_of_pos (by decide)]
    cases hr : (joinSlash q).reverse with
    | nil => rw [List.reverse_eq_nil_iff] at hr; exact absurd hr hj
    | cons c r =>
      have hc : (joinSlash q).getLast? = some c := by rw [← List.head?_reverse, hr]; rfl
      rw [hc] at hlast
      rw [List.dropWhile_cons_of_neg (by simpa using hlast), ← hr, List.reverse_reverse]
  have hparse : parseIgnoreLine (joinSlash q ++ ['/']) = [⟨false, joinSlash q ++ str "/**"⟩] := by
    rw [parse_core _ (joinSlash q ++ ['/']) false htrim (by simp) (by rw [hhd]; exact ht.notComment) (noEscSpace (no '\\' (by decide))) (by simp [hpre, hhd, ht.notNegated])
      (by simp [hpre, hhd, ht.notNegated]) (no '*' (by decide)) (no '?' (by decide))]
    simp only [squeeze_snoc _ hlast, squeeze_join hwn, hhd, hhead, if_false, hcont, Bool.not_true, Bool.false_and, Bool.false_eq_true, hte]
    rw [getLast_append_ne (by simp), if_pos (by rfl)]
  unfold Spec.LineHides
  rw [hparse, ← (literal_path hg hq hne hp).2]
  simp [applyRules]

example : Spec.PatternLine (str "a/b") ∧ Spec.LineHides globRef (str "a/b/") [str "a", str "b", str "c"] ∧ ¬ Spec.LineHides globRef (str "a/b/") [str "a", str "b"] ∧
    Spec.LineHides globRef (str "a/b") [str "a", str "b"] ∧ ¬ Spec.LineHides globRef (str "a/b/") [str "x", str "a", str "b", str "c"] := ⟨by decide, by decide, by decide, by decide, by decide⟩

/-! ### the last line -/

theorem splitNl_snoc (s : Str) : splitNl (s ++ ['\n']) = splitNl s ++ [[]] := by
  induction s with
  | nil => rfl
  | cons c s ih =>
    simp only [List.cons_append, splitNl, ih]
    split
    · rfl
    · cases hs : splitNl s with
      | nil => exact absurd hs (splitNl_ne s)
      | cons w ws => rfl

theorem splitNl_last {s : Str} {c : Char} (h : s.getLast? = some c) (hc : c ≠ '\n') : ∃ w, (splitNl s).getLast? = some w ∧ w.getLast? = some c := by
  induction s with
  | nil => cases h
  | cons d s ih =>
    cases s with
    | nil =>
      have : d = c := by simpa using h
      subst this
      exact ⟨[d], by simp [splitNl, hc], rfl⟩
    | cons e s =>
      rw [List.getLast?_cons_cons] at h
      obtain ⟨w, h1, h2⟩ := ih h
      rw [splitNl]
      split
      · rw [List.getLast?_cons_of_ne_nil (splitNl_ne _)]
        exact ⟨w, h1, h2⟩
      · cases hs : splitNl (e :: s) with
        | nil => exact absurd hs (splitNl_ne _)
        | cons x xs =>
          rw [hs] at h1
          cases xs with
          | nil =>
            have : x = w := by simpa using h1
            subst this
            refine ⟨d :: x, rfl, ?_⟩
            rw [List.getLast?_cons_of_ne_nil (by rintro rfl; cases h2)]
            exact h2
          | cons y ys =>
            rw [List.getLast?_cons_cons] at h1
            exact ⟨w, by rw [List.getLast?_cons_cons]; exact h1, h2⟩

/-- **C28**, it makes no difference whether the last line of a file is ended by a newline (if it does not end with a carriage return). -/
theorem C28_final_newline (s : Str) (c : Char) (h : s.getLast? = some c) (hn : c ≠ '\n') (hr : c ≠ '\r') : parseIgnoreContent (s ++ ['\n']) = parseIgnoreContent s := by
  obtain ⟨w, h1, h2⟩ := splitNl_last h hn
  have hw : w ≠ [] := by rintro rfl; cases h2
  unfold parseIgnoreContent lines
  simp only [splitNl_snoc, List.dropLast_concat, List.getLast?_append, List.getLast?_singleton, Option.some_or, if_true, List.append_nil, h1, Option.some.injEq, hw, if_false]
  have hd : splitNl s = (splitNl s).dropLast ++ [w] := by
    rw [List.getLast?_eq_some_iff] at h1
    obtain ⟨a, ha⟩ := h1
    rw [ha, List.dropLast_concat]
  conv_lhs => rw [hd]
  have hs : stripCr w = w := by
    unfold stripCr
    rw [h2, if_neg (by simpa using hr)]
  simp [hs]

example : parseIgnoreContent (str "a\n!b") = parseIgnoreContent (str "a\n!b\n") ∧ (parseIgnoreContent (str "a\n!b")).length = 4 := by decide

/-! ### blanks around a line -/

theorem dropWs_head {s : Str} {c : Char} (h : (s.dropWhile isWs).head? = some c) : isWs c = false := by
  induction s with
  | nil => cases h
  | cons d s ih =>
    by_cases hd : isWs d = true
    · rw [List.dropWhile_cons_of_pos hd] at h; exact ih h
    · rw [List.dropWhile_cons_of_neg hd] at h
      cases h
      simpa using hd

theorem trim_twice (s : Str) : trim (trim s) = trim s := by
  cases ht : trim s with
  | nil => rfl
  | cons c r =>
    have hd : ∀ d, (trim s).getLast? = some d → isWs d = false := by
      intro d h
      unfold trim at h
      rw [List.getLast?_reverse] at h
      exact dropWs_head h
    rw [ht] at hd
    refine trim_id ?_ hd
    -- the first character survives both cuts
    have hsub : ∃ z, s.dropWhile isWs = trim s ++ z := by
      have hs := List.dropWhile_suffix (p := isWs) (l := (s.dropWhile isWs).reverse)
      obtain ⟨z, hz⟩ := hs
      refine ⟨z.reverse, ?_⟩
      have := congrArg List.reverse hz
      rw [List.reverse_append, List.reverse_reverse] at this
      exact this.symm
    obtain ⟨z, hz⟩ := hsub
    exact dropWs_head (s := s) (by rw [hz, ht]; rfl)

/-- **C28**, blanks around a line mean nothing, unless a backslash is before the last of them. -/
theorem C28_trimmed (l : Str) (h : ¬ str "\\ " <:+ l) : parseIgnoreLine l = parseIgnoreLine (trim l) := by
  have h1 : (str "\\ ").isSuffixOf l = false := by
    rw [← Bool.not_eq_true, List.isSuffixOf_iff_suffix]; exact h
  unfold parseIgnoreLine
  simp only [h1, suffix_blank (trim_twice l), trim_twice]

example : parseIgnoreLine (str "\t !a/b  ") = parseIgnoreLine (str "!a/b") ∧ parseIgnoreLine (str "a\\ ") ≠ parseIgnoreLine (trim (str "a\\ ")) := by decide

/-! ### two stars in front of a name -/

/-- gitignore(5): "a leading `**` followed by a slash means match in all directories; `**/foo` matches file or directory `foo` anywhere, the same as pattern `foo`"; what is below an ignored directory
is ignored. -/
def Spec.GitHidesAnywhere (n : Name) (p : Path) : Prop := n ∈ p

/-- **C28 refuted** for `**/name`, which is the same as `name` in gitignore: the line hides the items of that name at every depth, but nothing below them (`**/node_modules` hides the directories of
that name and shows all that is in them). -/
theorem C28_refuted_stars (glob : Str → Str → Bool) (hg : GlobLaws glob) (n : Name) (hn : Spec.PlainName n) (p : Path) (hp : NormalPath p) :
    (Spec.LineHides glob (str "**/" ++ n) p ↔ p.getLast? = some n) ∧ (Spec.LineHides glob n p ↔ Spec.GitHidesAnywhere n p) := by
  refine ⟨?_, C28_name glob hg n hn p hp⟩
  have hlast : ∀ d, (str "**/" ++ n).getLast? = some d → isWs d = false := fun d hd => by
    rw [getLast_append_ne hn.ne] at hd
    exact (trim_eq_ws hn.trimmed).2 d hd
  obtain ⟨f1, f2, f3, f4⟩ := hn.literal_facts
  have htrim : trim (str "**/" ++ n) = str "**/" ++ n := trim_id (c := '*') (s := '*' :: '/' :: n) (by decide) hlast
  have hesc : (str "\\ ").isSuffixOf (str "**/" ++ n) = false := suffix_blank htrim
  have hpre : (str "\\!").isPrefixOf (str "**/" ++ n) = false := notPrefix_of_not_mem (c := '!') (by decide) (by simp [f2, str])
  have hsq : squeeze (str "**/" ++ n) = str "**/" ++ n := by
    show squeeze ('*' :: '*' :: '/' :: n) = '*' :: '*' :: '/' :: n
    rw [squeeze_cons (.inl (by decide)), squeeze_cons (.inl (by decide)), squeeze_cons (.inr (head_ne_of_not_mem hn.noSlash)), squeeze_noSlash hn.noSlash]
  have hc1 : (str "**/" ++ n).contains '/' = true := List.contains_iff_mem.2 (by simp [str])
  have hc2 : (str "**/" ++ n).contains '*' = true := List.contains_iff_mem.2 (by simp [str])
  have hl : (str "**/" ++ n).getLast? ≠ some '/' := by rw [getLast_append_ne hn.ne]; exact getLast_ne_of_not_mem hn.noSlash
  have hh : (str "**/" ++ n).head? = some '*' := rfl
  have hne : str "**/" ++ n ≠ [] := by simp [str]
  have hparse : parseIgnoreLine (str "**/" ++ n) = [⟨false, str "**/" ++ n⟩] := by
    unfold parseIgnoreLine
    simp only [htrim, hesc, hne, hh, hpre, hsq, hc1, hc2, hl, Option.some.injEq, Bool.false_eq_true, if_false, Bool.not_false, Bool.not_true, Bool.true_and, Bool.false_and, Bool.and_false,
      decide_false, Bool.or_self, show ('*' = '#') = False from by decide, show ('*' = '!') = False from by decide, show ('*' = '/') = False from by decide, or_self, List.nil_append]
  unfold Spec.LineHides
  rw [hparse, ← anyDepth_path hg hn.lit hp]
  simp [applyRules]

example : Spec.LineHides globRef (str "**/node_modules") [str "a", str "node_modules"] ∧ ¬ Spec.LineHides globRef (str "**/node_modules") [str "a", str "node_modules", str "x"] ∧
    Spec.LineHides globRef (str "node_modules") [str "a", str "node_modules", str "x"] ∧ Spec.PlainName (str "node_modules") := ⟨by decide, by decide, by decide, by decide⟩

/-- `echo '**/nm' > .../d/.gitignore` on the host; `mkdir d/nm; echo 1 > d/nm/x` in a sandbox. -/
def exStars : State := ⟨[([], { kind := .dir }), ([str "d"], { kind := .dir }), ([str "d", str ".gitignore"], { kind := .reg (str "**/nm\n") })],
  [([], { kind := .dir }), ([str "F4"], { kind := .dir }), ([str "F4", str "d"], { kind := .dir }), ([str "F4", str "d", str "nm"], { kind := .dir }),
   ([str "F4", str "d", str "nm", str "x"], { kind := .reg (str "1") })]⟩

/-- What follows for the user: `status` lists the file and not its directory, and `accept` fails, because the directory of the file is missing on the host.  With the line `nm` instead both are hidden. -/
theorem C28_refuted_stars_accept : (changes { exIgnEnv with patterns := [str "/**"] } exStars).map (·.dest) = [[str "d"], [str "d", str "nm", str "x"]] ∧
    (accept { exIgnEnv with patterns := [str "/**"] } exStars).error ≠ none ∧
    (let st : State := { exStars with lower := exStars.lower.set [str "d", str ".gitignore"] { kind := .reg (str "nm\n") } }
     (changes { exIgnEnv with patterns := [str "/**"] } st).map (·.dest) = [[str "d"]] ∧ (accept { exIgnEnv with patterns := [str "/**"] } st).error = none) :=
  ⟨by decide +kernel, by decide +kernel, by decide +kernel, by decide +kernel⟩

/-- **C28**, for every matcher: `**/` in front of a line with wildcards and without slashes makes no difference, as in gitignore. -/
theorem C28_stars_wild (glob : Str → Str → Bool) (l : Str) (h : Spec.PatternLine l) (hs : '/' ∉ l) (h2 : ¬ str "**" <+: l) (hw : '*' ∈ l ∨ '?' ∈ l) (p : Path) :
    Spec.LineHides glob (str "**/" ++ l) p ↔ Spec.LineHides glob l p := by
  have hlast : ∀ d, (str "**/" ++ l).getLast? = some d → isWs d = false := fun d hd => by
    rw [getLast_append_ne h.ne] at hd
    exact (trim_eq_ws h.trimmed).2 d hd
  have htrim : trim (str "**/" ++ l) = str "**/" ++ l := trim_id (c := '*') (s := '*' :: '/' :: l) (by decide) hlast
  have hpre : (str "\\!").isPrefixOf (str "**/" ++ l) = false := by
    rw [← Bool.not_eq_true, List.isPrefixOf_iff_prefix]
    rintro ⟨t, ht⟩
    simp [str] at ht
  have hp : (str "\\!").isPrefixOf l = false := by
    rw [← Bool.not_eq_true, List.isPrefixOf_iff_prefix]; exact h.notEscaped
  have hp2 : (str "**").isPrefixOf l = false := by
    rw [← Bool.not_eq_true, List.isPrefixOf_iff_prefix]; exact h2
  have hsq : squeeze (str "**/" ++ l) = str "**/" ++ l := by
    show squeeze ('*' :: '*' :: '/' :: l) = '*' :: '*' :: '/' :: l
    rw [squeeze_cons (.inl (by decide)), squeeze_cons (.inl (by decide)), squeeze_cons (.inr (head_ne_of_not_mem hs)), squeeze_noSlash hs]
  have hc1 : (str "**/" ++ l).contains '/' = true := List.contains_iff_mem.2 (by simp [str])
  have hc2 : (str "**/" ++ l).contains '*' = true := List.contains_iff_mem.2 (by simp [str])
  have hl : (str "**/" ++ l).getLast? ≠ some '/' := by rw [getLast_append_ne h.ne]; exact getLast_ne_of_not_mem hs
  have hh : (str "**/" ++ l).head? = some '*' := rfl
  have hne : str "**/" ++ l ≠ [] := by simp [str]
  have hwl : (!l.contains '*' && !l.contains '?') = false := by
    rcases hw with hw | hw
    · rw [List.contains_iff_mem.2 hw]; rfl
    · rw [List.contains_iff_mem.2 hw]; simp
  have a : parseIgnoreLine (str "**/" ++ l) = [⟨false, str "**/" ++ l⟩] := by
    unfold parseIgnoreLine
    simp only [htrim, suffix_blank htrim, hne, hh, hpre, hsq, hc1, hc2, hl, Option.some.injEq, Bool.false_eq_true, if_false, Bool.not_false, Bool.not_true, Bool.true_and, Bool.false_and, Bool.and_false,
      decide_false, Bool.or_self, show ('*' = '#') = False from by decide, show ('*' = '!') = False from by decide, show ('*' = '/') = False from by decide, or_self, List.nil_append]
  have b : parseIgnoreLine l = [⟨false, str "**/" ++ l⟩] := by
    unfold parseIgnoreLine
    simp only [h.trimmed, suffix_blank h.trimmed, h.ne, h.notComment, h.notNegated, hp, squeeze_noSlash hs, head_ne_of_not_mem hs, contains_false hs, hp2, hl, Bool.false_eq_true, if_false, if_true,
      Bool.not_false, Bool.true_and, Bool.and_self, decide_false, Bool.or_self, or_self, hwl, List.nil_append]
  unfold Spec.LineHides
  rw [a, b]

example : Spec.PatternLine (str "*.o") ∧ Spec.LineHides globRef (str "**/*.o") [str "a", str "x.o"] ∧ Spec.LineHides globRef (str "*.o") [str "a", str "x.o"] ∧ ¬ Spec.LineHides globRef (str "**/*.o") [str "a", str "x.c"] :=
  ⟨by decide, by decide, by decide, by decide⟩

end SB
