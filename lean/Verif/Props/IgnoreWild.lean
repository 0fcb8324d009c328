import Verif.Props.IgnoreLines

/-! # C28: lines with wildcards and lines with several components -/

namespace SB

/-- A name matches a pattern of one component: `*` any text, `?` one character, everything else itself. -/
inductive Spec.Wild : Str → Str → Prop
  | nil : Spec.Wild [] []
  | star (p a b : Str) : Spec.Wild p b → Spec.Wild ('*' :: p) (a ++ b)
  | any (p : Str) (c : Char) (s : Str) : Spec.Wild p s → Spec.Wild ('?' :: p) (c :: s)
  | lit (c : Char) (p s : Str) : c ≠ '*' → c ≠ '?' → Spec.Wild p s → Spec.Wild (c :: p) (c :: s)

/-- One component of a pattern with no other special characters than single `*` and `?`. -/
structure Spec.WildName (w : Str) : Prop where
  ne : w ≠ []
  noSlash : '/' ∉ w
  wild : ∀ c ∈ w, isGlobMeta c = true → c = '*' ∨ c = '?'
  single : ¬ ['*', '*'] <:+: w

instance (w : Str) : Decidable (Spec.WildName w) :=
  decidable_of_iff (w ≠ [] ∧ '/' ∉ w ∧ (∀ c ∈ w, isGlobMeta c = true → c = '*' ∨ c = '?') ∧ ¬ ['*', '*'] <:+: w)
    ⟨fun ⟨a, b, c, d⟩ => ⟨a, b, c, d⟩, fun ⟨a, b, c, d⟩ => ⟨a, b, c, d⟩⟩

/-- What is further assumed of `fast_glob::glob_match`: wildcards match within one component. -/
structure GlobWildLaws (glob : Str → Str → Bool) : Prop where
  path : ∀ (ws : List Str) (p : Path), ws ≠ [] → p ≠ [] → (∀ w ∈ ws, Spec.WildName w) → NormalPath p → (glob (joinSlash ws) (joinSlash p) = true ↔ List.Forall₂ Spec.Wild ws p)
  anyDepth : ∀ (w : Str) (p : Path), p ≠ [] → Spec.WildName w → NormalPath p → (glob (str "**/" ++ w) (joinSlash p) = true ↔ ∃ n, p.getLast? = some n ∧ Spec.Wild w n)

/-! ### the reference matcher satisfies the laws -/

theorem Spec.Wild.inv {x y : Str} (h : Spec.Wild x y) : (x = [] ∧ y = []) ∨ (∃ p a b, x = '*' :: p ∧ y = a ++ b ∧ Spec.Wild p b) ∨
    (∃ p c s, x = '?' :: p ∧ y = c :: s ∧ Spec.Wild p s) ∨ ∃ c p s, c ≠ '*' ∧ c ≠ '?' ∧ x = c :: p ∧ y = c :: s ∧ Spec.Wild p s := by
  cases h with
  | nil => exact .inl ⟨rfl, rfl⟩
  | star p a b h => exact .inr (.inl ⟨p, a, b, rfl, rfl, h⟩)
  | any p c s h => exact .inr (.inr (.inl ⟨p, c, s, rfl, rfl, h⟩))
  | lit c p s h1 h2 h => exact .inr (.inr (.inr ⟨c, p, s, h1, h2, rfl, rfl, h⟩))

theorem wild_any (w s : Str) : wild ('?' :: w) s = match s with | [] => false | _ :: s => wild w s := by
  conv_lhs => rw [wild.eq_def]
  split <;> simp_all
  · cases ‹Str› <;> rfl
  · rename_i hq _ hc
    exact absurd hc.1.symm hq

theorem wild_lit {c : Char} (h1 : c ≠ '*') (h2 : c ≠ '?') (h3 : c ≠ '\\') (w s : Str) : wild (c :: w) s = match s with | [] => false | d :: s => c == d && wild w s := by
  conv_lhs => rw [wild.eq_def]
  split <;> simp_all
  cases ‹List Char› <;> rfl

theorem wild_iff {w : Str} (h : ∀ c ∈ w, isGlobMeta c = true → c = '*' ∨ c = '?') : ∀ s, wild w s = true ↔ Spec.Wild w s := by
  induction w with
  | nil =>
    intro s
    rw [wild, List.isEmpty_iff]
    constructor
    · rintro rfl
      exact .nil
    · intro h
      rcases h.inv with ⟨_, h⟩ | ⟨_, _, _, h, _⟩ | ⟨_, _, _, h, _⟩ | ⟨_, _, _, _, _, h, _⟩
      · exact h
      all_goals cases h
  | cons c w ih =>
    have ih' := ih fun d hd => h d (by simp [hd])
    intro s
    by_cases hs : c = '*'
    · subst hs
      rw [wild, List.any_eq_true]
      constructor
      · rintro ⟨t, ht, hw⟩
        obtain ⟨a, rfl⟩ := (List.mem_tails _ _).1 ht
        exact .star w a t ((ih' t).1 hw)
      · intro hw
        rcases hw.inv with ⟨h, _⟩ | ⟨_, a, b, h, rfl, hb⟩ | ⟨_, _, _, h, _⟩ | ⟨_, _, _, h1, _, h, _⟩
        · cases h
        · cases h
          exact ⟨b, (List.mem_tails _ _).2 ⟨a, rfl⟩, (ih' b).2 hb⟩
        · cases h
        · cases h
          exact absurd rfl h1
    · by_cases hq : c = '?'
      · subst hq
        rw [wild_any]
        constructor
        · intro hh
          cases s with
          | nil => cases hh
          | cons d s => exact .any w d s ((ih' s).1 hh)
        · intro hw
          rcases hw.inv with ⟨h, _⟩ | ⟨_, a, b, h, _⟩ | ⟨_, _, _, h, rfl, hb⟩ | ⟨_, _, _, _, h1, h, _⟩
          · cases h
          · cases h
          · cases h
            exact (ih' _).2 hb
          · cases h
            exact absurd rfl h1
      · have hb : c ≠ '\\' := by
          rintro rfl
          rcases h '\\' (by simp) (by decide) with h | h <;> cases h
        rw [wild_lit hs hq hb]
        constructor
        · intro hh
          cases s with
          | nil => cases hh
          | cons d s =>
            dsimp only at hh
            rw [Bool.and_eq_true, beq_iff_eq] at hh
            obtain ⟨rfl, hh⟩ := hh
            exact .lit c w s hs hq ((ih' s).1 hh)
        · intro hw
          rcases hw.inv with ⟨h, _⟩ | ⟨_, a, b, h, _⟩ | ⟨_, _, _, h, _⟩ | ⟨_, _, _, _, _, h, rfl, hb⟩
          · cases h
          · cases h
            exact absurd rfl hs
          · cases h
            exact absurd rfl hq
          · cases h
            simp [(ih' _).2 hb]

theorem Spec.WildName.notStars {w : Str} (h : Spec.WildName w) : w ≠ ['*', '*'] := by
  rintro rfl
  exact h.single (List.infix_refl _)

theorem globComps_wild {ws : List Str} (h : ∀ w ∈ ws, Spec.WildName w) : ∀ p : List Str, globComps ws p = true ↔ List.Forall₂ Spec.Wild ws p := by
  induction ws with
  | nil =>
    intro p
    cases p with
    | nil => simp [globComps]
    | cons n p => simp [globComps]
  | cons w ws ih =>
    intro p
    have hw := h w (by simp)
    rw [globComps.eq_def]
    simp only [hw.notStars, if_false]
    cases p with
    | nil => simp
    | cons n p =>
      simp only [Bool.and_eq_true, List.forall₂_cons, wild_iff hw.wild, ih fun w' h' => h w' (by simp [h'])]

theorem wildName_head {w : Str} (h : Spec.WildName w) : w.head? ≠ some '!' := by
  intro hh
  rcases h.wild '!' (List.mem_of_mem_head? hh) (by decide) with h | h <;> cases h

theorem joinSlash_head {w : Str} (ws : List Str) (hw : w ≠ []) : (joinSlash (w :: ws)).head? = w.head? := by
  cases w with
  | nil => exact absurd rfl hw
  | cons c w => cases ws <;> rfl

/-- The reference matcher satisfies the laws, so they are consistent. -/
theorem globRef_wildLaws : GlobWildLaws globRef := by
  refine ⟨?_, ?_⟩
  · intro ws p hne hpe hws hp
    cases ws with
    | nil => exact absurd rfl hne
    | cons w ws =>
      have hw := hws w (by simp)
      rw [globRef_literal_head (by rw [joinSlash_head _ hw.ne]; exact wildName_head hw), split_join (fun n hn => (hws n hn).noSlash) hne, split_join hp.noSlash hpe,
        globComps_wild hws]
  · intro w p hpe hw hp
    rw [globRef_literal_head (p := str "**/" ++ w) (show (['*', '*', '/'] ++ w).head? ≠ some '!' by simp)]
    have e : splitSlash (str "**/" ++ w) = [['*', '*'], w] := by
      have := split_append (str "**") w
      rw [splitSlash_stars, split_noSlash hw.noSlash] at this
      exact this
    rw [e, split_join hp.noSlash hpe, globComps.eq_def]
    simp only [if_true, List.isEmpty_cons, Bool.false_eq_true, if_false, List.any_eq_true, List.mem_tails]
    have key : ∀ t, globComps [w] t = true ↔ ∃ n, t = [n] ∧ Spec.Wild w n := by
      intro t
      rw [globComps_wild (by simpa using hw)]
      constructor
      · intro h
        cases h with
        | cons h1 h2 =>
          cases h2
          exact ⟨_, rfl, h1⟩
      · rintro ⟨n, rfl, h⟩
        exact .cons h .nil
    constructor
    · rintro ⟨t, ⟨pre, hpre⟩, ht⟩
      obtain ⟨n, rfl, hn⟩ := (key t).1 ht
      exact ⟨n, by rw [← hpre]; simp, hn⟩
    · rintro ⟨n, hn, hw⟩
      obtain ⟨a, rfl⟩ := List.getLast?_eq_some_iff.1 hn
      exact ⟨[n], ⟨a, rfl⟩, (key _).2 ⟨n, rfl, hw⟩⟩

/-! ### lines -/

/-- A line that consists of components with wildcards (or none), not a comment, with no blanks around it. -/
structure Spec.WildLine (ws : List Str) : Prop where
  ne : ws ≠ []
  names : ∀ w ∈ ws, Spec.WildName w
  notComment : (joinSlash ws).head? ≠ some '#'
  trimmed : trim (joinSlash ws) = joinSlash ws

instance (ws : List Str) : Decidable (Spec.WildLine ws) :=
  decidable_of_iff (ws ≠ [] ∧ (∀ w ∈ ws, Spec.WildName w) ∧ (joinSlash ws).head? ≠ some '#' ∧ trim (joinSlash ws) = joinSlash ws)
    ⟨fun ⟨a, b, c, d⟩ => ⟨a, b, c, d⟩, fun ⟨a, b, c, d⟩ => ⟨a, b, c, d⟩⟩

/-- The line contains a wildcard. -/
def Spec.HasWild (ws : List Str) : Prop := ∃ w ∈ ws, '*' ∈ w ∨ '?' ∈ w

instance (ws : List Str) : Decidable (Spec.HasWild ws) := by unfold Spec.HasWild; infer_instance

theorem mem_joinSlash {c : Char} : ∀ {ws : List Str}, c ∈ joinSlash ws → c = '/' ∨ ∃ w ∈ ws, c ∈ w
  | [], h => by simp [joinSlash] at h
  | [w], h => .inr ⟨w, by simp, h⟩
  | w :: x :: r, h => by
    simp only [joinSlash, List.mem_append, List.mem_cons] at h
    rcases h with h | h | h
    · exact .inr ⟨w, by simp, h⟩
    · exact .inl h
    · rcases mem_joinSlash (ws := x :: r) h with h | ⟨y, hy, h⟩
      · exact .inl h
      · exact .inr ⟨y, by simp at hy ⊢; exact .inr hy, h⟩

theorem joinSlash_mem {c : Char} {w : Str} : ∀ {ws : List Str}, w ∈ ws → c ∈ w → c ∈ joinSlash ws
  | [x], hw, hc => by
    rw [List.mem_singleton] at hw
    subst hw
    exact hc
  | x :: y :: r, hw, hc => by
    simp only [joinSlash, List.mem_append, List.mem_cons]
    rcases List.mem_cons.1 hw with rfl | hw
    · exact .inl hc
    · exact .inr (.inr (joinSlash_mem (ws := y :: r) hw hc))

theorem Spec.WildLine.facts {ws : List Str} (h : Spec.WildLine ws) : '\\' ∉ joinSlash ws ∧ '!' ∉ joinSlash ws := by
  constructor <;>
  · intro hc
    rcases mem_joinSlash hc with hc | ⟨w, hw, hc⟩
    · cases hc
    · rcases (h.names w hw).wild _ hc (by decide) with e | e <;> cases e

theorem squeeze_cons {c : Char} {r : Str} (h : c ≠ '/' ∨ r.head? ≠ some '/') : squeeze (c :: r) = c :: squeeze r := by
  rw [squeeze, if_neg]
  rintro ⟨h1, h2⟩
  rcases h with h | h
  · exact h h1
  · exact h h2

theorem squeeze_append_noSlash {w : Str} (h : '/' ∉ w) (r : Str) : squeeze (w ++ r) = w ++ squeeze r := by
  induction w with
  | nil => rfl
  | cons c w ih =>
    have hc : c ≠ '/' := by rintro rfl; simp at h
    rw [List.cons_append, squeeze_cons (.inl hc), ih (by simp at h; exact h.2), List.cons_append]

theorem head_not_slash {w : Str} (hw : Spec.WildName w) : w.head? ≠ some '/' := head_ne_of_not_mem hw.noSlash

theorem squeeze_join : ∀ {ws : List Str}, (∀ w ∈ ws, Spec.WildName w) → squeeze (joinSlash ws) = joinSlash ws
  | [], _ => rfl
  | [w], h => squeeze_noSlash (h w (by simp)).noSlash
  | w :: x :: r, h => by
    have hx := h x (by simp)
    rw [joinSlash, squeeze_append_noSlash (h w (by simp)).noSlash, squeeze_cons (.inr (by rw [joinSlash_head _ hx.ne]; exact head_not_slash hx)),
      squeeze_join (ws := x :: r) fun y hy => h y (by simp at hy ⊢; exact .inr hy)]

theorem joinSlash_last : ∀ {ws : List Str}, ws ≠ [] → (∀ w ∈ ws, Spec.WildName w) → (joinSlash ws).getLast? ≠ some '/'
  | [w], _, h => getLast_ne_of_not_mem (h w (by simp)).noSlash
  | w :: x :: r, _, h => by
    have ih := joinSlash_last (ws := x :: r) (by simp) fun y hy => h y (by simp at hy ⊢; exact .inr hy)
    rw [joinSlash, getLast_append_ne (by simp)]
    have hne : joinSlash (x :: r) ≠ [] := by
      have := joinSlash_head r (h x (by simp)).ne
      intro e
      rw [e] at this
      cases hx : x with
      | nil => exact (h x (by simp)).ne hx
      | cons c x => rw [hx] at this; cases this
    rw [List.getLast?_cons_of_ne_nil hne]
    exact ih

theorem stars_not_prefix {ws : List Str} (h : Spec.WildLine ws) : (str "**").isPrefixOf (joinSlash ws) = false := by
  obtain ⟨w, r, rfl⟩ := List.exists_cons_of_ne_nil h.ne
  have hw := h.names w (by simp)
  by_contra hc
  rw [Bool.not_eq_false, List.isPrefixOf_iff_prefix] at hc
  have hpre : w <+: joinSlash (w :: r) := by cases r <;> simp [joinSlash]
  obtain ⟨c, w', rfl⟩ := List.exists_cons_of_ne_nil hw.ne
  rcases List.prefix_or_prefix_of_prefix hc hpre with hp | hp
  · exact hw.single hp.isInfix
  · -- the component is one character
    have hl := hp.length_le
    cases w' with
    | cons d w' =>
      have : str "**" = c :: d :: w' := (hp.eq_of_length (by simp [str] at hl ⊢; omega)).symm
      exact hw.single (this ▸ List.infix_refl _)
    | nil =>
      obtain ⟨t, ht⟩ := hc
      cases r with
      | nil =>
        rw [joinSlash] at ht
        have := congrArg List.length ht
        simp [str] at this
      | cons x r =>
        rw [joinSlash] at ht
        simp [str] at ht

theorem contains_wild {ws : List Str} (h : Spec.HasWild ws) : (!(joinSlash ws).contains '*' && !(joinSlash ws).contains '?') = false := by
  obtain ⟨w, hw, hc | hc⟩ := h
  · have : (joinSlash ws).contains '*' = true := List.contains_iff_mem.2 (joinSlash_mem hw hc)
    rw [this]
    rfl
  · have : (joinSlash ws).contains '?' = true := List.contains_iff_mem.2 (joinSlash_mem hw hc)
    rw [this]
    simp

/-- The rules of a line with wildcards. -/
theorem parse_wild {ws : List Str} (h : Spec.WildLine ws) (hw : Spec.HasWild ws) :
    parseIgnoreLine (joinSlash ws) = [⟨false, if ws.length = 1 then str "**/" ++ joinSlash ws else joinSlash ws⟩] := by
  obtain ⟨f1, f2⟩ := h.facts
  have hne : joinSlash ws ≠ [] := by
    obtain ⟨w, r, rfl⟩ := List.exists_cons_of_ne_nil h.ne
    have := joinSlash_head r (h.names w (by simp)).ne
    intro e
    rw [e] at this
    cases hx : w with
    | nil => exact (h.names w (by simp)).ne hx
    | cons c x => rw [hx] at this; cases this
  have hhead : (joinSlash ws).head? ≠ some '/' := by
    obtain ⟨w, r, rfl⟩ := List.exists_cons_of_ne_nil h.ne
    rw [joinSlash_head r (h.names w (by simp)).ne]
    exact head_not_slash (h.names w (by simp))
  have hesc : (str "\\!").isPrefixOf (joinSlash ws) = false := notPrefix_of_not_mem (c := '!') (by decide) f2
  have hslash : (joinSlash ws).contains '/' = !decide (ws.length = 1) := by
    match ws, h with
    | [], h => exact absurd rfl h.ne
    | [w], h => simpa [joinSlash] using (h.names w (by simp)).noSlash
    | w :: x :: r, _ => simp [joinSlash]
  unfold parseIgnoreLine
  simp only [h.trimmed, noEscSpace f1, Bool.false_eq_true, if_false, hne, h.notComment, or_self, hesc, Bool.not_false, Bool.true_and, Bool.false_or,
    head_ne_of_not_mem f2, decide_false, squeeze_join h.names, hhead, hslash, stars_not_prefix h, Bool.and_true, Bool.not_not, decide_eq_true_eq]
  have hlast : (if ws.length = 1 then str "**/" ++ joinSlash ws else joinSlash ws).getLast? ≠ some '/' := by
    split
    · rw [getLast_append_ne hne]
      exact joinSlash_last h.ne h.names
    · exact joinSlash_last h.ne h.names
  simp only [hlast, decide_false, Bool.not_false, Bool.true_and, contains_wild hw, Bool.false_eq_true, if_false, List.nil_append]

theorem applyOne (glob : Str → Str → Bool) (rel : Str) (ig neg : Bool) (a : Str) : applyRules glob rel ig [⟨neg, a⟩] = if glob a rel then !neg else ig := rfl

/-- **C28**, a name with wildcards hides exactly the items whose own name matches, at every depth - and nothing below them. -/
theorem C28_wild (glob : Str → Str → Bool) (hg : GlobWildLaws glob) (w : Str) (hw : Spec.WildLine [w]) (hs : '*' ∈ w ∨ '?' ∈ w) (p : Path) (hpe : p ≠ []) (hp : NormalPath p) :
    Spec.LineHides glob w p ↔ ∃ n, p.getLast? = some n ∧ Spec.Wild w n := by
  have := parse_wild hw ⟨w, by simp, hs⟩
  simp only [joinSlash, List.length_singleton, if_true] at this
  unfold Spec.LineHides
  rw [this, applyOne, ← hg.anyDepth w p hpe (hw.names w (by simp)) hp]
  simp

/-- **C28**, a line with a slash inside and wildcards is relative to the directory of the ignore file: it hides exactly the items whose path matches component by
component - and nothing below them. -/
theorem C28_wild_path (glob : Str → Str → Bool) (hg : GlobWildLaws glob) (ws : List Str) (hw : Spec.WildLine ws) (h2 : 2 ≤ ws.length) (hs : Spec.HasWild ws) (p : Path)
    (hpe : p ≠ []) (hp : NormalPath p) : Spec.LineHides glob (joinSlash ws) p ↔ List.Forall₂ Spec.Wild ws p := by
  unfold Spec.LineHides
  rw [parse_wild hw hs, if_neg (show ws.length ≠ 1 by omega), applyOne, ← hg.path ws p hw.ne hpe hw.names hp]
  simp

/-- gitignore(5), "a name without a slash matches at any level", and "it is not possible to re-include a file if a parent directory is excluded": what is below a hidden
directory is hidden. -/
def Spec.GitHides (w : Str) (p : Path) : Prop := ∃ n ∈ p, Spec.Wild w n

/-- **C28 refuted** for names with wildcards, against gitignore: what is below a directory that matches is not hidden (`cmake-*` hides the directory `cmake-x` but no
file in it), unless its own name matches as well.  The same name without wildcard hides everything below (C28_name). -/
theorem C28_refuted_wildcard (glob : Str → Str → Bool) (hg : GlobWildLaws glob) (w : Str) (hw : Spec.WildLine [w]) (hs : '*' ∈ w ∨ '?' ∈ w) (d n : Name) (p : Path)
    (hd : Spec.Wild w d) (hn : ¬ Spec.Wild w n) (hp : NormalPath (p ++ [d, n])) :
    Spec.GitHides w (p ++ [d, n]) ∧ Spec.LineHides glob w (p ++ [d]) ∧ ¬ Spec.LineHides glob w (p ++ [d, n]) := by
  refine ⟨⟨d, by simp, hd⟩, ?_, ?_⟩
  · rw [C28_wild glob hg w hw hs _ (by simp) (fun x hx => hp x (by simp at hx ⊢; rcases hx with h | h <;> simp [h]))]
    exact ⟨d, by simp, hd⟩
  · rw [C28_wild glob hg w hw hs _ (by simp) hp]
    rintro ⟨x, hx, hxw⟩
    simp at hx
    subst hx
    exact hn hxw

/-! ### several components without wildcards -/

/-- **C28**, a line with a slash inside and no wildcards is relative to the directory of the ignore file: it hides exactly the item at that path and what is below it. -/
theorem C28_path (glob : Str → Str → Bool) (hg : GlobLaws glob) (q : Path) (hq : ∀ n ∈ q, Spec.PlainName n) (h2 : 2 ≤ q.length) (ht : trim (joinSlash q) = joinSlash q)
    (p : Path) (hp : NormalPath p) : Spec.LineHides glob (joinSlash q) p ↔ q <+: p := by
  have hqne : q ≠ [] := by rintro rfl; simp at h2
  have hwn : ∀ w ∈ q, Spec.WildName w := fun w hw =>
    ⟨(hq w hw).ne, (hq w hw).noSlash, fun c hc hm => absurd ((hq w hw).literal c hc) (by simp [hm]), fun hi => (hq w hw).literal_facts.2.2.1 (hi.subset (by simp))⟩
  have hl : Spec.WildLine q := ⟨hqne, hwn, by
    obtain ⟨w, r, rfl⟩ := List.exists_cons_of_ne_nil hqne
    rw [joinSlash_head r (hq w (by simp)).ne]
    exact (hq w (by simp)).notComment, ht⟩
  obtain ⟨f1, f2⟩ := hl.facts
  have fstar : '*' ∉ joinSlash q := fun hc => by
    rcases mem_joinSlash hc with hc | ⟨w, hw, hc⟩
    · cases hc
    · exact (hq w hw).literal_facts.2.2.1 hc
  have fq : '?' ∉ joinSlash q := fun hc => by
    rcases mem_joinSlash hc with hc | ⟨w, hw, hc⟩
    · cases hc
    · exact (hq w hw).literal_facts.2.2.2 hc
  have hne : joinSlash q ≠ [] := by
    obtain ⟨w, r, rfl⟩ := List.exists_cons_of_ne_nil hqne
    have := joinSlash_head r (hq w (by simp)).ne
    intro e
    rw [e] at this
    cases hx : w with
    | nil => exact (hq w (by simp)).ne hx
    | cons c x => rw [hx] at this; cases this
  have hesc : (str "\\!").isPrefixOf (joinSlash q) = false := notPrefix_of_not_mem (c := '!') (by decide) f2
  have hhead : (joinSlash q).head? ≠ some '/' := by
    obtain ⟨w, r, rfl⟩ := List.exists_cons_of_ne_nil hqne
    rw [joinSlash_head r (hq w (by simp)).ne]
    exact head_not_slash (hwn w (by simp))
  have hslash : (joinSlash q).contains '/' = true := by
    match q, h2 with
    | w :: x :: r, _ => simp [joinSlash]
  have hparse : parseIgnoreLine (joinSlash q) = [⟨false, joinSlash q ++ str "/**"⟩, ⟨false, joinSlash q⟩] := by
    rw [parse_core (joinSlash q) (joinSlash q) false ht hne hl.notComment (noEscSpace f1) (by simp [hesc, head_ne_of_not_mem f2]) (by simp [hesc, head_ne_of_not_mem f2])
      fstar fq]
    simp only [squeeze_join hwn, hhead, if_false, hslash, Bool.not_true, Bool.false_and, Bool.false_eq_true, joinSlash_last hqne hwn]
  obtain ⟨h1, h3⟩ := literal_path hg hq hqne hp
  unfold Spec.LineHides
  rw [hparse, applyTwo]
  have : q <+: p ↔ Below q p ∨ p = q := by
    rw [below_iff]
    constructor
    · intro h
      by_cases he : p = q
      · exact .inr he
      · exact .inl ⟨h, fun hh => he hh.symm⟩
    · rintro (h | h)
      · exact h.1
      · rw [h]
  rw [this, ← h1, ← h3]
  cases glob (joinSlash q ++ str "/**") (joinSlash p) <;> cases glob (joinSlash q) (joinSlash p) <;> simp

example : Spec.WildLine [str "*.o"] ∧ Spec.WildLine [str "src", str "test-?", str "*.log"] ∧ Spec.HasWild [str "src", str "test-?", str "*.log"] := by decide +kernel
example : Spec.Wild (str "cmake-*") (str "cmake-x") := (wild_iff (by decide) _).1 (by decide)
example : Spec.LineHides globRef (str "cmake-*") [str "a", str "cmake-x"] ∧ ¬ Spec.LineHides globRef (str "cmake-*") [str "a", str "cmake-x", str "f"] := by decide +kernel
example : Spec.LineHides globRef (str "docs/build") [str "docs", str "build", str "x"] ∧ ¬ Spec.LineHides globRef (str "docs/build") [str "a", str "docs", str "build"] := by
  decide +kernel

end SB
