import Verif.Spec.Glob
import Verif.Model.Ignore
import Mathlib.Data.List.Infix

/-!
# An executable matcher with the documented behaviour of `fast_glob` (without braces and character classes)

Used to show that `GlobLaws` is satisfiable and to evaluate examples; no theorem about the program depends on it.
-/

namespace SB

/-- One component: `*` any run, `?` any character, `\` escapes. -/
def wild : Str → Str → Bool
  | [], s => s.isEmpty
  | '*' :: p, s => s.tails.any (wild p)
  | '?' :: p, s => match s with | [] => false | _ :: s => wild p s
  | '\\' :: c :: p, s => match s with | [] => false | d :: s => c == d && wild p s
  | c :: p, s => match s with | [] => false | d :: s => c == d && wild p s

/-- Components: `**` stands for any number of components (at least one when it comes last). -/
def globComps : List Str → List Str → Bool
  | [], ts => ts.isEmpty
  | p :: ps, ts =>
    if p = ['*', '*'] then
      if ps.isEmpty then !ts.isEmpty else ts.tails.any (globComps ps)
    else match ts with
      | [] => false
      | t :: ts => wild p t && globComps ps ts

/-- Leading exclamation marks negate. -/
def globRef : Str → Str → Bool
  | '!' :: p, s => !globRef p s
  | p, s => globComps (splitSlash p) (splitSlash s)

/-! ### lemmas about splitting -/

theorem splitSlash_ne_nil (s : Str) : splitSlash s ≠ [] := by
  cases s with
  | nil => simp [splitSlash]
  | cons c cs =>
    simp only [splitSlash]
    split
    · simp
    · split <;> simp

theorem joinSlash_cons (w : Str) {ws : List Str} (h : ws ≠ []) : joinSlash (w :: ws) = w ++ '/' :: joinSlash ws := by
  cases ws with
  | nil => exact absurd rfl h
  | cons a r => rfl

theorem join_split (s : Str) : joinSlash (splitSlash s) = s := by
  induction s with
  | nil => rfl
  | cons c cs ih =>
    simp only [splitSlash]
    split
    · next h => subst h; rw [joinSlash_cons _ (splitSlash_ne_nil cs), ih]; rfl
    · cases hs : splitSlash cs with
      | nil => exact absurd hs (splitSlash_ne_nil cs)
      | cons w ws =>
        rw [hs] at ih
        simp only
        cases ws with
        | nil => simp only [joinSlash] at ih ⊢; rw [ih]
        | cons a r =>
          rw [joinSlash_cons _ (by simp)] at ih ⊢
          rw [List.cons_append, ih]

theorem split_append (p r : Str) : splitSlash (p ++ '/' :: r) = splitSlash p ++ splitSlash r := by
  induction p with
  | nil => simp [splitSlash]
  | cons c cs ih =>
    simp only [List.cons_append, splitSlash, ih]
    split
    · rfl
    · cases hs : splitSlash cs with
      | nil => exact absurd hs (splitSlash_ne_nil cs)
      | cons w ws => simp

theorem split_inj {a b : Str} (h : splitSlash a = splitSlash b) : a = b := by
  rw [← join_split a, h, join_split]

theorem join_append {a b : List Str} (ha : a ≠ []) (hb : b ≠ []) :
    joinSlash (a ++ b) = joinSlash a ++ '/' :: joinSlash b := by
  induction a with
  | nil => exact absurd rfl ha
  | cons w ws ih =>
    cases ws with
    | nil => rw [List.singleton_append, joinSlash_cons _ hb]; rfl
    | cons x xs =>
      have := ih (by simp)
      rw [List.cons_append, joinSlash_cons _ (by simp), this, joinSlash_cons w (ws := x :: xs) (by simp)]
      simp

theorem mem_splitSlash {s w : Str} (h : w ∈ splitSlash s) : ∀ c ∈ w, c ∈ s := by
  induction s generalizing w with
  | nil => simp [splitSlash] at h; subst h; simp
  | cons c cs ih =>
    simp only [splitSlash] at h
    split at h
    · rcases List.mem_cons.1 h with rfl | h
      · simp
      · intro d hd; exact List.mem_cons_of_mem _ (ih h d hd)
    · cases hs : splitSlash cs with
      | nil => exact absurd hs (splitSlash_ne_nil cs)
      | cons a r =>
        rw [hs] at h ih
        simp only at h
        rcases List.mem_cons.1 h with rfl | h
        · intro d hd
          rcases List.mem_cons.1 hd with rfl | hd
          · exact List.mem_cons_self
          · exact List.mem_cons_of_mem _ (ih List.mem_cons_self d hd)
        · intro d hd; exact List.mem_cons_of_mem _ (ih (List.mem_cons_of_mem _ h) d hd)

theorem wild_literal {p : Str} (hp : Literal p) (s : Str) : wild p s = true ↔ s = p := by
  induction p generalizing s with
  | nil => simp [wild]
  | cons c p ih =>
    have hc := hp c (by simp)
    have hp' : Literal p := fun d hd => hp d (by simp [hd])
    have h1 : c ≠ '*' := by rintro rfl; simp [isGlobMeta] at hc
    have h2 : c ≠ '?' := by rintro rfl; simp [isGlobMeta] at hc
    have h3 : c ≠ '\\' := by rintro rfl; simp [isGlobMeta] at hc
    have : wild (c :: p) s = match s with | [] => false | d :: s => c == d && wild p s := by
      conv_lhs => rw [wild.eq_def]
      split <;> simp_all
    rw [this]
    cases s with
    | nil => simp
    | cons d s =>
      simp only [Bool.and_eq_true, beq_iff_eq, ih hp', List.cons.injEq]
      constructor
      · rintro ⟨h, h'⟩; exact ⟨h.symm, h'⟩
      · rintro ⟨h, h'⟩; exact ⟨h.symm, h'⟩

theorem literal_comp {p w : Str} (hp : Literal p) (hw : w ∈ splitSlash p) : Literal w ∧ w ≠ ['*', '*'] := by
  have h := mem_splitSlash hw
  refine ⟨fun c hc => hp c (h c hc), ?_⟩
  rintro rfl
  have := hp '*' (h '*' (by simp))
  simp [isGlobMeta] at this

theorem globComps_literal {P : List Str} (hP : ∀ w ∈ P, Literal w ∧ w ≠ ['*', '*']) (Q T : List Str) :
    globComps (P ++ Q) T = true ↔ ∃ t, T = P ++ t ∧ globComps Q t = true := by
  induction P generalizing T with
  | nil => simp
  | cons p P ih =>
    have hp := hP p (by simp)
    simp only [List.cons_append, globComps, hp.2, if_false]
    cases T with
    | nil => simp
    | cons t T =>
      simp only [Bool.and_eq_true, wild_literal hp.1, ih (fun w hw => hP w (by simp [hw])), List.cons.injEq]
      constructor
      · rintro ⟨rfl, u, hu, h⟩; exact ⟨u, ⟨rfl, hu⟩, h⟩
      · rintro ⟨u, ⟨rfl, hu⟩, h⟩; exact ⟨rfl, u, hu, h⟩

theorem globRef_literal_head {p s : Str} (h : p.head? ≠ some '!') :
    globRef p s = globComps (splitSlash p) (splitSlash s) := by
  unfold globRef
  split
  · next h' => simp at h
  · rfl

theorem splitSlash_stars : splitSlash (str "**") = [['*', '*']] := by decide

theorem literal_head {p : Str} (hp : Literal p) (q : Str) (hq : q.head? ≠ some '!') : (p ++ q).head? ≠ some '!' := by
  cases p with
  | nil => exact hq
  | cons c p =>
    intro h
    simp only [List.cons_append, List.head?_cons, Option.some.injEq] at h
    have := hp c (by simp)
    rw [h] at this
    simp [isGlobMeta] at this

/-- The reference matcher satisfies the laws, so they are consistent. -/
theorem globRef_laws : GlobLaws globRef := by
  refine ⟨?_, ?_, ?_, ?_⟩
  · intro p s hp
    have hh : p.head? ≠ some '!' := by simpa using literal_head hp [] (by simp)
    rw [globRef_literal_head hh]
    have := globComps_literal (P := splitSlash p) (fun w hw => literal_comp hp hw) [] (splitSlash s)
    simp only [List.append_nil, globComps, List.isEmpty_iff] at this
    rw [this]
    constructor
    · rintro ⟨t, ht, rfl⟩; exact split_inj (by simpa using ht)
    · rintro rfl; exact ⟨[], by simp, rfl⟩
  · intro p s hp _
    have hh : (p ++ str "/**").head? ≠ some '!' := literal_head hp _ (by decide)
    rw [globRef_literal_head hh]
    have e : splitSlash (p ++ str "/**") = splitSlash p ++ [['*', '*']] := by
      have := split_append p (str "**"); rw [splitSlash_stars] at this; exact this
    rw [e, globComps_literal (fun w hw => literal_comp hp hw)]
    simp only [globComps, if_true, List.isEmpty_nil, Bool.not_eq_true', List.isEmpty_eq_false_iff]
    constructor
    · rintro ⟨t, ht, hne⟩
      refine ⟨joinSlash t, ?_⟩
      have := congrArg joinSlash ht
      rw [join_split, join_append (splitSlash_ne_nil p) hne, join_split] at this
      simp [this]
    · rintro ⟨r, rfl⟩
      refine ⟨splitSlash r, ?_, splitSlash_ne_nil r⟩
      rw [List.append_assoc]; exact split_append p r
  · intro w s hw hne _ _ _
    rw [globRef_literal_head (p := str "**/" ++ w) (show (['*', '*', '/'] ++ w).head? ≠ some '!' by simp)]
    have e : splitSlash (str "**/" ++ w) = ['*', '*'] :: splitSlash w := by
      have := split_append (str "**") w; rw [splitSlash_stars] at this; exact this
    rw [e]
    simp only [globComps, if_true]
    have : (splitSlash w).isEmpty = false := by
      rw [List.isEmpty_eq_false_iff]; exact splitSlash_ne_nil w
    rw [this]
    simp only [Bool.false_eq_true, if_false, List.any_eq_true, List.mem_tails]
    have key : ∀ T, globComps (splitSlash w) T = true ↔ T = splitSlash w := by
      intro T
      have := globComps_literal (P := splitSlash w) (fun x hx => literal_comp hw hx) [] T
      simp only [List.append_nil, globComps, List.isEmpty_iff] at this
      rw [this]
      constructor
      · rintro ⟨t, ht, rfl⟩; simpa using ht
      · rintro rfl; exact ⟨[], by simp, rfl⟩
    constructor
    · rintro ⟨T, ⟨pre, hpre⟩, hT⟩
      rw [key] at hT; subst hT
      by_cases hp : pre = []
      · subst hp; left; exact split_inj (by simpa using hpre.symm)
      · right
        have := congrArg joinSlash hpre
        rw [join_split, join_append hp (splitSlash_ne_nil w), join_split] at this
        exact ⟨joinSlash pre, this⟩
    · rintro (rfl | ⟨u, rfl⟩)
      · exact ⟨splitSlash s, List.suffix_refl _, (key _).2 rfl⟩
      · exact ⟨splitSlash w, ⟨splitSlash u, (split_append u w).symm⟩, (key _).2 rfl⟩
  · intro w s hw hne _ _ _
    rw [globRef_literal_head (p := str "**/" ++ w ++ str "/**")
      (show (['*', '*', '/'] ++ w ++ str "/**").head? ≠ some '!' by simp)]
    have e : splitSlash (str "**/" ++ w ++ str "/**") = ['*', '*'] :: (splitSlash w ++ [['*', '*']]) := by
      have h1 := split_append (str "**") (w ++ str "/**")
      have h2 := split_append w (str "**")
      rw [splitSlash_stars] at h1 h2
      rw [List.append_assoc]
      refine Eq.trans h1 ?_
      rw [List.singleton_append]
      exact congrArg _ h2
    rw [e]
    simp only [globComps, if_true]
    have : (splitSlash w ++ [['*', '*']]).isEmpty = false := by
      rw [List.isEmpty_eq_false_iff]; simp
    rw [this]
    simp only [Bool.false_eq_true, if_false, List.any_eq_true, List.mem_tails]
    have key : ∀ T, globComps (splitSlash w ++ [['*', '*']]) T = true ↔ ∃ t, T = splitSlash w ++ t ∧ t ≠ [] := by
      intro T
      rw [globComps_literal (fun x hx => literal_comp hw hx)]
      simp [globComps]
    constructor
    · rintro ⟨T, ⟨pre, hpre⟩, hT⟩
      rw [key] at hT
      obtain ⟨t, rfl, ht⟩ := hT
      have hj := congrArg joinSlash hpre
      rw [join_split] at hj
      by_cases hp : pre = []
      · subst hp
        rw [List.nil_append, join_append (splitSlash_ne_nil w) ht, join_split] at hj
        left; exact ⟨joinSlash t, by simp [← hj]⟩
      · rw [join_append hp (by simp [ht]), join_append (splitSlash_ne_nil w) ht, join_split] at hj
        right; exact ⟨joinSlash pre, joinSlash t, by simp [← hj]⟩
    · rintro (⟨r, rfl⟩ | ⟨u, r, rfl⟩)
      · refine ⟨_, List.suffix_refl _, (key _).2 ⟨splitSlash r, ?_, splitSlash_ne_nil r⟩⟩
        rw [List.append_assoc]; exact split_append w r
      · refine ⟨splitSlash w ++ splitSlash r, ⟨splitSlash u, ?_⟩, (key _).2 ⟨splitSlash r, rfl, splitSlash_ne_nil r⟩⟩
        rw [← split_append w r, ← split_append]
        congr 1; simp

example : globRef (str "/home/*/.*/**") (str "/home/u/.cache/x/y") = true := by decide
example : globRef (str "/home/*/.*/**") (str "/home/u/src/.x") = false := by decide
example : globRef (str "**/.git/**") (str "/a/b/.git/config") = true := by decide
example : globRef (str "a/**") (str "a") = false := by decide

end SB
