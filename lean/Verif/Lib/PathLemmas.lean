import Verif.Basic

/-! Helper lemmas on paths, prefixes and the order of paths (proof machinery, no model content). -/

namespace SB

theorem path_le_append (a b : Path) : a ≤ a ++ b := by
  induction a with
  | nil =>
    cases b with
    | nil => exact le_refl _
    | cons c b => exact le_of_lt (show List.Lex (· < ·) [] (c :: b) from List.Lex.nil)
  | cons x xs ih => exact List.cons_le_cons x ih

theorem path_le_of_prefix {a b : Path} (h : a <+: b) : a ≤ b := by
  obtain ⟨r, rfl⟩ := h; exact path_le_append a r

theorem path_lt_of_below {a b : Path} (h : Below a b) : a < b := by
  obtain ⟨r, hr, rfl⟩ := h
  refine lt_of_le_of_ne (path_le_append a r) ?_
  intro h
  apply hr
  have := congrArg List.length h
  simp at this
  exact this

theorem Below.prefix {a b : Path} (h : Below a b) : a <+: b := by
  obtain ⟨r, _, rfl⟩ := h; exact ⟨r, rfl⟩

theorem Below.ne {a b : Path} (h : Below a b) : a ≠ b := (path_lt_of_below h).ne

theorem below_iff {a b : Path} : Below a b ↔ a <+: b ∧ a ≠ b := by
  constructor
  · intro h; exact ⟨h.prefix, h.ne⟩
  · rintro ⟨⟨r, rfl⟩, hne⟩
    refine ⟨r, ?_, rfl⟩
    rintro rfl; simp at hne

instance (a b : Path) : Decidable (Below a b) := decidable_of_iff _ below_iff.symm

theorem Below.trans {a b c : Path} (h1 : Below a b) (h2 : Below b c) : Below a c := by
  obtain ⟨r, hr, rfl⟩ := h1; obtain ⟨s, hs, rfl⟩ := h2
  exact ⟨r ++ s, by simp [hr], by simp⟩

theorem not_below_self (a : Path) : ¬ Below a a := fun h => h.ne rfl

theorem Below.asymm {a b : Path} (h : Below a b) : ¬ Below b a :=
  fun h' => not_below_self a (h.trans h')

theorem Below.not_prefix {a b : Path} (h : Below a b) : ¬ b <+: a := by
  intro h'
  obtain ⟨r, hr, rfl⟩ := h
  have := h'.length_le
  rw [List.length_append] at this
  exact hr (List.length_eq_zero_iff.1 (by omega))

theorem below_of_prefix_below {a b c : Path} (h1 : a <+: b) (h2 : Below b c) : Below a c := by
  obtain ⟨r, rfl⟩ := h1; obtain ⟨s, hs, rfl⟩ := h2
  exact ⟨r ++ s, by simp [hs], by simp⟩

theorem below_of_below_prefix {a b c : Path} (h1 : Below a b) (h2 : b <+: c) : Below a c := by
  obtain ⟨r, hr, rfl⟩ := h1; obtain ⟨s, rfl⟩ := h2
  exact ⟨r ++ s, by simp [hr], by simp⟩

theorem dropLast_below {p : Path} (h : p ≠ []) : Below p.dropLast p :=
  ⟨[p.getLast h], by simp, (List.dropLast_append_getLast h).symm⟩

theorem prefix_dropLast_of_below {a b : Path} (h : Below a b) : a <+: b.dropLast := by
  obtain ⟨r, hr, rfl⟩ := h
  rw [List.dropLast_append_of_ne_nil hr]
  exact ⟨_, rfl⟩

theorem prefix_total {a b c : Path} (h1 : a <+: c) (h2 : b <+: c) : a <+: b ∨ b <+: a :=
  List.prefix_or_prefix_of_prefix h1 h2

theorem NormalPath.append {a b : Path} (ha : NormalPath a) (hb : NormalPath b) : NormalPath (a ++ b) := by
  intro n hn; rcases List.mem_append.1 hn with h | h
  · exact ha n h
  · exact hb n h

theorem NormalPath.of_append_left {a b : Path} (h : NormalPath (a ++ b)) : NormalPath a :=
  fun n hn => h n (List.mem_append_left _ hn)

theorem NormalPath.of_append_right {a b : Path} (h : NormalPath (a ++ b)) : NormalPath b :=
  fun n hn => h n (List.mem_append_right _ hn)

theorem NormalPath.of_prefix {a b : Path} (h : NormalPath b) (hp : a <+: b) : NormalPath a := by
  obtain ⟨r, rfl⟩ := hp; exact h.of_append_left

theorem NormalPath.dropLast {a : Path} (h : NormalPath a) : NormalPath a.dropLast :=
  h.of_prefix (List.dropLast_prefix a)

/-! ### sorting -/

theorem perm_stableSort {α} (le : α → α → Bool) (l : List α) : (stableSort le l).Perm l :=
  List.perm_insertionSort _ _

theorem mem_stableSort {α} {le : α → α → Bool} {l : List α} {a : α} : a ∈ stableSort le l ↔ a ∈ l :=
  (perm_stableSort le l).mem_iff

theorem pairwise_stableSort {α} {le : α → α → Bool}
    (htot : ∀ a b, le a b = true ∨ le b a = true)
    (htr : ∀ a b c, le a b = true → le b c = true → le a c = true) (l : List α) :
    (stableSort le l).Pairwise (fun a b => le a b = true) := by
  have : Std.Total (fun a b : α => le a b = true) := ⟨htot⟩
  have : IsTrans α (fun a b : α => le a b = true) := ⟨htr⟩
  exact List.pairwise_insertionSort _ _

/-! ### display -/

theorem display_nil : display [] = ['/'] := rfl

theorem display_cons (n : Name) (p : Path) : display (n :: p) = (n :: p).flatMap (fun n => '/' :: n) := rfl

theorem flatMap_slash_inj {p q : Path} (hp : NormalPath p) (hq : NormalPath q)
    (h : p.flatMap (fun n => '/' :: n) = q.flatMap (fun n => '/' :: n)) : p = q := by
  induction p generalizing q with
  | nil =>
    cases q with
    | nil => rfl
    | cons => simp at h
  | cons a p ih =>
    cases q with
    | nil => simp at h
    | cons b q =>
      simp only [List.flatMap_cons, List.cons_append, List.cons.injEq, true_and] at h
      have key : ∀ (u v : Str) (s t : Path), '/' ∉ u → '/' ∉ v →
          u ++ s.flatMap (fun n => '/' :: n) = v ++ t.flatMap (fun n => '/' :: n) → u = v ∧ 
          s.flatMap (fun n => '/' :: n) = t.flatMap (fun n => '/' :: n) := by
        intro u
        induction u with
        | nil =>
          intro v s t _ hv h
          cases v with
          | nil => exact ⟨rfl, h⟩
          | cons c v =>
            cases s with
            | nil => simp at h
            | cons x s =>
              simp only [List.nil_append, List.flatMap_cons, List.cons_append, List.cons.injEq] at h
              exact absurd (by rw [h.1]; exact List.mem_cons_self) hv
        | cons c u ihu =>
          intro v s t hu hv h
          cases v with
          | nil =>
            cases t with
            | nil => simp at h
            | cons x t =>
              simp only [List.nil_append, List.flatMap_cons, List.cons_append, List.cons.injEq] at h
              exact absurd (by rw [← h.1]; exact List.mem_cons_self) hu
          | cons d v =>
            simp only [List.cons_append, List.cons.injEq] at h
            have := ihu v s t (fun hh => hu (by simp [hh])) (fun hh => hv (by simp [hh])) h.2
            exact ⟨by rw [h.1, this.1], this.2⟩
      obtain ⟨h1, h2⟩ := key a b p q (hp a (by simp)).2.1 (hq b (by simp)).2.1 h
      rw [h1, ih (fun n hn => hp n (by simp [hn])) (fun n hn => hq n (by simp [hn])) h2]

theorem display_inj {p q : Path} (hp : NormalPath p) (hq : NormalPath q)
    (h : display p = display q) : p = q := by
  cases p with
  | nil =>
    cases q with
    | nil => rfl
    | cons b q =>
      simp only [display, List.flatMap_cons, List.cons_append] at h
      have := (hq b (by simp)).1
      simp at h
      exact absurd h.1.symm (by simpa using this.symm)
  | cons a p =>
    cases q with
    | nil =>
      simp only [display, List.flatMap_cons, List.cons_append] at h
      have := (hp a (by simp)).1
      simp at h
      exact absurd h.1 this
    | cons b q => exact flatMap_slash_inj hp hq h

end SB
