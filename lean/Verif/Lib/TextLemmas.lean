import Verif.Model.Glob
import Verif.Lib.PathLemmas

/-! Helper lemmas relating path texts and component lists (proof machinery). -/

namespace SB

theorem split_noSlash {n : Str} (h : '/' ∉ n) : splitSlash n = [n] := by
  induction n with
  | nil => rfl
  | cons c n ih =>
    simp only [List.mem_cons, not_or] at h
    simp [splitSlash, Ne.symm h.1, ih h.2]

theorem split_flatMap {p : Path} (hp : ∀ n ∈ p, '/' ∉ n) : splitSlash (p.flatMap (fun n => '/' :: n)) = [] :: p := by
  induction p with
  | nil => rfl
  | cons n p ih =>
    have ih := ih (fun m hm => hp m (by simp [hm]))
    simp only [List.flatMap_cons, List.cons_append, splitSlash, if_true, List.cons.injEq, true_and]
    cases p with
    | nil => simpa using split_noSlash (hp n (by simp))
    | cons m p =>
      simp only [List.flatMap_cons, List.cons_append] at ih ⊢
      rw [split_append, split_noSlash (hp n (by simp))]
      have : splitSlash ('/' :: (m ++ List.flatMap (fun n => '/' :: n) p)) = [] :: (m :: p) := ih
      simp only [splitSlash, if_true, List.cons.injEq, true_and] at this
      rw [this]; rfl

theorem split_display {p : Path} (hp : NormalPath p) (hne : p ≠ []) : splitSlash (display p) = [] :: p := by
  simp only [display, hne, if_false]
  exact split_flatMap (fun n hn => (hp n hn).2.1)

theorem filter_normal {p : Path} (hp : NormalPath p) : p.filter (fun n => n ≠ [] ∧ n ≠ ['.']) = p := by
  rw [List.filter_eq_self]
  intro n hn
  simp [(hp n hn).1, (hp n hn).2.2.1]

theorem components_display {p : Path} (hp : NormalPath p) : components (display p) = p := by
  by_cases hne : p = []
  · subst hne; decide
  · unfold components
    rw [split_display hp hne]
    simpa using filter_normal hp

theorem components_cwd_append {cwd : Path} (h : NormalPath cwd) (s : Str) :
    components (display cwd ++ '/' :: s) = cwd ++ components s := by
  have := components_display h
  unfold components at this ⊢
  rw [split_append, List.filter_append, this]

theorem pathText_display {p : Path} (hp : NormalPath p) (hne : p ≠ []) : PathText (display p) := by
  have hs := split_display hp hne
  constructor
  · intro h
    obtain ⟨u, hu⟩ : ∃ u, display p = u ++ ['/'] := by
      refine ⟨(display p).dropLast, ?_⟩
      have hne' : display p ≠ [] := by intro h'; rw [h'] at h; simp at h
      have := List.dropLast_append_getLast hne'
      rw [List.getLast?_eq_some_getLast hne'] at h
      simp only [Option.some.injEq] at h
      rw [h] at this; exact this.symm
    rw [hu, split_append] at hs
    have h1 : splitSlash [] = [[]] := rfl
    rw [h1] at hs
    cases hsu : splitSlash u with
    | nil => exact splitSlash_ne_nil u hsu
    | cons a r =>
      rw [hsu] at hs
      simp only [List.cons_append, List.cons.injEq] at hs
      have : ([] : Str) ∈ p := by rw [← hs.2]; simp
      exact (hp [] this).1 rfl
  · rintro ⟨u, v, huv⟩
    have : display p = u ++ '/' :: ('/' :: v) := by rw [← huv]; simp
    rw [this, split_append] at hs
    cases hsu : splitSlash u with
    | nil => exact splitSlash_ne_nil u hsu
    | cons a r =>
      rw [hsu] at hs
      simp only [List.cons_append, List.cons.injEq, splitSlash, if_true] at hs
      have : ([] : Str) ∈ p := by rw [← hs.2]; simp
      exact (hp [] this).1 rfl

theorem literal_display {p : Path} (h : ∀ n ∈ p, Literal n) : Literal (display p) := by
  unfold display
  split
  · intro c hc; simp at hc; subst hc; decide
  · intro c hc
    rw [List.mem_flatMap] at hc
    obtain ⟨n, hn, hc⟩ := hc
    rcases List.mem_cons.1 hc with rfl | hc
    · decide
    · exact h n hn c hc

theorem mem_components {s : Str} {n : Name} (h : n ∈ components s) : n ≠ [] ∧ '/' ∉ n ∧ n ≠ ['.'] := by
  unfold components at h
  rw [List.mem_filter] at h
  obtain ⟨h1, h2⟩ := h
  simp only [ne_eq, decide_eq_true_eq] at h2
  refine ⟨h2.1, ?_, h2.2⟩
  clear h2
  induction s generalizing n with
  | nil => simp [splitSlash] at h1; subst h1; simp
  | cons c cs ih =>
    simp only [splitSlash] at h1
    split at h1
    · rcases List.mem_cons.1 h1 with rfl | h1
      · simp
      · exact ih h1
    · next hc =>
      cases hs : splitSlash cs with
      | nil => exact absurd hs (splitSlash_ne_nil cs)
      | cons a r =>
        rw [hs] at h1 ih
        simp only at h1
        rcases List.mem_cons.1 h1 with rfl | h1
        · intro hm
          rcases List.mem_cons.1 hm with h | h
          · exact hc h.symm
          · exact ih List.mem_cons_self h
        · exact ih (List.mem_cons_of_mem _ h1)

end SB
