import Verif.Lib.White
import Verif.Model.Config

/-!
# The value of SANDBOX_BIND and SANDBOX_MASK: what the items of a comma-separated list are
-/

namespace SB

/-- `t` is `s` without the white space around it. -/
def Spec.Trimmed (s t : Str) : Prop :=
  ∃ a b, s = a ++ t ++ b ∧ (∀ c ∈ a, Spec.white c = true) ∧ (∀ c ∈ b, Spec.white c = true) ∧ (∀ c, t.head? = some c → Spec.white c = false) ∧ (∀ c, t.getLast? = some c → Spec.white c = false)

/-- `t` is an item of the comma-separated list `v`: a non-empty text between commas (or the ends of `v`), without the white space around it. -/
def Spec.ListItem (v t : Str) : Prop :=
  ∃ pre piece post, v = pre ++ piece ++ post ∧ ',' ∉ piece ∧ (pre = [] ∨ pre.getLast? = some ',') ∧ (post = [] ∨ post.head? = some ',') ∧ Spec.Trimmed piece t ∧ t ≠ []

theorem dropWhile_split (p : Char → Bool) (s : Str) : ∃ a, s = a ++ s.dropWhile p ∧ ∀ c ∈ a, p c = true :=
  ⟨s.takeWhile p, List.takeWhile_append_dropWhile.symm, fun c hc => List.all_eq_true.1 List.all_takeWhile c hc⟩

theorem dropWhile_head (p : Char → Bool) (s : Str) (c : Char) (h : (s.dropWhile p).head? = some c) : p c = false := by
  have := List.head?_dropWhile_not p s
  rw [h] at this
  simpa using this

theorem trimmed_trim (s : Str) : Spec.Trimmed s (trim s) := by
  unfold Spec.Trimmed
  rw [← isWs_eq]
  obtain ⟨a, ha, hap⟩ := dropWhile_split isWs s
  obtain ⟨b, hb, hbp⟩ := dropWhile_split isWs (s.dropWhile isWs).reverse
  refine ⟨a, b.reverse, ?_, hap, fun c hc => hbp c (List.mem_reverse.1 hc), ?_, ?_⟩
  · have h2 : s.dropWhile isWs = trim s ++ b.reverse := by
      unfold trim
      rw [← List.reverse_append, ← hb, List.reverse_reverse]
    rw [List.append_assoc, ← h2]
    exact ha
  · intro c hc
    refine dropWhile_head isWs s c ?_
    have h2 : s.dropWhile isWs = trim s ++ b.reverse := by
      unfold trim
      rw [← List.reverse_append, ← hb, List.reverse_reverse]
    rw [h2]
    cases ht : trim s with
    | nil => rw [ht] at hc; cases hc
    | cons x r => rw [ht] at hc; simpa using hc
  · intro c hc
    unfold trim at hc
    rw [List.getLast?_reverse] at hc
    exact dropWhile_head isWs _ c hc

theorem dropWhile_ws {a t : Str} (ha : ∀ c ∈ a, isWs c = true) (ht : ∀ c, t.head? = some c → isWs c = false) : (a ++ t).dropWhile isWs = t := by
  induction a with
  | nil =>
    cases t with
    | nil => rfl
    | cons x r => simp [ht x rfl]
  | cons x a ih =>
    simp only [List.cons_append, List.dropWhile_cons, ha x (by simp), if_true]
    exact ih (fun c hc => ha c (by simp [hc]))

theorem trimmed_iff {s t : Str} : Spec.Trimmed s t ↔ t = trim s := by
  constructor
  · rintro ⟨a, b, rfl, ha, hb, hh, hl⟩
    rw [← isWs_eq] at ha hb hh hl
    by_cases ht : t = []
    · subst ht
      have : (a ++ [] ++ b).dropWhile isWs = [] := by
        have hall : ∀ l : Str, (∀ c ∈ l, isWs c = true) → l.dropWhile isWs = [] := by
          intro l hl
          have := dropWhile_ws (a := l) (t := []) hl (by simp)
          simpa using this
        refine hall _ ?_
        intro c hc
        simp only [List.append_nil, List.mem_append] at hc
        rcases hc with hc | hc
        · exact ha c hc
        · exact hb c hc
      unfold trim
      rw [this]
      rfl
    · unfold trim
      rw [List.append_assoc, dropWhile_ws ha (by intro c hc; cases t with | nil => exact absurd rfl ht | cons x r => exact hh c (by simpa using hc)),
        List.reverse_append, dropWhile_ws (by intro c hc; exact hb c (List.mem_reverse.1 hc)) (by intro c hc; rw [List.head?_reverse] at hc; exact hl c hc),
        List.reverse_reverse]
  · rintro rfl
    exact trimmed_trim s

theorem splitComma_ne (s : Str) : splitComma s ≠ [] := by
  cases s with
  | nil => simp [splitComma]
  | cons c r =>
    unfold splitComma
    split
    · simp
    · split <;> simp

theorem splitComma_append {u : Str} (hu : ',' ∉ u) (r : Str) : splitComma (u ++ ',' :: r) = u :: splitComma r := by
  induction u with
  | nil => simp [splitComma]
  | cons c u ih =>
    have hc : c ≠ ',' := fun h => hu (by simp [h])
    rw [List.cons_append, splitComma, if_neg hc, ih (fun h => hu (by simp [h]))]

theorem splitComma_noComma {u : Str} (hu : ',' ∉ u) : splitComma u = [u] := by
  induction u with
  | nil => rfl
  | cons c u ih =>
    have hc : c ≠ ',' := fun h => hu (by simp [h])
    rw [splitComma, if_neg hc, ih (fun h => hu (by simp [h]))]

theorem cut_comma : ∀ v : Str, ',' ∉ v ∨ ∃ u r, v = u ++ ',' :: r ∧ ',' ∉ u
  | [] => .inl (by simp)
  | c :: v => by
    by_cases hc : c = ','
    · exact .inr ⟨[], v, by simp [hc], by simp⟩
    · rcases cut_comma v with h | ⟨u, r, rfl, hu⟩
      · exact .inl (by simp only [List.mem_cons, not_or]; exact ⟨fun h => hc h.symm, h⟩)
      · exact .inr ⟨c :: u, r, rfl, by simp only [List.mem_cons, not_or]; exact ⟨fun h => hc h.symm, hu⟩⟩

/-- The pieces between commas. -/
theorem mem_splitComma : ∀ (n : Nat) (v : Str), v.length ≤ n → ∀ x, x ∈ splitComma v ↔
    ∃ pre post, v = pre ++ x ++ post ∧ ',' ∉ x ∧ (pre = [] ∨ pre.getLast? = some ',') ∧ (post = [] ∨ post.head? = some ',') := by
  intro n
  induction n with
  | zero =>
    intro v hv x
    have : v = [] := List.length_eq_zero_iff.1 (by omega)
    subst this
    simp only [splitComma, List.mem_singleton]
    constructor
    · rintro rfl; exact ⟨[], [], rfl, by simp, .inl rfl, .inl rfl⟩
    · rintro ⟨pre, post, h, _⟩
      have := congrArg List.length h
      simp only [List.length_append, List.length_nil] at this
      exact List.length_eq_zero_iff.1 (by omega)
  | succ n ih =>
    intro v hv x
    rcases cut_comma v with h | ⟨u, r, rfl, hu⟩
    · rw [splitComma_noComma h, List.mem_singleton]
      constructor
      · rintro rfl; exact ⟨[], [], by simp, h, .inl rfl, .inl rfl⟩
      · rintro ⟨pre, post, rfl, _, hpre, hpost⟩
        have hp : pre = [] := by
          rcases hpre with h' | h'
          · exact h'
          · exact absurd (by have := List.mem_of_getLast? h'; simp [this]) h
        have hq : post = [] := by
          rcases hpost with h' | h'
          · exact h'
          · exact absurd (by have := List.mem_of_head? h'; simp [this]) h
        simp [hp, hq]
    · rw [splitComma_append hu, List.mem_cons, ih r (by simp at hv; omega) x]
      constructor
      · rintro (rfl | ⟨pre, post, rfl, hx, hpre, hpost⟩)
        · exact ⟨[], ',' :: r, by simp, hu, .inl rfl, .inr rfl⟩
        · refine ⟨u ++ ',' :: pre, post, by simp, hx, .inr ?_, hpost⟩
          rcases hpre with rfl | h'
          · simp
          · rw [List.getLast?_append_of_ne_nil _ (by simp)]
            cases pre with
            | nil => cases h'
            | cons p pre => simpa using h'
      · rintro ⟨pre, post, hv', hx, hpre, hpost⟩
        rcases hpre with rfl | hpre
        · left
          rw [List.nil_append] at hv'
          rcases hpost with rfl | hpost
          · rw [List.append_nil] at hv'
            exact absurd (by rw [← hv']; simp) hx
          · cases post with
            | nil => cases hpost
            | cons c post =>
              cases hpost
              have h1 := splitComma_append hu r
              rw [hv', splitComma_append hx] at h1
              simp only [List.cons.injEq] at h1
              exact h1.1
        · right
          obtain ⟨pre', rfl⟩ : ∃ p, pre = p ++ [','] := by
            have hne : pre ≠ [] := by intro h; rw [h] at hpre; cases hpre
            refine ⟨pre.dropLast, ?_⟩
            have := List.dropLast_append_getLast hne
            rw [List.getLast?_eq_some_getLast hne] at hpre
            rw [Option.some.injEq] at hpre
            rw [hpre] at this
            exact this.symm
          rw [show pre' ++ [','] ++ x ++ post = pre' ++ ',' :: (x ++ post) by simp] at hv'
          rcases List.append_eq_append_iff.1 hv' with ⟨k, hk, hk2⟩ | ⟨k, hk, hk2⟩
          · cases k with
            | nil =>
              simp only [List.nil_append, List.cons.injEq, true_and] at hk2
              exact ⟨[], post, by simpa using hk2, hx, .inl rfl, hpost⟩
            | cons c k =>
              simp only [List.cons_append, List.cons.injEq] at hk2
              refine ⟨k ++ [','], post, by rw [hk2.2]; simp, hx, .inr (by simp), hpost⟩
          · cases k with
            | nil =>
              simp only [List.nil_append, List.cons.injEq, true_and] at hk2
              exact ⟨[], post, by simpa using hk2.symm, hx, .inl rfl, hpost⟩
            | cons c k =>
              simp only [List.cons_append, List.cons.injEq] at hk2
              exact absurd (by rw [hk, ← hk2.1]; simp) hu

/-- The program takes the items of the list. -/
theorem mem_listVar (v t : Str) : t ∈ listVar v ↔ Spec.ListItem v t := by
  unfold listVar Spec.ListItem
  simp only [List.mem_filter, List.mem_map, decide_eq_true_eq]
  constructor
  · rintro ⟨⟨x, hx, rfl⟩, hne⟩
    obtain ⟨pre, post, h1, h2, h3, h4⟩ := (mem_splitComma v.length v (Nat.le_refl _) x).1 hx
    exact ⟨pre, x, post, h1, h2, h3, h4, trimmed_trim x, by simpa using hne⟩
  · rintro ⟨pre, x, post, h1, h2, h3, h4, h5, hne⟩
    exact ⟨⟨x, (mem_splitComma v.length v (Nat.le_refl _) x).2 ⟨pre, post, h1, h2, h3, h4⟩, (trimmed_iff.1 h5).symm⟩, by simpa using hne⟩

/-- Non-vacuity. -/
example : listVar (str " /a , ,~/b:/x:ro,") = [str "/a", str "~/b:/x:ro"] := by decide +kernel

end SB
