import Verif.Props.IgnoreBang

/-! # C24: exactly what the built-in rules hide -/

namespace SB

/-- What is hidden whatever the ignore files say: everything below `/tmp`; names that begin with a dot directly in a home directory (`/home/USER` or `/root`) and everything below them; `.git`
anywhere and everything below it. -/
def Spec.HiddenAlways (p : Path) : Prop :=
  (∃ r, r ≠ [] ∧ p = str "tmp" :: r) ∨ (∃ u d r, p = str "home" :: u :: d :: r ∧ d.head? = some '.') ∨ (∃ d r, p = str "root" :: d :: r ∧ d.head? = some '.') ∨ str ".git" ∈ p

theorem comps_one {w : Str} (hw : w ≠ ['*', '*']) (ps ts : List Str) : globComps (w :: ps) ts = true ↔ ∃ t r, ts = t :: r ∧ wild w t = true ∧ globComps ps r = true := by
  rw [globComps.eq_def]
  simp only [hw, if_false]
  cases ts with
  | nil => simp
  | cons t r => simp [Bool.and_eq_true]

theorem comps_end (ts : List Str) : globComps [['*', '*']] ts = true ↔ ts ≠ [] := by
  rw [globComps.eq_def]
  cases ts <;> simp

theorem comps_nil (ts : List Str) : globComps [] ts = true ↔ ts = [] := by
  rw [globComps.eq_def]
  cases ts <;> simp

theorem wild_lit_iff {w : Str} (h : Literal w) (s : Str) : wild w s = true ↔ s = w := wild_literal h s

theorem wild_star_all (s : Str) : wild ['*'] s = true := by
  rw [wild, List.any_eq_true]
  exact ⟨[], by simp, rfl⟩

theorem wild_dot (s : Str) : wild ['.', '*'] s = true ↔ s.head? = some '.' := by
  rw [wild_lit (by decide) (by decide) (by decide)]
  cases s with
  | nil => simp
  | cons c s =>
    simp only [Bool.and_eq_true, beq_iff_eq, wild_star_all, and_true, List.head?_cons, Option.some.injEq]
    exact eq_comm

theorem some_git {r : List Str} {p : Path} (h : globComps (['*', '*'] :: str ".git" :: r) ([] :: p) = true) : str ".git" ∈ p := by
  rw [globComps_stars (by simp), List.any_eq_true] at h
  obtain ⟨t, ht, h⟩ := h
  rw [comps_one (by decide)] at h
  obtain ⟨x, y, rfl, hx, -⟩ := h
  rw [wild_lit_iff (by decide)] at hx
  subst hx
  have := ((List.mem_tails _ _).1 ht).subset (List.mem_cons_self)
  rcases List.mem_cons.1 this with h | h
  · cases h
  · exact h

/-- **C24**, with the reference matcher: the built-in rules hide exactly that. -/
theorem C24_exactly (p : Path) (hp : NormalPath p) : Spec.BuiltIn globRef p ↔ Spec.HiddenAlways p := by
  by_cases hne : p = []
  · subst hne
    refine ⟨fun h => absurd h (by unfold Spec.BuiltIn; decide), fun h => ?_⟩
    rcases h with ⟨_, _, h⟩ | ⟨_, _, _, h, _⟩ | ⟨_, _, h, _⟩ | h <;> cases h
  have gl : ∀ b : Str, b.head? ≠ some '!' → globRef b (display p) = globComps (splitSlash b) ([] :: p) := by
    intro b hb
    rw [globRef_literal_head hb, split_display hp hne]
  have e1 : globRef (str "/tmp/**") (display p) = true ↔ ∃ r, r ≠ [] ∧ p = str "tmp" :: r := by
    rw [gl _ (by decide), show splitSlash (str "/tmp/**") = [[], str "tmp", ['*', '*']] by decide, comps_one (by decide)]
    simp only [comps_one (show str "tmp" ≠ ['*', '*'] by decide), comps_end, wild_lit_iff (show Literal [] by decide), wild_lit_iff (show Literal (str "tmp") by decide), List.cons.injEq]
    constructor
    · rintro ⟨_, _, ⟨rfl, rfl⟩, -, _, r, h, rfl, hr⟩; exact ⟨r, hr, h⟩
    · rintro ⟨r, hr, h⟩; exact ⟨_, _, ⟨rfl, rfl⟩, rfl, _, r, h, rfl, hr⟩
  have e2 : ∀ r0 : List Str, globComps ([] :: str "home" :: ['*'] :: ['.', '*'] :: r0) ([] :: p) = true ↔ ∃ u d r, p = str "home" :: u :: d :: r ∧ d.head? = some '.' ∧ globComps r0 r = true := by
    intro r0
    rw [comps_one (by decide)]
    simp only [comps_one (show str "home" ≠ ['*', '*'] by decide), comps_one (show ['*'] ≠ ['*', '*'] by decide), comps_one (show ['.', '*'] ≠ ['*', '*'] by decide),
      wild_lit_iff (show Literal [] by decide), wild_lit_iff (show Literal (str "home") by decide), wild_star_all, wild_dot, List.cons.injEq, true_and]
    constructor
    · rintro ⟨_, _, ⟨rfl, rfl⟩, -, _, _, h, rfl, u, _, rfl, d, r, rfl, hd, hr⟩; exact ⟨u, d, r, h, hd, hr⟩
    · rintro ⟨u, d, r, h, hd, hr⟩; exact ⟨_, _, ⟨rfl, rfl⟩, rfl, _, _, h, rfl, u, _, rfl, d, r, rfl, hd, hr⟩
  have e3 : ∀ r0 : List Str, globComps ([] :: str "root" :: ['.', '*'] :: r0) ([] :: p) = true ↔ ∃ d r, p = str "root" :: d :: r ∧ d.head? = some '.' ∧ globComps r0 r = true := by
    intro r0
    rw [comps_one (by decide)]
    simp only [comps_one (show str "root" ≠ ['*', '*'] by decide), comps_one (show ['.', '*'] ≠ ['*', '*'] by decide),
      wild_lit_iff (show Literal [] by decide), wild_lit_iff (show Literal (str "root") by decide), wild_dot, List.cons.injEq]
    constructor
    · rintro ⟨_, _, ⟨rfl, rfl⟩, -, _, _, h, rfl, d, r, rfl, hd, hr⟩; exact ⟨d, r, h, hd, hr⟩
    · rintro ⟨d, r, h, hd, hr⟩; exact ⟨_, _, ⟨rfl, rfl⟩, rfl, _, _, h, rfl, d, r, rfl, hd, hr⟩
  constructor
  · rintro ⟨b, hb, h⟩
    simp only [List.mem_cons, List.not_mem_nil, or_false] at hb
    rcases hb with rfl | rfl | rfl | rfl | rfl | rfl | rfl
    · exact .inl (e1.1 h)
    · rw [gl _ (by decide), show splitSlash (str "/home/*/.*/**") = [[], str "home", ['*'], ['.', '*'], ['*', '*']] by decide, e2] at h
      obtain ⟨u, d, r, h, hd, -⟩ := h
      exact .inr (.inl ⟨u, d, r, h, hd⟩)
    · rw [gl _ (by decide), show splitSlash (str "/home/*/.*") = [[], str "home", ['*'], ['.', '*']] by decide, e2] at h
      obtain ⟨u, d, r, h, hd, -⟩ := h
      exact .inr (.inl ⟨u, d, r, h, hd⟩)
    · rw [gl _ (by decide), show splitSlash (str "/root/.*/**") = [[], str "root", ['.', '*'], ['*', '*']] by decide, e3] at h
      obtain ⟨d, r, h, hd, -⟩ := h
      exact .inr (.inr (.inl ⟨d, r, h, hd⟩))
    · rw [gl _ (by decide), show splitSlash (str "/root/.*") = [[], str "root", ['.', '*']] by decide, e3] at h
      obtain ⟨d, r, h, hd, -⟩ := h
      exact .inr (.inr (.inl ⟨d, r, h, hd⟩))
    · rw [gl _ (by decide), show splitSlash (str "**/.git/**") = [['*', '*'], str ".git", ['*', '*']] by decide] at h
      exact .inr (.inr (.inr (some_git h)))
    · rw [gl _ (by decide), show splitSlash (str "**/.git") = [['*', '*'], str ".git"] by decide] at h
      exact .inr (.inr (.inr (some_git h)))
  · rintro (h | ⟨u, d, r, h, hd⟩ | ⟨d, r, h, hd⟩ | h)
    · exact ⟨"/tmp/**", by simp, e1.2 h⟩
    · by_cases hr : r = []
      · refine ⟨"/home/*/.*", by simp, ?_⟩
        rw [gl _ (by decide), show splitSlash (str "/home/*/.*") = [[], str "home", ['*'], ['.', '*']] by decide, e2]
        exact ⟨u, d, r, h, hd, (comps_nil r).2 hr⟩
      · refine ⟨"/home/*/.*/**", by simp, ?_⟩
        rw [gl _ (by decide), show splitSlash (str "/home/*/.*/**") = [[], str "home", ['*'], ['.', '*'], ['*', '*']] by decide, e2]
        exact ⟨u, d, r, h, hd, (comps_end r).2 hr⟩
    · by_cases hr : r = []
      · refine ⟨"/root/.*", by simp, ?_⟩
        rw [gl _ (by decide), show splitSlash (str "/root/.*") = [[], str "root", ['.', '*']] by decide, e3]
        exact ⟨d, r, h, hd, (comps_nil r).2 hr⟩
      · refine ⟨"/root/.*/**", by simp, ?_⟩
        rw [gl _ (by decide), show splitSlash (str "/root/.*/**") = [[], str "root", ['.', '*'], ['*', '*']] by decide, e3]
        exact ⟨d, r, h, hd, (comps_end r).2 hr⟩
    · exact C24_git p hp h

example : Spec.HiddenAlways [str "home", str "u", str ".bashrc"] ∧ Spec.BuiltIn globRef [str "home", str "u", str ".config", str "a"] ∧ ¬ Spec.HiddenAlways [str "home", str "u", str "a", str ".b"] ∧
    ¬ Spec.BuiltIn globRef [str "tmp"] ∧ ¬ Spec.BuiltIn globRef [str "home", str ".x"] := by
  refine ⟨.inr (.inl ⟨_, _, [], rfl, rfl⟩), by unfold Spec.BuiltIn; decide, ?_, by unfold Spec.BuiltIn; decide, by unfold Spec.BuiltIn; decide⟩
  rw [← C24_exactly _ (by decide)]
  unfold Spec.BuiltIn
  decide

end SB
