import Verif.Model.Select
import Verif.Lib.PathLemmas
import Mathlib.Data.List.Infix

/-!
# C20, C21, C22: which changes an action works on
-/

namespace SB

/-! ### C20 -/

theorem isPrefix_display_below {d p : Path} (hd : NormalPath d) (hp : NormalPath p) (hne : d ≠ []) :
    (display d ++ ['/']) <+: display p ↔ Below d p := by
  have hdd : display d = d.flatMap (fun n => '/' :: n) := by simp [display, hne]
  rw [hdd]
  constructor
  · intro h
    have hpne : p ≠ [] := by
      rintro rfl
      obtain ⟨r, hr⟩ := h
      cases d with
      | nil => exact hne rfl
      | cons a d => simp [display] at hr
    rw [show display p = p.flatMap (fun n => '/' :: n) by simp [display, hpne]] at h
    clear hdd hpne hne
    induction d generalizing p with
    | nil =>
      cases p with
      | nil => simp at h
      | cons a p => exact ⟨a :: p, by simp, rfl⟩
    | cons a d ih =>
      cases p with
      | nil => simp at h
      | cons b p =>
        simp only [List.flatMap_cons, List.cons_append, List.append_assoc, List.cons_prefix_cons, true_and] at h
        have key : ∀ (u v : Str), '/' ∉ u → '/' ∉ v → ∀ (d p : Path),
            u ++ (d.flatMap (fun n => '/' :: n) ++ ['/']) <+: v ++ p.flatMap (fun n => '/' :: n) →
            u = v ∧ d.flatMap (fun n => '/' :: n) ++ ['/'] <+: p.flatMap (fun n => '/' :: n) := by
          intro u
          induction u with
          | nil =>
            intro v _ hv d p h
            cases v with
            | nil => exact ⟨rfl, h⟩
            | cons c v =>
              cases d with
              | nil => simp [List.cons_prefix_cons] at h; exact absurd (by rw [h]; simp) hv
              | cons x d => simp [List.cons_prefix_cons] at h; exact absurd (by rw [h.1]; simp) hv
          | cons c u ihu =>
            intro v hu hv d p h
            cases v with
            | nil =>
              cases p with
              | nil => simp at h
              | cons x p =>
                simp only [List.nil_append, List.cons_append, List.flatMap_cons, List.cons_prefix_cons] at h
                exact absurd (by rw [h.1]; simp) hu
            | cons c' v =>
              simp only [List.cons_append, List.cons_prefix_cons] at h
              obtain ⟨h1, h2⟩ := ihu v (fun hh => hu (by simp [hh])) (fun hh => hv (by simp [hh])) d p h.2
              exact ⟨by rw [h.1, h1], h2⟩
        obtain ⟨h1, h2⟩ := key a b (hd a (by simp)).2.1 (hp b (by simp)).2.1 d p h
        obtain ⟨r, hr, hpr⟩ := ih (fun n hn => hd n (by simp [hn])) (fun n hn => hp n (by simp [hn])) h2
        exact ⟨r, hr, by rw [h1, hpr]; rfl⟩
  · rintro ⟨r, hr, rfl⟩
    have : display (d ++ r) = (d ++ r).flatMap (fun n => '/' :: n) := by simp [display, hr]
    rw [this, List.flatMap_append, List.prefix_append_right_inj]
    cases r with
    | nil => exact absurd rfl hr
    | cons a r => simp

/-- **C20 (partial)**: without patterns, from any current directory other than the root, an entry is selected exactly if it is one of
the changes and its path lies strictly below the current directory, component-wise. Missing: the root directory, where the claim is false
(`C20_root_refuted`). -/
theorem C20_no_pattern_partial (glob : Str → Str → Bool) (cwd : Path) (cs : List Entry)
    (hcwd : NormalPath cwd) (hne : cwd ≠ []) (hcs : ∀ e ∈ cs, NormalPath e.dest) (e : Entry) :
    e ∈ matching glob cwd [] cs ↔ e ∈ cs ∧ Below cwd e.dest := by
  simp only [matching, List.map_nil, List.mem_filter, selects, if_true, List.isPrefixOf_iff_prefix]
  constructor
  · rintro ⟨h1, h2⟩
    exact ⟨h1, (isPrefix_display_below hcwd (hcs e h1) hne).1 h2⟩
  · rintro ⟨h1, h2⟩
    exact ⟨h1, (isPrefix_display_below hcwd (hcs e h1) hne).2 h2⟩

/-- **C20 refuted at `/`**: in the root directory nothing is ever selected without a pattern, whatever the changes are. -/
theorem C20_root_refuted (glob : Str → Str → Bool) (cs : List Entry) (hcs : ∀ e ∈ cs, NormalPath e.dest) :
    matching glob [] [] cs = [] := by
  rw [List.eq_nil_iff_forall_not_mem]
  intro e he
  simp only [matching, List.map_nil, List.mem_filter, selects, if_true, List.isPrefixOf_iff_prefix] at he
  obtain ⟨h1, h2⟩ := he
  rw [display_nil] at h2
  cases hd : e.dest with
  | nil => rw [hd] at h2; simp [display] at h2
  | cons a p =>
    have hn := hcs e h1
    rw [hd] at h2 hn
    have ha := hn a (by simp)
    simp only [display, List.flatMap_cons] at h2
    cases a with
    | nil => exact ha.1 rfl
    | cons c a =>
      simp [List.cons_prefix_cons] at h2
      exact ha.2.1 (by rw [← h2]; simp)

/-- Non-vacuity of C20: a change below `/home/u` is selected there, one in `/home/user2` (same text prefix) is not. -/
example :
    let e1 : Entry := { dest := [str "home", str "u", str "f"], op := .remove, source := none, staged := none }
    let e2 : Entry := { dest := [str "home", str "u2", str "f"], op := .remove, source := none, staged := none }
    matching (fun _ _ => false) [str "home", str "u"] [] [e1, e2] = [e1] := by decide

/-- The refutation concerns a real change: `/f` is a change below `/` and is not selected there. -/
example :
    let e : Entry := { dest := [str "f"], op := .remove, source := none, staged := none }
    Below [] e.dest ∧ matching (fun _ _ => true) [] [] [e] = [] := by decide

/-! ### C22 -/

/-- **C22**: the selection is a sub-sequence of the changes (same order, nothing duplicated or invented). -/
theorem C22_sublist (glob : Str → Str → Bool) (cwd : Path) (ps : List Str) (cs : List Entry) :
    (matching glob cwd ps cs).Sublist cs := List.filter_sublist

/-- **C22**: for several patterns an entry is selected exactly if one of the patterns alone selects it. -/
theorem C22_union (glob : Str → Str → Bool) (cwd : Path) (ps : List Str) (hps : ps ≠ []) (cs : List Entry) (e : Entry) :
    e ∈ matching glob cwd ps cs ↔ ∃ p ∈ ps, e ∈ matching glob cwd [p] cs := by
  simp only [matching, List.mem_filter, selects, List.map_eq_nil_iff, hps, if_false, List.any_map, List.any_eq_true,
    List.map_cons, List.map_nil, List.cons_ne_nil, List.any_cons, List.any_nil, Bool.or_false, Function.comp]
  constructor
  · rintro ⟨h, p, hp, hg⟩; exact ⟨p, hp, h, hg⟩
  · rintro ⟨p, hp, h, hg⟩; exact ⟨h, p, hp, hg⟩

/-- **C22**: adding patterns to a non-empty pattern list never unselects a change. -/
theorem C22_monotone (glob : Str → Str → Bool) (cwd : Path) (ps qs : List Str) (hps : ps ≠ []) (hsub : ∀ p ∈ ps, p ∈ qs)
    (cs : List Entry) : ∀ e ∈ matching glob cwd ps cs, e ∈ matching glob cwd qs cs := by
  intro e he
  have hqs : qs ≠ [] := by
    obtain ⟨p, r, rfl⟩ := List.exists_cons_of_ne_nil hps
    exact List.ne_nil_of_mem (hsub p (by simp))
  rw [C22_union _ _ _ hps] at he
  rw [C22_union _ _ _ hqs]
  obtain ⟨p, hp, h⟩ := he
  exact ⟨p, hsub p hp, h⟩

end SB
