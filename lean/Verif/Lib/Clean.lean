import Verif.Props.RmdirRec
import Verif.Lib.Bridge

/-! The clean-up pass of accept, and when the removal pass succeeds (proof machinery). -/

namespace SB

open Classical in
/-- One clean-up step: on success exactly the staged path and everything below it is gone. -/
theorem clean_step {st st' : State} {p : Path} {x : Option AccErr} (hw : st.upper.WF) (hp : p ≠ []) (h : exec (.clean p) st = (st', x)) :
    st'.lower = st.lower ∧ st'.upper.WF ∧
    (x = none → ∀ q, st'.upper.get q = if p <+: q then none else st.upper.get q) ∧
    ((∃ n, st.upper.get p = some n) → Spec.OneDevice st.upper → x = none) := by
  simp only [exec] at h
  cases hg : st.upper.get p with
  | none => 
    rw [hg] at h; simp only [Prod.mk.injEq] at h
    obtain ⟨rfl, rfl⟩ := h
    exact ⟨rfl, hw, (fun h => by cases h), (fun ⟨n, hn⟩ => by cases hn)⟩
  | some n =>
    rw [hg] at h
    simp only at h
    by_cases hd : n.isDir = true
    · rw [if_pos hd] at h
      have h1 := C53_stays_inside (fun _ => none) st.upper p n hw hg hp
      have h2 := C53_success_removes_all (fun _ => none) st.upper p n hw hg hp
      have h3 := C53_succeeds st.upper p n hw hg hd hp
      have heq : rmdirRecursiveF (fun _ => none) st.upper p = rmdirRecursive st.upper p := rfl
      rw [heq] at h1 h2
      cases hr : rmdirRecursive st.upper p with
      | mk up y =>
        rw [hr] at h h1 h2 h3
        simp only at h1 h2 h3
        cases y with
        | none =>
          simp only [Prod.mk.injEq] at h
          obtain ⟨rfl, rfl⟩ := h
          refine ⟨rfl, h1.2.2.2, fun _ q => ?_, fun _ _ => rfl⟩
          split
          · next hpq => exact h2 rfl q hpq
          · next hpq => exact h1.1 q hpq
        | some e =>
          simp only [Prod.mk.injEq] at h
          obtain ⟨rfl, rfl⟩ := h
          refine ⟨rfl, h1.2.2.2, fun h => (by cases h), fun _ ⟨dev, hdev⟩ => ?_⟩
          have := (h3 (fun q m hq hm => (hdev q m hm).trans (hdev p n hg).symm) (fun m hm => (hdev _ m hm).trans (hdev p n hg).symm)).1
          cases this
    · rw [if_neg hd, hw.unlink_eq hg (by simpa using hd)] at h
      simp only [Prod.mk.injEq] at h
      obtain ⟨rfl, rfl⟩ := h
      have hd' : n.isDir = false := by simpa using hd
      refine ⟨rfl, hw.del_nondir hg hd', fun _ q => ?_, fun _ _ => rfl⟩
      rw [FS.get_del]
      by_cases hpq : p = q
      · rw [if_pos hpq, if_pos (hpq ▸ List.prefix_refl _)]
      · rw [if_neg hpq]
        split
        · next hpre => exact hw.no_child hg hd' (below_iff.2 ⟨hpre, hpq⟩)
        · rfl

open Classical in
/-- The clean-up pass over strictly descending paths. -/
theorem clean_run : ∀ (L : List Path) (st : State), st.upper.WF → L.Pairwise (fun a b => b < a) → (∀ p ∈ L, p ≠ []) →
    (∀ st', run (L.map .clean) st = (st', none) → st'.lower = st.lower ∧ st'.upper.WF ∧
      ∀ q, st'.upper.get q = if ∃ p ∈ L, p <+: q then none else st.upper.get q) ∧
    ((∀ p ∈ L, ∃ n, st.upper.get p = some n) → Spec.OneDevice st.upper → (run (L.map .clean) st).2 = none) := by
  intro L
  induction L with
  | nil =>
    intro st hw _ _
    refine ⟨fun st' h => ?_, fun _ _ => rfl⟩
    simp only [List.map_nil, run, Prod.mk.injEq] at h
    obtain ⟨rfl, _⟩ := h
    exact ⟨rfl, hw, fun q => by simp⟩
  | cons p L ih =>
    intro st hw hpw hne
    obtain ⟨hlt, hpw'⟩ := List.pairwise_cons.1 hpw
    simp only [List.map_cons, run]
    cases hx : exec (.clean p) st with
    | mk st1 x =>
      obtain ⟨hl1, hw1, hok, hsucc⟩ := clean_step hw (hne p (by simp)) hx
      cases x with
      | some e =>
        refine ⟨fun st' h => (by simp at h), fun hex hdev => ?_⟩
        have := hsucc (hex p (by simp)) hdev
        cases this
      | none =>
        have hget := hok rfl
        obtain ⟨i1, i2⟩ := ih st1 hw1 hpw' (fun q hq => hne q (by simp [hq]))
        refine ⟨fun st' h => ?_, fun hex hdev => i2 ?_ ?_⟩
        · obtain ⟨a, b, c⟩ := i1 st' h
          refine ⟨a.trans hl1, b, fun q => ?_⟩
          rw [c q]
          by_cases h1 : ∃ p' ∈ L, p' <+: q
          · rw [if_pos h1, if_pos]; obtain ⟨p', hp', h⟩ := h1; exact ⟨p', by simp [hp'], h⟩
          · rw [if_neg h1, hget q]
            by_cases h2 : p <+: q
            · rw [if_pos h2, if_pos ⟨p, by simp, h2⟩]
            · rw [if_neg h2, if_neg]
              rintro ⟨p', hp', h⟩
              rcases List.mem_cons.1 hp' with rfl | hp'
              · exact h2 h
              · exact h1 ⟨p', hp', h⟩
        · intro p' hp'
          obtain ⟨n, hn⟩ := hex p' (by simp [hp'])
          have hnp : ¬ p <+: p' := fun h => absurd (path_le_of_prefix h) (not_le_of_gt (hlt p' hp'))
          exact ⟨n, by rw [hget, if_neg hnp, hn]⟩
        · obtain ⟨dev, hdev⟩ := hdev
          refine ⟨dev, fun q m hm => ?_⟩
          rw [hget] at hm
          split at hm
          · cases hm
          · exact hdev q m hm

theorem mem_dedupConsec {l : List Path} {p : Path} : p ∈ dedupConsec l ↔ p ∈ l := by
  induction l using dedupConsec.induct with
  | case1 => simp [dedupConsec]
  | case2 => simp [dedupConsec]
  | case3 q r ih => simp only [dedupConsec, if_pos]; rw [ih]; simp
  | case4 q q' r h ih => simp only [dedupConsec, if_neg h, List.mem_cons] at ih ⊢; rw [ih]

theorem dedupConsec_strict {l : List Path} (h : l.Pairwise (fun a b => b ≤ a)) : (dedupConsec l).Pairwise (fun a b => b < a) := by
  induction l using dedupConsec.induct with
  | case1 => simp [dedupConsec]
  | case2 => simp [dedupConsec]
  | case3 q r ih => simp only [dedupConsec, if_pos]; exact ih (List.pairwise_cons.1 h).2
  | case4 q q' r hne ih =>
    simp only [dedupConsec, if_neg hne]
    obtain ⟨h1, h2⟩ := List.pairwise_cons.1 h
    refine List.pairwise_cons.2 ⟨fun x hx => ?_, ih h2⟩
    have hx' := mem_dedupConsec.1 hx
    have hq' : q' < q := lt_of_le_of_ne (h1 q' (by simp)) (Ne.symm hne)
    rcases List.mem_cons.1 hx' with rfl | hx'
    · exact hq'
    · exact lt_of_le_of_lt ((List.pairwise_cons.1 h2).1 x hx') hq'

/-- The paths cleaned up. -/
def cleanPaths (cs : List Entry) : List Path := dedupConsec (stableSort (fun a b => decide (b ≤ a)) (stagedPaths cs))

theorem cleanPaths_strict (cs : List Entry) : (cleanPaths cs).Pairwise (fun a b => b < a) := by
  apply dedupConsec_strict
  refine (pairwise_stableSort (le := fun a b => decide (b ≤ a)) (fun a b => ?_) (fun a b c h1 h2 => ?_) _).imp (fun h => by simpa using h)
  · simp [le_total]
  · simp only [decide_eq_true_eq] at *; exact le_trans h2 h1

theorem mem_cleanPaths {cs : List Entry} {p : Path} : p ∈ cleanPaths cs ↔ ∃ e ∈ cs, (∀ x, e.op ≠ .error x) ∧ ∃ s, e.staged = some s ∧ s.path = p := by
  unfold cleanPaths
  rw [mem_dedupConsec, mem_stableSort]
  unfold stagedPaths
  rw [List.mem_filterMap]
  constructor
  · rintro ⟨e, he, h⟩
    split at h
    · cases h
    · next s hs ho => exact ⟨e, he, fun x hx => ho x hx, s, hs, by simpa using h⟩
    · cases h
  · rintro ⟨e, he, ho, s, hs, rfl⟩
    refine ⟨e, he, ?_⟩
    split
    · next hx => exact absurd hx (ho _)
    · next s' hs' _ => rw [hs] at hs'; cases hs'; rfl
    · next hs' _ => rw [hs] at hs'; cases hs'

/-- The same set in terms of the selection. -/
theorem mem_cleanPaths_c5 {env : Env} {sel : List Entry} {p : Path} : p ∈ cleanPaths (realOrders env sel).2.2 ↔
    ∃ e ∈ sel, (∀ x, e.op ≠ .error x) ∧ ∃ s, e.staged = some s ∧ s.path = p := by
  rw [mem_cleanPaths]
  constructor
  · rintro ⟨e, he, ho, s, hs, rfl⟩
    obtain ⟨e0, h0, hc⟩ := from_c5 e he
    obtain ⟨g1, g2, g3, g4⟩ := core_op hc
    exact ⟨e0, h0, fun x hx => ho x (by rw [g1, hx]), s, by rw [← g4, hs], rfl⟩
  · rintro ⟨e, he, ho, s, hs, rfl⟩
    obtain ⟨e', he', hc⟩ := mem_of_From (core_c5 env sel) he
    obtain ⟨g1, g2, g3, g4⟩ := core_op hc
    exact ⟨e', he', fun x hx => ho x (by rw [← g1, hx]), s, by rw [g4, hs], rfl⟩

end SB
