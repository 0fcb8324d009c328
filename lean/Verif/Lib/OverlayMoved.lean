import Verif.Lib.OverlayLemmas

/-! Overlay lookup below a renamed directory (proof machinery). -/

namespace SB

open Spec

/-- A stored path strictly below `b.reverse`, at or above `(r ++ b).reverse`, hides the host. -/
def HiddenFrom (st : State) (m : Name) (b r : List Name) : Prop := ∃ q n, Below b.reverse q ∧ q <+: (r ++ b).reverse ∧ st.upper.get (m :: q) = some n ∧ Hides n

theorem hiddenFrom_step {st : State} {m : Name} {x : Name} {b r : List Name} :
    HiddenFrom st m b (x :: r) ↔ HiddenFrom st m b r ∨ ∃ n, st.upper.get (m :: (x :: (r ++ b)).reverse) = some n ∧ Hides n := by
  constructor
  · rintro ⟨q, n, h1, h2, h3, h4⟩
    rw [List.cons_append] at h2
    rcases prefix_rev_cons.1 h2 with rfl | h
    · exact Or.inr ⟨n, h3, h4⟩
    · exact Or.inl ⟨q, n, h1, h, h3, h4⟩
  · rintro (⟨q, n, h1, h2, h3, h4⟩ | ⟨n, h3, h4⟩)
    · exact ⟨q, n, h1, by rw [List.cons_append]; exact prefix_rev_cons.2 (Or.inr h2), h3, h4⟩
    · exact ⟨_, n, ⟨(x :: r).reverse, by simp, by simp⟩, by rw [List.cons_append], h3, h4⟩

/-- Overlay lookup below a stored directory that is merged with host path `P`, where no redirects follow, in closed form. -/
theorem lookup_from {st : State} {m : Name} {mp : Path} {b : List Name} {P : Path} {u0 : Node} (hw : st.lower.WF) (hu : st.upper.WF)
    (hb : lookupRev st m mp b = some ⟨some u0, presentDir st.lower P⟩) (hu0 : ftype u0.kind = .directory) (hg0 : st.upper.get (m :: b.reverse) = some u0)
    (hwh : ∀ q n, st.upper.get q = some n → n.whiteout = true → ftype n.kind ≠ .directory) : ∀ r : List Name,
    (∀ q n, Below b.reverse q → q <+: (r ++ b).reverse → st.upper.get (m :: q) = some n → n.redirect = none) →
    (∀ n, st.upper.get (m :: (r ++ b).reverse) = some n →
      (isWhiteout n = true → lookupRev st m mp (r ++ b) = none) ∧
      (isWhiteout n = false → ∃ L, lookupRev st m mp (r ++ b) = some ⟨some n, L⟩ ∧ (HiddenFrom st m b r → L = none) ∧ (¬ HiddenFrom st m b r → L = presentDir st.lower (P ++ r.reverse)))) ∧
    (st.upper.get (m :: (r ++ b).reverse) = none →
      (HiddenFrom st m b r → lookupRev st m mp (r ++ b) = none) ∧
      (¬ HiddenFrom st m b r → lookupRev st m mp (r ++ b) = (present st.lower (P ++ r.reverse)).map (fun l => ⟨none, some l⟩))) := by
  have hdirw : ∀ {q n}, st.upper.get q = some n → ftype n.kind = .directory → isWhiteout n = false := by
    intro q n hg hd
    unfold isWhiteout
    cases hb : n.whiteout with
    | true => exact absurd hd (hwh q n hg hb)
    | false => cases hk : n.kind <;> simp_all [ftype]
  have hftype : ∀ {n : Node}, n.isDir = true → ftype n.kind = .directory := by
    intro n h
    unfold Node.isDir at h; simp at h; rw [h]; rfl
  intro r
  induction r with
  | nil =>
    intro _
    simp only [List.nil_append]
    refine ⟨fun n hn => ?_, fun hn => ?_⟩
    · rw [hg0] at hn; cases hn
      refine ⟨fun h => ?_, fun _ => ⟨presentDir st.lower P, hb, ?_, ?_⟩⟩
      · rw [hdirw hg0 hu0] at h; cases h
      · rintro ⟨q, _, h1, h2, _⟩
        exact absurd h2 h1.not_prefix
      · intro _; simp
    · rw [hg0] at hn; cases hn
  | cons x r ih =>
    intro hr
    have ih := ih (fun q n h1 h2 => hr q n h1 (h2.trans (by rw [List.cons_append, List.reverse_cons]; exact List.prefix_append _ _)))
    have hself : ∀ {n}, st.upper.get (m :: (x :: (r ++ b)).reverse) = some n → n.redirect = none :=
      fun {n} hn => hr _ n ⟨(x :: r).reverse, by simp, by simp⟩ (by rw [List.cons_append]) hn
    simp only [List.cons_append]
    refine ⟨fun n hn => ?_, fun hn => ?_⟩
    · obtain ⟨u, hu1, hu2⟩ := FS.isDirAt_iff.1 (hu.ancestor (q := m :: (r ++ b).reverse) hn ⟨[x], by simp, by simp⟩)
      have hdu := hftype hu2
      obtain ⟨L', hL, hL1, hL2⟩ := (ih.1 u hu1).2 (hdirw hu1 hdu)
      have hstep := lookup_stored hL hdu hn
      refine ⟨fun h => ?_, fun h => ?_⟩
      · rw [hstep, h]; simp
      · rw [hstep, h]
        by_cases hd : ftype n.kind = .directory
        · by_cases ho : n.opq = true
          · refine ⟨none, by simp [hd, ho], fun _ => rfl, fun hx => ?_⟩
            exact absurd (hiddenFrom_step.2 (Or.inr ⟨n, hn, Or.inr (Or.inl ho)⟩)) hx
          · have ho' : n.opq = false := by simpa using ho
            have hnh : ¬ Hides n := by
              rintro (h' | h' | h')
              · rw [h] at h'; cases h'
              · rw [ho'] at h'; cases h'
              · exact h' hd
            refine ⟨(lowerName mp L' x n.redirect).bind (presentDir st.lower), by simp [hd, ho'], fun hx => ?_, fun hx => ?_⟩
            · rcases hiddenFrom_step.1 hx with hx | ⟨k, hk, hx⟩
              · rw [hL1 hx, hself hn]; rfl
              · rw [hn] at hk; cases hk; exact absurd hx hnh
            · have hx' : ¬ HiddenFrom st m b r := fun h => hx (hiddenFrom_step.2 (Or.inl h))
              rw [hL2 hx', hself hn]
              simp only [lowerName]
              rw [(bind_present hw _ [x] (by simp)).2]
              simp
        · refine ⟨none, by simp [hd], fun _ => rfl, fun hx => ?_⟩
          exact absurd (hiddenFrom_step.2 (Or.inr ⟨n, hn, Or.inr (Or.inr hd)⟩)) hx
    · have hiff : HiddenFrom st m b (x :: r) ↔ HiddenFrom st m b r := by
        rw [hiddenFrom_step]
        constructor
        · rintro (h | ⟨k, hk, _⟩)
          · exact h
          · rw [hn] at hk; cases hk
        · exact Or.inl
      rw [hiff]
      have happ : P ++ (x :: r).reverse = (P ++ r.reverse) ++ [x] := by simp
      rw [happ]
      cases hg : st.upper.get (m :: (r ++ b).reverse) with
      | some u =>
        obtain ⟨i1, i2⟩ := ih.1 u hg
        refine ⟨fun hx => ?_, fun hx => ?_⟩
        · by_cases hwu : isWhiteout u = true
          · rw [lookupRev, i1 hwu]
          · obtain ⟨L, hL, hL1, _⟩ := i2 (by simpa using hwu)
            rw [lookupRev, hL, hL1 hx, hn]
            simp [lowerName]
        · have hwu : isWhiteout u = false := by
            cases hwu : isWhiteout u with
            | false => rfl
            | true =>
              by_cases hr0 : r = []
              · subst hr0
                simp only [List.nil_append] at hg
                rw [hg0] at hg; cases hg
                rw [hdirw hg0 hu0] at hwu; cases hwu
              · exact absurd ⟨(r ++ b).reverse, u, ⟨r.reverse, by simpa using hr0, by simp⟩, List.prefix_refl _, hg, Or.inl hwu⟩ hx
          obtain ⟨L, hL, _, hL2⟩ := i2 hwu
          rw [lookupRev, hL, hL2 hx, hn]
          simp only [lowerName, ite_self]
          rw [(bind_present hw _ [x] (by simp)).1]
          cases present st.lower (P ++ r.reverse ++ [x]) <;> rfl
      | none =>
        obtain ⟨i1, i2⟩ := ih.2 hg
        refine ⟨fun hx => ?_, fun hx => ?_⟩
        · rw [lookupRev, i1 hx]
        · rw [lookupRev, i2 hx, hn]
          cases hp : present st.lower (P ++ r.reverse) with
          | none =>
            have h1 := present_of.1 hp
            have h2 : st.lower.get (P ++ r.reverse ++ [x]) = none := hw.none_below h1 ⟨[x], by simp, rfl⟩
            rw [present_of.2 h2]; rfl
          | some l =>
            have hl : l = P ++ r.reverse := by
              unfold present at hp
              split at hp
              · cases hp; rfl
              · cases hp
            subst hl
            simp only [Option.map_some, lowerName, ite_self, Option.bind_some]
            cases present st.lower (P ++ r.reverse ++ [x]) <;> rfl

/-- Stored directories are found in the upper layer, whatever they are merged with. -/
theorem lookup_stored_dir {st : State} {m : Name} {mp : Path} (hu : st.upper.WF)
    (hwh : ∀ q n, st.upper.get q = some n → n.whiteout = true → ftype n.kind ≠ .directory) : ∀ (r : List Name) (n : Node),
    st.upper.get (m :: r.reverse) = some n → ftype n.kind = .directory → ∃ L, lookupRev st m mp r = some ⟨some n, L⟩ := by
  intro r
  induction r with
  | nil => intro n hn _; exact ⟨some mp, by rw [lookupRev]; simp only [List.reverse_nil] at hn; rw [hn]⟩
  | cons x r ih =>
    intro n hn hd
    obtain ⟨u, hu1, hu2⟩ := FS.isDirAt_iff.1 (hu.ancestor (q := m :: r.reverse) hn ⟨[x], by simp, by simp⟩)
    have hdu : ftype u.kind = .directory := by
      unfold Node.isDir at hu2; simp at hu2; rw [hu2]; rfl
    obtain ⟨L, hL⟩ := ih u hu1 hdu
    have hnw : isWhiteout n = false := by
      unfold isWhiteout
      cases hb : n.whiteout with
      | true => exact absurd hd (hwh _ n hn hb)
      | false => cases hk : n.kind <;> simp_all [ftype]
    rw [lookup_stored hL hdu hn, hnw]
    simp only [Bool.false_eq_true, if_false, hd, ne_eq, not_true_eq_false]
    split
    · exact ⟨_, rfl⟩
    · exact ⟨_, rfl⟩

/-- The last redirect at or above a path. -/
theorem redirect_base (st : State) (m : Name) : ∀ sub : List Name, ∃ r b, sub = r ++ b ∧
    (b = [] ∨ ∃ n rd, st.upper.get (m :: b.reverse) = some n ∧ n.redirect = some rd) ∧
    ∀ q n, Below b.reverse q → q <+: sub.reverse → st.upper.get (m :: q) = some n → n.redirect = none := by
  intro sub
  induction sub with
  | nil => exact ⟨[], [], rfl, Or.inl rfl, fun q n h1 h2 => absurd h2 h1.not_prefix⟩
  | cons x s ih =>
    by_cases h : ∃ n rd, st.upper.get (m :: (x :: s).reverse) = some n ∧ n.redirect = some rd
    · exact ⟨[], x :: s, rfl, Or.inr h, fun q n h1 h2 => absurd h2 h1.not_prefix⟩
    · obtain ⟨r, b, rfl, hb, hq⟩ := ih
      refine ⟨x :: r, b, rfl, hb, fun q n h1 h2 h3 => ?_⟩
      rcases prefix_rev_cons.1 h2 with rfl | h2
      · cases hr : n.redirect with
        | none => rfl
        | some rd => exact absurd ⟨n, rd, h3, hr⟩ h
      · exact hq q n h1 h2 h3

/-- The host name of a path below a stored directory, where no redirects follow. -/
theorem namedRev_append {st : State} {m : Name} {mp : Path} {b : List Name} : ∀ r : List Name,
    (∀ q n, Below b.reverse q → q <+: (r ++ b).reverse → st.upper.get (m :: q) = some n → n.redirect = none) →
    namedRev st m mp (r ++ b) = namedRev st m mp b ++ r.reverse := by
  intro r
  induction r with
  | nil => intro _; simp
  | cons x r ih =>
    intro h
    have hnone : (st.upper.get (m :: (x :: (r ++ b)).reverse)).bind (·.redirect) = none := by
      cases hg : st.upper.get (m :: (x :: (r ++ b)).reverse) with
      | none => rfl
      | some k => exact h _ k ⟨(x :: r).reverse, by simp, by simp⟩ (by rw [List.cons_append]) hg
    rw [List.cons_append, namedRev, hnone]
    simp only
    rw [ih (fun q n h1 h2 => h q n h1 (h2.trans (by rw [List.cons_append, List.reverse_cons]; exact List.prefix_append _ _)))]
    simp

end SB
