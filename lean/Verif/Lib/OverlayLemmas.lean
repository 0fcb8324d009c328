import Verif.Spec.Overlay
import Verif.Lib.RenamePass

/-! Overlay lookup along stored directories (proof machinery). -/

namespace SB

open Spec

theorem presentDir_some {host : FS} {p q : Path} (h : presentDir host p = some q) : q = p ∧ host.isDirAt p = true := by
  unfold presentDir at h
  split at h
  · next n hn =>
    split at h
    · next hd =>
      cases h
      refine ⟨rfl, FS.isDirAt_iff.2 ⟨n, hn, ?_⟩⟩
      unfold Node.isDir
      cases hk : n.kind <;> simp_all [ftype]
    · cases h
  · cases h

theorem presentDir_dir {host : FS} {p : Path} (h : host.isDirAt p = true) : presentDir host p = some p := by
  obtain ⟨n, hn, hd⟩ := FS.isDirAt_iff.1 h
  unfold presentDir
  rw [hn]
  unfold Node.isDir at hd
  simp at hd
  simp [hd, ftype]

theorem presentDir_none {host : FS} {p : Path} (h : presentDir host p = none) : host.isDirAt p = false := by
  cases hd : host.isDirAt p with
  | false => rfl
  | true => rw [presentDir_dir hd] at h; cases h

theorem present_of {host : FS} {p : Path} : present host p = none ↔ host.get p = none := by
  unfold present
  cases host.get p <;> simp

theorem present_none_below {host : FS} (hw : host.WF) {p r : Path} (hr : r ≠ []) (h : host.isDirAt p = false) : present host (p ++ r) = none ∧ presentDir host (p ++ r) = none := by
  have : host.get (p ++ r) = none := by
    cases hg : host.get (p ++ r) with
    | none => rfl
    | some n =>
      have := hw.ancestor hg (q := p) ⟨r, hr, rfl⟩
      rw [h] at this; cases this
  exact ⟨present_of.2 this, by unfold presentDir; rw [this]⟩

/-- Looking below a directory's lower part is looking at the path itself. -/
theorem bind_present {host : FS} (hw : host.WF) (P r : Path) (hr : r ≠ []) :
    ((presentDir host P).map (· ++ r)).bind (present host) = present host (P ++ r) ∧
    ((presentDir host P).map (· ++ r)).bind (presentDir host) = presentDir host (P ++ r) := by
  cases h : presentDir host P with
  | none =>
    obtain ⟨h1, h2⟩ := present_none_below hw hr (presentDir_none h)
    rw [h1, h2]; exact ⟨rfl, rfl⟩
  | some q =>
    obtain ⟨rfl, _⟩ := presentDir_some h
    exact ⟨rfl, rfl⟩

/-- The stored directory `r` (reversed path) is found in the upper layer and merged with host path `P`, if that is a directory. -/
def MergedAt (st : State) (m : Name) (mp : Path) (r : List Name) (P : Path) : Prop :=
  ∃ n, ftype n.kind = .directory ∧ lookupRev st m mp r = some ⟨some n, presentDir st.lower P⟩

/-- The stored directory `r` is found in the upper layer and not merged with anything. -/
def PureAt (st : State) (m : Name) (mp : Path) (r : List Name) : Prop :=
  ∃ n, ftype n.kind = .directory ∧ lookupRev st m mp r = some ⟨some n, none⟩

theorem merged_root {st : State} {m : Name} {mp : Path} (hd : st.lower.isDirAt mp = true) (hm : st.upper.isDirAt [m] = true) : MergedAt st m mp [] mp := by
  obtain ⟨n, hn, hk⟩ := FS.isDirAt_iff.1 hm
  refine ⟨n, ?_, ?_⟩
  · unfold Node.isDir at hk; simp at hk; rw [hk]; rfl
  · unfold lookupRev; rw [hn, presentDir_dir hd]

theorem lookup_stored {st : State} {m : Name} {mp : Path} {r : List Name} {x : Name} {n u : Node} {L : Option Path}
    (hm : lookupRev st m mp r = some ⟨some u, L⟩) (hu : ftype u.kind = .directory)
    (hg : st.upper.get (m :: (x :: r).reverse) = some n) :
    lookupRev st m mp (x :: r) = if isWhiteout n then none else if ftype n.kind ≠ .directory then some ⟨some n, none⟩ else if n.opq then some ⟨some n, none⟩
      else some ⟨some n, (lowerName mp L x n.redirect).bind (presentDir st.lower)⟩ := by
  rw [lookupRev, hm]
  simp only [Option.any_some, hu, decide_true, if_true, hg]

/-- One step down a stored, non-opaque directory without redirect. -/
theorem merged_step {st : State} {m : Name} {mp : Path} {r : List Name} {P : Path} (hw : st.lower.WF) (hm : MergedAt st m mp r P) {x : Name} {n : Node}
    (hg : st.upper.get (m :: (x :: r).reverse) = some n) (hd : ftype n.kind = .directory) (hwh : n.whiteout = false) (ho : n.opq = false) (hr : n.redirect = none) :
    MergedAt st m mp (x :: r) (P ++ [x]) := by
  obtain ⟨u, hu, hl⟩ := hm
  refine ⟨n, hd, ?_⟩
  have hnw : isWhiteout n = false := by
    unfold isWhiteout
    rw [hwh]
    cases hk : n.kind <;> simp_all [ftype]
  rw [lookup_stored hl hu hg, hnw, hd, ho, hr]
  simp only [Bool.false_eq_true, if_false, ne_eq, not_true_eq_false, lowerName]
  rw [(bind_present hw P [x] (by simp)).2]

/-- One step down a stored directory with a redirect. -/
theorem merged_redirect {st : State} {m : Name} {mp : Path} {r : List Name} {P : Path} (hw : st.lower.WF) (hm : MergedAt st m mp r P) {x : Name} {n : Node} {rd : Str}
    (hg : st.upper.get (m :: (x :: r).reverse) = some n) (hd : ftype n.kind = .directory) (hwh : n.whiteout = false) (ho : n.opq = false) (hr : n.redirect = some rd)
    (hc : components rd ≠ []) :
    MergedAt st m mp (x :: r) (if rd.head? = some '/' then mp ++ components rd else P ++ components rd) := by
  obtain ⟨u, hu, hl⟩ := hm
  refine ⟨n, hd, ?_⟩
  have hnw : isWhiteout n = false := by
    unfold isWhiteout
    rw [hwh]
    cases hk : n.kind <;> simp_all [ftype]
  rw [lookup_stored hl hu hg, hnw, hd, ho, hr]
  simp only [Bool.false_eq_true, if_false, ne_eq, not_true_eq_false, lowerName]
  by_cases ha : rd.head? = some '/'
  · simp [ha]
  · simp only [ha, if_false]
    rw [(bind_present hw P (components rd) hc).2]

/-- A stored node that hides what the host has at and below its path: a whiteout, an opaque directory, or not a directory. -/
def Hides (n : Node) : Prop := isWhiteout n = true ∨ n.opq = true ∨ ftype n.kind ≠ .directory

/-- A stored path at or above `r.reverse` (below the mount's root) hides the host. -/
def HiddenAt (st : State) (m : Name) (r : List Name) : Prop := ∃ q n, q ≠ [] ∧ q <+: r.reverse ∧ st.upper.get (m :: q) = some n ∧ Hides n

theorem prefix_rev_cons {q : Path} {x : Name} {r : List Name} : q <+: (x :: r).reverse ↔ q = (x :: r).reverse ∨ q <+: r.reverse := by
  rw [List.reverse_cons, List.prefix_concat_iff]

theorem hidden_step {st : State} {m : Name} {x : Name} {r : List Name} :
    HiddenAt st m (x :: r) ↔ HiddenAt st m r ∨ ∃ n, st.upper.get (m :: (x :: r).reverse) = some n ∧ Hides n := by
  constructor
  · rintro ⟨q, n, h1, h2, h3, h4⟩
    rcases prefix_rev_cons.1 h2 with rfl | h
    · exact Or.inr ⟨n, h3, h4⟩
    · exact Or.inl ⟨q, n, h1, h, h3, h4⟩
  · rintro (⟨q, n, h1, h2, h3, h4⟩ | ⟨n, h3, h4⟩)
    · exact ⟨q, n, h1, prefix_rev_cons.2 (Or.inr h2), h3, h4⟩
    · exact ⟨_, n, by simp, prefix_rev_cons.2 (Or.inl rfl), h3, h4⟩

/-- Overlay lookup in a storage without redirects, in closed form. -/
theorem lookup_closed {st : State} {m : Name} {mp : Path} (hw : st.lower.WF) (hu : st.upper.WF) (hmp : st.lower.isDirAt mp = true) (hm : st.upper.isDirAt [m] = true)
    (hr : ∀ q n, st.upper.get q = some n → n.redirect = none) (hwh : ∀ q n, st.upper.get q = some n → n.whiteout = true → ftype n.kind ≠ .directory) : ∀ r : List Name,
    (∀ n, st.upper.get (m :: r.reverse) = some n →
      (isWhiteout n = true → lookupRev st m mp r = none) ∧
      (isWhiteout n = false → ∃ L, lookupRev st m mp r = some ⟨some n, L⟩ ∧ (HiddenAt st m r → L = none) ∧ (¬ HiddenAt st m r → L = presentDir st.lower (mp ++ r.reverse)))) ∧
    (st.upper.get (m :: r.reverse) = none →
      (HiddenAt st m r → lookupRev st m mp r = none) ∧
      (¬ HiddenAt st m r → lookupRev st m mp r = (present st.lower (mp ++ r.reverse)).map (fun l => ⟨none, some l⟩))) := by
  have hdirw : ∀ {q n}, st.upper.get q = some n → ftype n.kind = .directory → isWhiteout n = false := by
    intro q n hg hd
    unfold isWhiteout
    cases hb : n.whiteout with
    | true => exact absurd hd (hwh q n hg hb)
    | false => cases hk : n.kind <;> simp_all [ftype]
  have hftype : ∀ {n : Node}, n.isDir = true → ftype n.kind = .directory := by
    intro n h
    unfold Node.isDir at h; simp at h; rw [h]; rfl
  intro r
  induction r with
  | nil =>
    obtain ⟨u, hu1, hu2⟩ := FS.isDirAt_iff.1 hm
    refine ⟨fun n hn => ?_, fun hn => ?_⟩
    · simp only [List.reverse_nil] at hn
      rw [hu1] at hn; cases hn
      refine ⟨fun h => ?_, fun _ => ⟨some mp, ?_, ?_, ?_⟩⟩
      · rw [hdirw hu1 (hftype hu2)] at h; cases h
      · rw [lookupRev, hu1]
      · rintro ⟨q, _, h1, h2, _⟩
        exact absurd (List.prefix_nil.1 h2) h1
      · intro _; simp [presentDir_dir hmp]
    · simp only [List.reverse_nil] at hn
      rw [hu1] at hn; cases hn
  | cons x r ih =>
    refine ⟨fun n hn => ?_, fun hn => ?_⟩
    · obtain ⟨u, hu1, hu2⟩ := FS.isDirAt_iff.1 (hu.ancestor (q := m :: r.reverse) hn ⟨[x], by simp, by simp⟩)
      have hdu := hftype hu2
      obtain ⟨L', hL, hL1, hL2⟩ := (ih.1 u hu1).2 (hdirw hu1 hdu)
      have hstep := lookup_stored hL hdu hn
      refine ⟨fun h => ?_, fun h => ?_⟩
      · rw [hstep, h]; simp
      · rw [hstep, h]
        by_cases hd : ftype n.kind = .directory
        · by_cases ho : n.opq = true
          · refine ⟨none, by simp [hd, ho], fun _ => rfl, fun hx => ?_⟩
            exact absurd (hidden_step.2 (Or.inr ⟨n, hn, Or.inr (Or.inl ho)⟩)) hx
          · have ho' : n.opq = false := by simpa using ho
            have hnh : ¬ Hides n := by
              rintro (h' | h' | h')
              · rw [h] at h'; cases h'
              · rw [ho'] at h'; cases h'
              · exact h' hd
            refine ⟨(lowerName mp L' x n.redirect).bind (presentDir st.lower), by simp [hd, ho'], fun hx => ?_, fun hx => ?_⟩
            · rcases hidden_step.1 hx with hx | ⟨k, hk, hx⟩
              · rw [hL1 hx, hr _ n hn]; rfl
              · rw [hn] at hk; cases hk; exact absurd hx hnh
            · have hx' : ¬ HiddenAt st m r := fun h => hx (hidden_step.2 (Or.inl h))
              rw [hL2 hx', hr _ n hn]
              simp only [lowerName]
              rw [(bind_present hw _ [x] (by simp)).2]
              simp
        · refine ⟨none, by simp [hd], fun _ => rfl, fun hx => ?_⟩
          exact absurd (hidden_step.2 (Or.inr ⟨n, hn, Or.inr (Or.inr hd)⟩)) hx
    · have hiff : HiddenAt st m (x :: r) ↔ HiddenAt st m r := by
        rw [hidden_step]
        constructor
        · rintro (h | ⟨k, hk, _⟩)
          · exact h
          · rw [hn] at hk; cases hk
        · exact Or.inl
      rw [hiff]
      have happ : mp ++ (x :: r).reverse = (mp ++ r.reverse) ++ [x] := by simp
      rw [happ]
      cases hg : st.upper.get (m :: r.reverse) with
      | some u =>
        obtain ⟨i1, i2⟩ := ih.1 u hg
        refine ⟨fun hx => ?_, fun hx => ?_⟩
        · by_cases hwu : isWhiteout u = true
          · rw [lookupRev, i1 hwu]
          · obtain ⟨L, hL, hL1, _⟩ := i2 (by simpa using hwu)
            rw [lookupRev, hL, hL1 hx, hn]
            simp [lowerName]
        · have hwu : isWhiteout u = false := by
            cases hwu : isWhiteout u with
            | false => rfl
            | true =>
              by_cases hr0 : r = []
              · subst hr0
                obtain ⟨v, hv1, hv2⟩ := FS.isDirAt_iff.1 hm
                simp only [List.reverse_nil] at hg
                rw [hv1] at hg; cases hg
                rw [hdirw hv1 (hftype hv2)] at hwu; cases hwu
              · exact absurd ⟨r.reverse, u, by simpa using hr0, List.prefix_refl _, hg, Or.inl hwu⟩ hx
          obtain ⟨L, hL, _, hL2⟩ := i2 hwu
          rw [lookupRev, hL, hL2 hx, hn]
          simp only [lowerName, ite_self]
          rw [(bind_present hw _ [x] (by simp)).1]
          cases present st.lower (mp ++ r.reverse ++ [x]) <;> rfl
      | none =>
        obtain ⟨i1, i2⟩ := ih.2 hg
        refine ⟨fun hx => ?_, fun hx => ?_⟩
        · rw [lookupRev, i1 hx]
        · rw [lookupRev, i2 hx, hn]
          cases hp : present st.lower (mp ++ r.reverse) with
          | none =>
            have h1 := present_of.1 hp
            have h2 : st.lower.get (mp ++ r.reverse ++ [x]) = none := hw.none_below h1 ⟨[x], by simp, rfl⟩
            rw [present_of.2 h2]; rfl
          | some l =>
            have hl : l = mp ++ r.reverse := by
              unfold present at hp
              split at hp
              · cases hp; rfl
              · cases hp
            subst hl
            simp only [Option.map_some, lowerName, ite_self, Option.bind_some]
            cases present st.lower (mp ++ r.reverse ++ [x]) <;> rfl

/-- What the sandbox sees, in a storage without redirects. -/
theorem view_closed {st : State} {m : Name} {mp : Path} (hw : st.lower.WF) (hu : st.upper.WF) (hmp : st.lower.isDirAt mp = true) (hm : st.upper.isDirAt [m] = true)
    (hr : ∀ q n, st.upper.get q = some n → n.redirect = none) (hwh : ∀ q n, st.upper.get q = some n → n.whiteout = true → ftype n.kind ≠ .directory) (sub : Path) :
    (∀ n, st.upper.get (m :: sub) = some n → (isWhiteout n = true → view st m mp sub = none) ∧ (isWhiteout n = false → view st m mp sub = some n)) ∧
    (st.upper.get (m :: sub) = none → (HiddenAt st m sub.reverse → view st m mp sub = none) ∧ (¬ HiddenAt st m sub.reverse → view st m mp sub = st.lower.get (mp ++ sub))) := by
  have h := lookup_closed hw hu hmp hm hr hwh sub.reverse
  rw [List.reverse_reverse] at h
  refine ⟨fun n hn => ⟨fun hx => ?_, fun hx => ?_⟩, fun hn => ⟨fun hx => ?_, fun hx => ?_⟩⟩
  · unfold view lookup; rw [(h.1 n hn).1 hx]; rfl
  · obtain ⟨L, hL, _⟩ := (h.1 n hn).2 hx
    unfold view lookup; rw [hL]; rfl
  · unfold view lookup; rw [(h.2 hn).1 hx]; rfl
  · unfold view lookup; rw [(h.2 hn).2 hx]
    unfold present
    cases hg : st.lower.get (mp ++ sub) with
    | none => rfl
    | some n => simp [hg]

end SB
