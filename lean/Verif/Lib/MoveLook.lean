import Verif.Model.Moves
import Verif.Lib.HistoryRun

/-! Overlay lookup for storages with renamed directories: one step at a time (proof machinery). -/

namespace SB
open Spec

/-- What is needed of a storage and a host. -/
structure Lawful (st : State) : Prop where
  host : st.lower.WF
  upper : st.upper.WF
  whiteout : ∀ q n, st.upper.get q = some n → n.whiteout = false
  plain : ∀ q n, st.lower.get q = some n → n.redirect = none ∧ n.opq = false ∧ n.whiteout = false

/-- One step of the lookup. -/
def foundAt (host : FS) (mp : Path) (low : Option Path) (x : Name) : Option Node → Option Found
  | some n =>
    if isWhiteout n then none
    else if ftype n.kind ≠ .directory then some ⟨some n, none⟩
    else if n.opq then some ⟨some n, none⟩
    else some ⟨some n, (lowerName mp low x n.redirect).bind (presentDir host)⟩
  | none => ((low.map (· ++ [x])).bind (present host)).map (fun l => ⟨none, some l⟩)

section
variable {st : State} (hl : Lawful st) {m : Name} {mp : Path} (ht : TopOk st m mp)
include hl ht

theorem lookup_nil : ∃ t, st.upper.get [m] = some t ∧ t.isDir = true ∧ Spec.lookup st m mp [] = some ⟨some t, some mp⟩ := by
  obtain ⟨t, h1, h2⟩ := FS.isDirAt_iff.1 ht.2
  exact ⟨t, h1, h2, by simp [Spec.lookup, Spec.lookupRev, h1]⟩

theorem lookup_up : ∀ (y : Path) (n : Node), st.upper.get (m :: y) = some n → if isWhiteout n then Spec.lookup st m mp y = none else ∃ lo, Spec.lookup st m mp y = some ⟨some n, lo⟩ := by
  intro y
  induction y using List.reverseRecOn with
  | nil =>
    intro n hn
    obtain ⟨t, h1, h2, h3⟩ := lookup_nil hl ht
    rw [h1] at hn; cases hn
    rw [not_whiteout_dir h2 (hl.whiteout _ _ h1)]
    exact ⟨_, h3⟩
  | append_singleton y x ih =>
    intro n hn
    obtain ⟨d, hd1, hd2⟩ := FS.isDirAt_iff.1 (hl.upper.ancestor hn (below_cons ⟨[x], by simp, rfl⟩))
    have := ih d hd1
    rw [not_whiteout_dir hd2 (hl.whiteout _ _ hd1)] at this
    obtain ⟨lo, hlo⟩ := this
    unfold Spec.lookup at hlo ⊢
    rw [List.reverse_append, List.reverse_singleton, List.singleton_append]
    simp only [Spec.lookupRev, hlo, Option.any_some, isDir_iff_ftype.1 hd2, decide_true, if_true, List.reverse_cons, List.reverse_reverse, hn]
    cases hw : isWhiteout n with
    | true => simp
    | false =>
      simp only [Bool.false_eq_true, if_false]
      split
      · exact ⟨_, rfl⟩
      · split
        · exact ⟨_, rfl⟩
        · exact ⟨_, rfl⟩

/-- The lookup, one step. -/
theorem lookup_snoc (y : Path) (x : Name) :
    Spec.lookup st m mp (y ++ [x]) = (Spec.lookup st m mp y).bind (fun d => foundAt st.lower mp d.lower x (st.upper.get (m :: (y ++ [x])))) := by
  have key : ∀ d, Spec.lookup st m mp y = some d → d.upper.any (fun n => ftype n.kind = .directory) = false → st.upper.get (m :: (y ++ [x])) = none := by
    intro d hd ha
    cases hg : st.upper.get (m :: (y ++ [x])) with
    | none => rfl
    | some n =>
      exfalso
      obtain ⟨k, hk1, hk2⟩ := FS.isDirAt_iff.1 (hl.upper.ancestor hg (below_cons ⟨[x], by simp, rfl⟩))
      have := lookup_up hl ht y k hk1
      rw [not_whiteout_dir hk2 (hl.whiteout _ _ hk1)] at this
      obtain ⟨lo, hlo⟩ := this
      rw [hd] at hlo; cases hlo
      simp [isDir_iff_ftype.1 hk2] at ha
  unfold Spec.lookup at key ⊢
  rw [List.reverse_append, List.reverse_singleton, List.singleton_append]
  cases hp : Spec.lookupRev st m mp y.reverse with
  | none => simp [Spec.lookupRev, hp]
  | some d =>
    simp only [Spec.lookupRev, hp, Option.bind_some, List.reverse_cons, List.reverse_reverse]
    have hup : (if d.upper.any (fun n => ftype n.kind = .directory) = true then st.upper.get (m :: (y ++ [x])) else none) = st.upper.get (m :: (y ++ [x])) := by
      cases ha : d.upper.any (fun n => ftype n.kind = .directory) with
      | true => rfl
      | false => rw [key d hp ha]; rfl
    rw [hup]
    unfold foundAt
    cases hg : st.upper.get (m :: (y ++ [x])) with
    | some n => simp
    | none =>
      simp only [lowerName]
      cases (d.lower.map (· ++ [x])).bind (present st.lower) <;> rfl

/-- The lower part of what is found. -/
theorem lower_present {y : Path} {f : Found} {l : Path} (h : Spec.lookup st m mp y = some f) (hlo : f.lower = some l) : ∃ k, st.lower.get l = some k ∧ (f.upper ≠ none → k.isDir = true) := by
  rcases List.eq_nil_or_concat y with rfl | ⟨y, x, rfl⟩
  · obtain ⟨t, _, _, h3⟩ := lookup_nil hl ht
    rw [h3] at h; cases h
    cases hlo
    obtain ⟨k, h1, h2⟩ := FS.isDirAt_iff.1 ht.1
    exact ⟨k, h1, fun _ => h2⟩
  · rw [List.concat_eq_append, lookup_snoc hl ht] at h
    cases hp : Spec.lookup st m mp y with
    | none => rw [hp] at h; cases h
    | some d =>
      rw [hp] at h
      simp only [Option.bind_some] at h
      unfold foundAt at h
      split at h
      · split at h
        · cases h
        · split at h
          · cases h; cases hlo
          · split at h
            · cases h; cases hlo
            · cases h
              simp only at hlo
              obtain ⟨p, _, hp2⟩ := Option.bind_eq_some_iff.1 hlo
              obtain ⟨rfl, h2⟩ := presentDir_some hp2
              obtain ⟨k, h1, h2⟩ := FS.isDirAt_iff.1 h2
              exact ⟨k, h1, fun _ => h2⟩
      · obtain ⟨l', h1, h2⟩ := Option.map_eq_some_iff.1 h
        cases h2
        cases hlo
        obtain ⟨p, _, hp2⟩ := Option.bind_eq_some_iff.1 h1
        unfold present at hp2
        split at hp2
        · next hs =>
          cases hp2
          obtain ⟨k, hk⟩ := Option.isSome_iff_exists.1 hs
          exact ⟨k, hk, fun h => absurd rfl h⟩
        · cases hp2

/-- What is found where nothing is stored. -/
theorem lookup_none {y : Path} (hg : st.upper.get (m :: y) = none) {f : Found} (h : Spec.lookup st m mp y = some f) : f.upper = none ∧ ∃ l k, f.lower = some l ∧ st.lower.get l = some k := by
  have hup : f.upper = none := by
    rcases List.eq_nil_or_concat y with rfl | ⟨y, x, rfl⟩
    · obtain ⟨t, h1, _, _⟩ := lookup_nil hl ht
      rw [h1] at hg; cases hg
    · rw [List.concat_eq_append] at hg h
      rw [lookup_snoc hl ht] at h
      cases hp : Spec.lookup st m mp y with
      | none => rw [hp] at h; cases h
      | some d =>
        rw [hp, hg] at h
        obtain ⟨l', h1, h2⟩ := Option.map_eq_some_iff.1 (show Option.map _ _ = _ from h)
        cases h2; rfl
  refine ⟨hup, ?_⟩
  cases hlo : f.lower with
  | some l =>
    obtain ⟨k, hk, _⟩ := lower_present hl ht h hlo
    exact ⟨l, k, rfl, hk⟩
  | none =>
    exfalso
    rcases List.eq_nil_or_concat y with rfl | ⟨y, x, rfl⟩
    · obtain ⟨t, h1, _, _⟩ := lookup_nil hl ht
      rw [h1] at hg; cases hg
    · rw [List.concat_eq_append] at hg h
      rw [lookup_snoc hl ht] at h
      cases hp : Spec.lookup st m mp y with
      | none => rw [hp] at h; cases h
      | some d =>
        rw [hp, hg] at h
        obtain ⟨l', h1, h2⟩ := Option.map_eq_some_iff.1 (show Option.map _ _ = _ from h)
        cases h2; cases hlo

end

/-- The part in the lower layer (if the path is found at all). -/
def lowOf (st : State) (m : Name) (mp y : Path) : Option (Option Path) := (Spec.lookup st m mp y).map (·.lower)

section
variable {st : State} (hl : Lawful st) {m : Name} {mp : Path} (ht : TopOk st m mp)
include hl ht

/-- The view: what is stored, else what is in the lower part. -/
theorem viewM_stored {y : Path} {n : Node} (hg : st.upper.get (m :: y) = some n) : Spec.view st m mp y = if isWhiteout n then none else some n := by
  have := lookup_up hl ht y n hg
  unfold Spec.view
  cases hw : isWhiteout n with
  | true => rw [hw] at this; simp only [if_true] at this ⊢; rw [this]; rfl
  | false =>
    rw [hw] at this
    simp only [Bool.false_eq_true, if_false] at this ⊢
    obtain ⟨lo, hlo⟩ := this
    rw [hlo]; rfl

theorem viewM_belowLow {y : Path} (hg : st.upper.get (m :: y) = none) : Spec.view st m mp y = (lowOf st m mp y).bind (fun lo => lo.bind st.lower.get) := by
  unfold Spec.view lowOf
  cases h : Spec.lookup st m mp y with
  | none => rfl
  | some f =>
    obtain ⟨h1, _⟩ := lookup_none hl ht hg h
    simp [h1]

theorem view_low_some {y : Path} (hg : st.upper.get (m :: y) = none) {n : Node} (h : Spec.view st m mp y = some n) : ∃ l, Spec.lookup st m mp y = some ⟨none, some l⟩ ∧ st.lower.get l = some n := by
  unfold Spec.view at h
  cases hlk : Spec.lookup st m mp y with
  | none => rw [hlk] at h; cases h
  | some f =>
    obtain ⟨h1, l, k, h2, h3⟩ := lookup_none hl ht hg hlk
    rw [hlk] at h
    simp only [Option.bind_some, h1, h2] at h
    refine ⟨l, ?_, h⟩
    cases f
    simp only at h1 h2
    rw [h1, h2]

/-- Found is seen. -/
theorem view_isSome {y : Path} : (Spec.view st m mp y).isSome = (Spec.lookup st m mp y).isSome := by
  cases hg : st.upper.get (m :: y) with
  | some n =>
    rw [viewM_stored hl ht hg]
    have := lookup_up hl ht y n hg
    cases hw : isWhiteout n with
    | true => rw [hw] at this; simp only [if_true] at this ⊢; rw [this]; rfl
    | false =>
      rw [hw] at this
      simp only [Bool.false_eq_true, if_false] at this ⊢
      obtain ⟨lo, hlo⟩ := this
      rw [hlo]; rfl
  | none =>
    rw [viewM_belowLow hl ht hg]
    unfold lowOf
    cases h : Spec.lookup st m mp y with
    | none => rfl
    | some f =>
      obtain ⟨_, l, k, h2, h3⟩ := lookup_none hl ht hg h
      simp [h2, h3]

end

/-- How what is stored at a path may differ without a difference for lookups below: not at all; another directory with the same overlay attributes; a copy of the host's directory. -/
def StoredRel (st : State) (m : Name) (mp y : Path) (o o' : Option Node) : Prop :=
  o' = o ∨ (∃ n n', o = some n ∧ o' = some n' ∧ n.isDir = true ∧ n'.isDir = true ∧ n'.whiteout = n.whiteout ∧ n'.opq = n.opq ∧ n'.redirect = n.redirect) ∨
  (o = none ∧ ∃ n' l, o' = some n' ∧ n'.isDir = true ∧ n'.whiteout = false ∧ n'.opq = false ∧ n'.redirect = none ∧ Spec.lookup st m mp y = some ⟨none, some l⟩ ∧ st.lower.isDirAt l = true)

theorem foundAt_congr {host : FS} {mp : Path} {low : Option Path} {x : Name} {n n' : Node} (h1 : n.isDir = true) (h2 : n'.isDir = true) (h3 : n'.whiteout = n.whiteout) (h4 : n'.opq = n.opq)
    (h5 : n'.redirect = n.redirect) : (foundAt host mp low x (some n')).map (·.lower) = (foundAt host mp low x (some n)).map (·.lower) := by
  have k1 : n.kind = .dir := by simpa [Node.isDir] using h1
  have k2 : n'.kind = .dir := by simpa [Node.isDir] using h2
  unfold foundAt isWhiteout
  dsimp only
  rw [k1, k2, h3, h4, h5]
  cases n.whiteout <;> cases n.opq <;> simp [ftype]

/-- Lookups below two places that have the same lower part, with the same stored there. -/
theorem low_shift {st st' : State} (hl : Lawful st) (hl' : Lawful st') (hlow : st'.lower = st.lower) {m : Name} {mp : Path} (ht : TopOk st m mp) (ht' : TopOk st' m mp) {b b' : Path}
    (hb : lowOf st' m mp b' = lowOf st m mp b) : ∀ (r : Path),
    (∀ q, q ≠ [] → q <+: r → StoredRel st m mp (b ++ q) (st.upper.get (m :: (b ++ q))) (st'.upper.get (m :: (b' ++ q)))) → lowOf st' m mp (b' ++ r) = lowOf st m mp (b ++ r) := by
  intro r
  induction r using List.reverseRecOn with
  | nil => intro _; simpa using hb
  | append_singleton r x ih =>
    intro hr
    have ih' := ih (fun q h1 h2 => hr q h1 (h2.trans (List.prefix_append _ _)))
    have hx := hr (r ++ [x]) (by simp) (List.prefix_refl _)
    have e1 : lowOf st m mp (b ++ (r ++ [x])) = (lowOf st m mp (b ++ r)).bind (fun lo => (foundAt st.lower mp lo x (st.upper.get (m :: (b ++ (r ++ [x]))))).map (·.lower)) := by
      unfold lowOf
      rw [← List.append_assoc, lookup_snoc hl ht]
      cases Spec.lookup st m mp (b ++ r) <;> rfl
    have e2 : lowOf st' m mp (b' ++ (r ++ [x])) = (lowOf st' m mp (b' ++ r)).bind (fun lo => (foundAt st'.lower mp lo x (st'.upper.get (m :: (b' ++ (r ++ [x]))))).map (·.lower)) := by
      unfold lowOf
      rw [← List.append_assoc, lookup_snoc hl' ht']
      cases Spec.lookup st' m mp (b' ++ r) <;> rfl
    rw [e1, e2, ih', hlow]
    rcases hx with h | ⟨n, n', h1, h2, h3, h4, h5, h6, h7⟩ | ⟨h1, n', l, h2, h3, h4, h5, h6, h7, h8⟩
    · rw [h]
    · rw [h1, h2]
      cases lowOf st m mp (b ++ r) with
      | none => rfl
      | some lo => exact foundAt_congr h3 h4 h5 h6 h7
    · rw [h1, h2]
      have hlk := h7
      rw [← List.append_assoc, lookup_snoc hl ht] at hlk
      cases hp : Spec.lookup st m mp (b ++ r) with
      | none => rw [hp] at hlk; cases hlk
      | some d =>
        rw [hp] at hlk
        simp only [Option.bind_some] at hlk
        rw [show m :: (b ++ r ++ [x]) = m :: (b ++ (r ++ [x])) from by rw [List.append_assoc], h1] at hlk
        have hd : lowOf st m mp (b ++ r) = some d.lower := by unfold lowOf; rw [hp]; rfl
        rw [hd]
        simp only [Option.bind_some]
        rw [hlk]
        unfold foundAt
        dsimp only
        rw [not_whiteout_dir h3 h4]
        simp only [Bool.false_eq_true, if_false, isDir_iff_ftype.1 h3, ne_eq, not_true, if_false, h5, h6, Option.map_some]
        obtain ⟨l', g1, g2⟩ := Option.map_eq_some_iff.1 (show Option.map _ _ = _ from hlk)
        cases g2
        obtain ⟨p, q1, q2⟩ := Option.bind_eq_some_iff.1 g1
        unfold present at q2
        split at q2
        · cases q2
          simp only [lowerName, q1, Option.bind_some, presentDir_dir h8]
        · cases q2

end SB
