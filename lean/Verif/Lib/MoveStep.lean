import Verif.Lib.MoveLook

/-! One operation in a sandbox with renamed directories (proof machinery). -/

namespace SB
open Spec

section
variable {st : State} (hl : Lawful st) {m : Name} {mp : Path} (ht : TopOk st m mp)
include hl ht

theorem viewM_parent {y : Path} {x : Name} {n : Node} (h : Spec.view st m mp (y ++ [x]) = some n) : dirSeen (Spec.view st m mp y) = true := by
  cases hg : st.upper.get (m :: (y ++ [x])) with
  | some k =>
    obtain ⟨d, hd1, hd2⟩ := FS.isDirAt_iff.1 (hl.upper.ancestor hg (below_cons ⟨[x], by simp, rfl⟩))
    rw [viewM_stored hl ht hd1, not_whiteout_dir hd2 (hl.whiteout _ _ hd1)]
    exact hd2
  | none =>
    obtain ⟨l, h1, h2⟩ := view_low_some hl ht hg h
    rw [lookup_snoc hl ht, hg] at h1
    cases hp : Spec.lookup st m mp y with
    | none => rw [hp] at h1; cases h1
    | some d =>
      rw [hp] at h1
      obtain ⟨l', g1, g2⟩ := Option.map_eq_some_iff.1 (show Option.map _ _ = _ from h1)
      cases g2
      obtain ⟨p, q1, q2⟩ := Option.bind_eq_some_iff.1 g1
      obtain ⟨lo, r1, r2⟩ := Option.map_eq_some_iff.1 q1
      have e : l = p := by
        unfold present at q2
        split at q2
        · cases q2; rfl
        · cases q2
      subst e
      rw [← r2] at h2
      have hdir := hl.host.ancestor h2 (q := lo) ⟨[x], by simp, rfl⟩
      obtain ⟨j, j1, j2⟩ := FS.isDirAt_iff.1 hdir
      cases hgy : st.upper.get (m :: y) with
      | none =>
        rw [viewM_belowLow hl ht hgy]
        unfold lowOf
        rw [hp]
        simp [r1, j1, dirSeen, j2]
      | some k =>
        have hup := lookup_up hl ht y k hgy
        rw [viewM_stored hl ht hgy]
        cases hw : isWhiteout k with
        | true => rw [hw, hp] at hup; simp at hup
        | false =>
          rw [hw, hp] at hup
          obtain ⟨lo', hlo⟩ := hup
          cases hlo
          simp only at r1
          -- the stored node has a lower part
          rcases List.eq_nil_or_concat y with rfl | ⟨z, w, rfl⟩
          · obtain ⟨t, t1, t2, t3⟩ := lookup_nil hl ht
            rw [t1] at hgy; cases hgy
            exact t2
          · rw [List.concat_eq_append] at hp hgy
            rw [lookup_snoc hl ht, hgy] at hp
            cases hpz : Spec.lookup st m mp z with
            | none => rw [hpz] at hp; cases hp
            | some d =>
              rw [hpz] at hp
              simp only [Option.bind_some, foundAt, hw, Bool.false_eq_true, if_false] at hp
              split at hp
              · cases hp; cases r1
              · next hd => exact isDir_iff_ftype.2 (by simpa using hd)

theorem viewM_above {y : Path} {n : Node} (h : Spec.view st m mp y = some n) {q : Path} (hq : Below q y) : dirSeen (Spec.view st m mp q) = true := by
  obtain ⟨w, hw, rfl⟩ := hq
  induction w using List.reverseRecOn generalizing n with
  | nil => exact absurd rfl hw
  | append_singleton w x ih =>
    rw [← List.append_assoc] at h
    have hp := viewM_parent hl ht h
    by_cases hw0 : w = []
    · subst hw0; simpa using hp
    · cases hv : Spec.view st m mp (q ++ w) with
      | none => rw [hv] at hp; cases hp
      | some k => exact ih hw0 hv

theorem noneM_below {q y : Path} (hb : Below q y) (h : dirSeen (Spec.view st m mp q) = false) : Spec.view st m mp y = none := by
  cases hv : Spec.view st m mp y with
  | none => rfl
  | some n => rw [viewM_above hl ht hv hb] at h; cases h

theorem storedM_below {sub y : Path} {n : Node} (hb : Below sub y) (hg : st.upper.get (m :: y) = some n) : dirSeen (Spec.view st m mp sub) = true := by
  obtain ⟨d, hd1, hd2⟩ := FS.isDirAt_iff.1 (hl.upper.ancestor hg (below_cons hb))
  rw [viewM_stored hl ht hd1, not_whiteout_dir hd2 (hl.whiteout _ _ hd1)]
  exact hd2

theorem nothingM_stored {sub y : Path} (hb : Below sub y) (h : dirSeen (Spec.view st m mp sub) = false) : st.upper.get (m :: y) = none := by
  cases hg : st.upper.get (m :: y) with
  | none => rfl
  | some n => rw [storedM_below hl ht hb hg] at h; cases h

/-- Copying up stores, for directories above, what is seen. -/
theorem copyM_spec (hN : ∀ y, (∃ n, Spec.view st m mp y = some n) → NormalPath (m :: y)) : ∀ (r : List Name),
    dirSeen (Spec.view st m mp r.reverse) = true →
    (copyUp st m mp r).WF ∧ (copyUp st m mp r).isDirAt (m :: r.reverse) = true ∧
    ∀ q, (copyUp st m mp r).get q = st.upper.get q ∨ (st.upper.get q = none ∧ ∃ y n l, q = m :: y ∧ y ≠ [] ∧ y <+: r.reverse ∧ (copyUp st m mp r).get q = some { n with dev := devAt st.upper [m] } ∧
      Spec.lookup st m mp y = some ⟨none, some l⟩ ∧ st.lower.get l = some n ∧ n.isDir = true)
  | [], _ => ⟨hl.upper, ht.2, fun _ => Or.inl rfl⟩
  | x :: r, hd => by
    cases hv : Spec.view st m mp (x :: r).reverse with
    | none => rw [hv] at hd; cases hd
    | some n =>
      rw [hv] at hd
      have hpar := viewM_parent hl ht (y := r.reverse) (x := x) (n := n) (by rw [← List.reverse_cons]; exact hv)
      obtain ⟨i1, i2, i3⟩ := copyM_spec hN r hpar
      have hpre : ∀ y, y <+: r.reverse → y <+: (x :: r).reverse := fun y h => h.trans ⟨[x], by simp⟩
      unfold copyUp
      simp only [hv]
      split
      · rename_i hsome
        refine ⟨i1, ?_, fun q => ?_⟩
        · obtain ⟨k, hk⟩ := Option.isSome_iff_exists.1 hsome
          rcases i3 (m :: (x :: r).reverse) with h | ⟨_, y, n', l, h1, _, h3, h4, h5, _, h7⟩
          · rw [hk] at h
            have hv' := viewM_stored hl ht h.symm
            rw [hv] at hv'
            split at hv'
            · cases hv'
            · cases hv'
              exact FS.isDirAt_iff.2 ⟨n, hk, hd⟩
          · exact FS.isDirAt_iff.2 ⟨_, h4, h7⟩
        · rcases i3 q with h | ⟨h0, y, n', l, h1, h2, h3, h4⟩
          · exact Or.inl h
          · exact Or.inr ⟨h0, y, n', l, h1, h2, hpre y h3, h4⟩
      · rename_i hnone
        have hnone' : (copyUp st m mp r).get (m :: (x :: r).reverse) = none := by simpa using hnone
        have hu : st.upper.get (m :: (x :: r).reverse) = none := by
          rcases i3 (m :: (x :: r).reverse) with h | ⟨h, _⟩
          · rw [← h]; exact hnone'
          · exact h
        obtain ⟨l, hl1, hl2⟩ := view_low_some hl ht hu hv
        have hchain : (copyUp st m mp r).Chain (m :: (x :: r).reverse) := by
          intro q hq
          obtain ⟨d, hd1, hd2⟩ := FS.isDirAt_iff.1 i2
          have hq' : q <+: m :: r.reverse := by
            obtain ⟨w, hw, he⟩ := hq
            rw [List.reverse_cons, ← List.cons_append] at he
            have := (List.prefix_concat_iff.1 (⟨w, he.symm⟩ : q <+: (m :: r.reverse) ++ [x]))
            rcases this with h | h
            · exfalso; rw [h] at he; exact hw (List.append_cancel_left (by rw [List.append_nil]; exact he)).symm
            · exact h
          by_cases he : q = m :: r.reverse
          · rw [he]; exact i2
          · exact i1.ancestor hd1 (below_iff.2 ⟨hq', he⟩)
        refine ⟨i1.set (hN _ ⟨n, hv⟩) hchain (fun h => by rw [show ({ n with dev := devAt st.upper [m] } : Node).isDir = true from hd] at h; cases h), ?_, fun q => ?_⟩
        · rw [FS.isDirAt_iff]; exact ⟨{ n with dev := devAt st.upper [m] }, by rw [FS.get_set, if_pos rfl], hd⟩
        · by_cases he : m :: (x :: r).reverse = q
          · subst he
            exact Or.inr ⟨hu, _, n, l, rfl, by simp, List.prefix_refl _, by rw [FS.get_set, if_pos rfl], hl1, hl2, hd⟩
          · rw [FS.get_set, if_neg he]
            rcases i3 q with h | ⟨h0, y, n', l', h1, h2, h3, h4⟩
            · exact Or.inl h
            · exact Or.inr ⟨h0, y, n', l', h1, h2, hpre y h3, h4⟩

end

/-- The directory is a copy of the host's, stored where nothing was. -/
def Copied (st : State) (m : Name) (mp y : Path) (o : Option Node) : Prop :=
  st.upper.get (m :: y) = none ∧ ∃ n l, o = some { n with dev := devAt st.upper [m] } ∧ Spec.lookup st m mp y = some ⟨none, some l⟩ ∧ st.lower.get l = some n ∧ n.isDir = true

theorem Copied.rel {st : State} (hl : Lawful st) {m : Name} {mp y : Path} {o : Option Node} (h : Copied st m mp y o) : StoredRel st m mp y (st.upper.get (m :: y)) o := by
  obtain ⟨h0, n, l, h1, h2, h3, h4⟩ := h
  obtain ⟨p1, p2, p3⟩ := hl.plain l n h3
  exact Or.inr (Or.inr ⟨h0, { n with dev := devAt st.upper [m] }, l, h1, h4, p3, p2, p1, h2, FS.isDirAt_iff.2 ⟨n, h3, h4⟩⟩)

theorem Copied.view {st : State} (hl : Lawful st) {m : Name} {mp : Path} (ht : TopOk st m mp) {y : Path} {o : Option Node} (h : Copied st m mp y o) : noDev o = noDev (Spec.view st m mp y) := by
  obtain ⟨h0, n, l, h1, h2, h3, h4⟩ := h
  have : Spec.view st m mp y = some n := by unfold Spec.view; rw [h2]; simp [h3]
  rw [h1, this]; rfl

/-- What is stored after copying up and replacing what is at `sub`. -/
structure WrittenM (st : State) (m : Name) (mp sub : Path) (o : Option Node) (u : FS) : Prop where
  wf : u.WF
  at_ : u.get (m :: sub) = o
  off : ∀ q, q ≠ m :: sub → ¬ Below (m :: sub) q → u.get q = st.upper.get q ∨ ∃ y, q = m :: y ∧ y ≠ [] ∧ Below y sub ∧ Copied st m mp y (u.get q)
  below : ∀ y, Below sub y → u.get (m :: y) = st.upper.get (m :: y) ∨ u.get (m :: y) = none

section
variable {st : State} (hl : Lawful st) {m : Name} {mp sub : Path} {o : Option Node} {u : FS} (h : WrittenM st m mp sub o u)
include h

include hl in
theorem WrittenM.lawful (ho : ∀ n, o = some n → n.whiteout = false) : Lawful { st with upper := u } := by
  refine ⟨hl.host, h.wf, fun q n hg => ?_, hl.plain⟩
  have hg : u.get q = some n := hg
  by_cases hq : q = m :: sub
  · rw [hq, h.at_] at hg; exact ho n hg
  · by_cases hb : Below (m :: sub) q
    · obtain ⟨w, hw, rfl⟩ := hb
      rcases h.below (sub ++ w) ⟨w, hw, rfl⟩ with h' | h'
      · rw [← List.cons_append] at h'
        rw [h'] at hg
        exact hl.whiteout _ n hg
      · rw [← List.cons_append] at h'
        rw [h'] at hg; cases hg
    · rcases h.off q hq hb with h' | ⟨y, _, _, _, _, k, l, h5, _, h7, _⟩
      · rw [h'] at hg; exact hl.whiteout _ n hg
      · rw [h5] at hg; cases hg
        exact (hl.plain _ k h7).2.2

theorem WrittenM.top (hsub : sub ≠ []) : u.get [m] = st.upper.get [m] := by
  have h1 : ([m] : Path) ≠ m :: sub := fun e => hsub (by simpa using e.symm)
  have h2 : ¬ Below (m :: sub) [m] := fun hb => by have := hb.prefix.length_le; simp at this; exact hsub this
  rcases h.off [m] h1 h2 with h' | ⟨y, h3, h4, _⟩
  · exact h'
  · exact absurd (by simpa using h3.symm) h4

theorem WrittenM.topOk (ht : TopOk st m mp) (hsub : sub ≠ []) : TopOk { st with upper := u } m mp := ⟨ht.1, by rw [FS.isDirAt_congr (gs := st.upper) (h.top hsub)]; exact ht.2⟩

theorem WrittenM.at_off {y : Path} (hy : ¬ sub <+: y) : u.get (m :: y) = st.upper.get (m :: y) ∨ Copied st m mp y (u.get (m :: y)) := by
  rcases h.off (m :: y) (fun e => hy (by rw [← (List.cons.inj e).2])) (fun hb => hy (cons_prefix.1 hb.prefix)) with h' | ⟨y', h1, _, _, h4⟩
  · exact Or.inl h'
  · cases h1; exact Or.inr h4

include hl in
/-- Away from the path lookups are the same. -/
theorem WrittenM.low (ht : TopOk st m mp) (hsub : sub ≠ []) (ho : ∀ n, o = some n → n.whiteout = false) {y : Path} (hy : ¬ sub <+: y) :
    lowOf { st with upper := u } m mp y = lowOf st m mp y := by
  have hl' := h.lawful hl ho
  have ht' := h.topOk ht hsub
  have h0 : lowOf { st with upper := u } m mp [] = lowOf st m mp [] := by
    obtain ⟨t, t1, t2, t3⟩ := lookup_nil hl ht
    obtain ⟨t', t1', t2', t3'⟩ := lookup_nil hl' ht'
    unfold lowOf; rw [t3, t3']; rfl
  have := low_shift hl hl' rfl ht ht' h0 y (fun q _ hq => by
    rw [List.nil_append]
    rcases h.at_off (y := q) (fun hc => hy (hc.trans hq)) with h' | h'
    · exact Or.inl h'
    · exact h'.rel hl)
  simpa using this

include hl in
theorem WrittenM.apart (ht : TopOk st m mp) (hsub : sub ≠ []) (ho : ∀ n, o = some n → n.whiteout = false) {y : Path} (hy : ¬ sub <+: y) :
    noDev (Spec.view { st with upper := u } m mp y) = noDev (Spec.view st m mp y) := by
  have hl' := h.lawful hl ho
  have ht' := h.topOk ht hsub
  rcases h.at_off hy with h' | h'
  · cases hg : st.upper.get (m :: y) with
    | some n => rw [viewM_stored hl ht hg, viewM_stored hl' ht' (show u.get _ = _ from by rw [h', hg])]
    | none => rw [viewM_belowLow hl ht hg, viewM_belowLow hl' ht' (show u.get _ = _ from by rw [h', hg]), h.low hl ht hsub ho hy]
  · have hv := h'.view hl ht
    obtain ⟨_, n, l, h1, _, h3, h4⟩ := h'
    have hnw : isWhiteout { n with dev := devAt st.upper [m] } = false := not_whiteout_dir (n := { n with dev := devAt st.upper [m] }) h4 (hl.plain l n h3).2.2
    rw [viewM_stored hl' ht' (show u.get _ = _ from h1), if_neg (by rw [hnw]; simp), ← hv, h1]

include hl in
/-- Where nothing is merged and nothing stored, nothing is seen. -/
theorem WrittenM.none_below (ht : TopOk st m mp) (hsub : sub ≠ []) (ho : ∀ n, o = some n → n.whiteout = false) (hlo : lowOf { st with upper := u } m mp sub = some none)
    (hno : ∀ y, Below sub y → u.get (m :: y) = none) {y : Path} (hb : Below sub y) : Spec.view { st with upper := u } m mp y = none := by
  have hl' := h.lawful hl ho
  have ht' := h.topOk ht hsub
  obtain ⟨w, hw, rfl⟩ := hb
  cases w with
  | nil => exact absurd rfl hw
  | cons x w =>
    have h1 : Spec.lookup { st with upper := u } m mp (sub ++ [x]) = none := by
      rw [lookup_snoc hl' ht']
      unfold lowOf at hlo
      cases hp : Spec.lookup { st with upper := u } m mp sub with
      | none => rfl
      | some d =>
        rw [hp] at hlo
        have hdl : d.lower = none := by simpa using hlo
        rw [show ({ st with upper := u } : State).upper.get (m :: (sub ++ [x])) = none from hno _ ⟨[x], by simp, rfl⟩]
        simp [foundAt, hdl]
    have h2 : Spec.view { st with upper := u } m mp (sub ++ [x]) = none := by unfold Spec.view; rw [h1]; rfl
    cases w with
    | nil => exact h2
    | cons z w => exact noneM_below hl' ht' (q := sub ++ [x]) ⟨z :: w, by simp, by simp⟩ (by rw [h2]; rfl)

end


section
variable {st : State} (hl : Lawful st) {m : Name} {mp : Path} (ht : TopOk st m mp)
include hl ht

/-- Below a directory where nothing is stored, what is found is in the lower part. -/
theorem low_unstored {b : Path} : ∀ {r : Path} {f : Found}, r ≠ [] → (∀ q, q ≠ [] → q <+: r → st.upper.get (m :: (b ++ q)) = none) → Spec.lookup st m mp (b ++ r) = some f →
    ∃ d l, Spec.lookup st m mp b = some d ∧ d.lower = some l ∧ f = ⟨none, some (l ++ r)⟩ := by
  intro r
  induction r using List.reverseRecOn with
  | nil => intro f h; exact absurd rfl h
  | append_singleton r x ih =>
    intro f _ hno hf
    rw [← List.append_assoc, lookup_snoc hl ht] at hf
    have hx := hno (r ++ [x]) (by simp) (List.prefix_refl _)
    rw [← List.append_assoc] at hx
    rw [hx] at hf
    cases hp : Spec.lookup st m mp (b ++ r) with
    | none => rw [hp] at hf; cases hf
    | some d =>
      rw [hp] at hf
      obtain ⟨l', g1, g2⟩ := Option.map_eq_some_iff.1 (show Option.map _ _ = _ from hf)
      obtain ⟨p, q1, q2⟩ := Option.bind_eq_some_iff.1 g1
      obtain ⟨lo, r1, r2⟩ := Option.map_eq_some_iff.1 q1
      have e : l' = p := by
        unfold present at q2
        split at q2
        · cases q2; rfl
        · cases q2
      subst e
      by_cases hr : r = []
      · subst hr
        rw [List.append_nil] at hp
        exact ⟨d, lo, hp, r1, by rw [← g2, ← r2]; rfl⟩
      · obtain ⟨d', l, h1, h2, h3⟩ := ih hr (fun q a b' => hno q a (b'.trans (List.prefix_append _ _))) hp
        rw [h3] at r1
        cases r1
        exact ⟨d', l, h1, h2, by rw [← g2, ← r2, List.append_assoc]⟩

/-- The deepest stored directory. -/
theorem deepest_stored (y : Path) : ∃ b r k, y = b ++ r ∧ st.upper.get (m :: b) = some k ∧ ∀ q, q ≠ [] → q <+: r → st.upper.get (m :: (b ++ q)) = none := by
  induction y using List.reverseRecOn with
  | nil =>
    obtain ⟨t, h1, _, _⟩ := lookup_nil hl ht
    exact ⟨[], [], t, rfl, h1, fun q hq hp => absurd (List.prefix_nil.1 hp) hq⟩
  | append_singleton y x ih =>
    cases hg : st.upper.get (m :: (y ++ [x])) with
    | some k => exact ⟨y ++ [x], [], k, by simp, hg, fun q hq hp => absurd (List.prefix_nil.1 hp) hq⟩
    | none =>
      obtain ⟨b, r, k, rfl, h2, h3⟩ := ih
      refine ⟨b, r ++ [x], k, by simp, h2, fun q hq hp => ?_⟩
      rcases List.prefix_concat_iff.1 hp with h | h
      · rw [h, ← List.append_assoc]; exact hg
      · exact h3 q hq h

theorem childM_iff {sub : Path} : childSeen st m mp sub = true ↔ ∃ y, Below sub y ∧ (Spec.view st m mp y).isSome = true := by
  unfold childSeen
  rw [List.any_eq_true]
  constructor
  · rintro ⟨y, _, h⟩
    simp only [Bool.and_eq_true, List.isPrefixOf_iff_prefix, bne_iff_ne, ne_eq] at h
    exact ⟨y, below_iff.2 ⟨h.1.1, fun e => h.1.2 e.symm⟩, h.2⟩
  · rintro ⟨y, hb, hv⟩
    refine ⟨y, ?_, ?_⟩
    · unfold candidates
      cases hg : st.upper.get (m :: y) with
      | some k => exact List.mem_append_left _ (mem_storedSubs.2 ⟨k, hg⟩)
      | none =>
        obtain ⟨b, r, k, rfl, h2, h3⟩ := deepest_stored hl ht y
        have hr : r ≠ [] := by rintro rfl; rw [List.append_nil, h2] at hg; cases hg
        rw [view_isSome hl ht] at hv
        obtain ⟨f, hf⟩ := Option.isSome_iff_exists.1 hv
        obtain ⟨d, l, g1, g2, g3⟩ := low_unstored hl ht hr h3 hf
        obtain ⟨j, j1, _⟩ := lower_present hl ht hf (l := l ++ r) (by rw [g3])
        exact List.mem_append_right _ (List.mem_flatMap.2 ⟨b, mem_storedSubs.2 ⟨k, h2⟩, mem_lowerSubs.2 ⟨l, r, by rw [g1]; exact g2, rfl, j, j1⟩⟩)
    · simp only [Bool.and_eq_true, List.isPrefixOf_iff_prefix, bne_iff_ne, ne_eq]
      exact ⟨⟨hb.prefix, fun e => hb.ne e.symm⟩, hv⟩

end

section
variable {st : State} (hl : Lawful st) {m : Name} {mp sub : Path} (ht : TopOk st m mp) (hsub : sub ≠ []) (hN : ∀ y, y <+: sub → NormalPath (m :: y))
  (hNv : ∀ y, (∃ n, Spec.view st m mp y = some n) → NormalPath (m :: y)) (hpar : dirSeen (Spec.view st m mp sub.dropLast) = true)
include hl ht hsub hN hNv hpar

theorem writtenM_set {n : Node} (hn : n.isDir = false → ∀ y, Below sub y → st.upper.get (m :: y) = none) :
    WrittenM st m mp sub (some n) ((copyUp st m mp sub.dropLast.reverse).set (m :: sub) n) ∧
    ∀ y, Below sub y → ((copyUp st m mp sub.dropLast.reverse).set (m :: sub) n).get (m :: y) = st.upper.get (m :: y) := by
  obtain ⟨c1, c2, c3⟩ := copyM_spec hl ht hNv sub.dropLast.reverse (by rw [List.reverse_reverse]; exact hpar)
  rw [List.reverse_reverse] at c2 c3
  have hdl : ∀ y, y <+: sub.dropLast → Below y sub := fun y hy => below_of_prefix_below hy (dropLast_below hsub)
  have hbelow : ∀ y, Below sub y → (copyUp st m mp sub.dropLast.reverse).get (m :: y) = st.upper.get (m :: y) := by
    intro y hb
    rcases c3 (m :: y) with h | ⟨_, y', k, l, h1, _, h3, _⟩
    · exact h
    · cases h1
      exact absurd hb.prefix (hdl y h3).not_prefix
  refine ⟨⟨c1.set (hN _ (List.prefix_refl _)) (chain_copyUp hsub c1 c2) (fun hnd => ⟨by simp, fun q hq => ?_⟩), by rw [FS.get_set, if_pos rfl], fun q hq hb => ?_, fun y hb => ?_⟩, fun y hb => ?_⟩
  · obtain ⟨w, hw, rfl⟩ := hq
    rw [List.cons_append, hbelow (sub ++ w) ⟨w, hw, rfl⟩]
    exact hn hnd _ ⟨w, hw, rfl⟩
  · rw [FS.get_set, if_neg (fun e => hq e.symm)]
    rcases c3 q with h | ⟨h0, y, k, l, h1, h2, h3, h4⟩
    · exact Or.inl h
    · subst h1
      exact Or.inr ⟨y, rfl, h2, hdl y h3, h0, k, l, h4⟩
  · rw [FS.get_set, if_neg (fun e => hb.ne (List.cons.inj e).2)]
    exact Or.inl (hbelow y hb)
  · rw [FS.get_set, if_neg (fun e => hb.ne (List.cons.inj e).2)]
    exact hbelow y hb

theorem writtenM_prune {o : Option Node} (ho : ∀ n, o = some n → n.isDir = false) : ∀ u : FS,
    (u = match o with
      | none => (copyUp st m mp sub.dropLast.reverse).filter (fun e => !(m :: sub).isPrefixOf e.1)
      | some n => FS.set ((copyUp st m mp sub.dropLast.reverse).filter (fun e => !(m :: sub).isPrefixOf e.1)) (m :: sub) n) →
    WrittenM st m mp sub o u ∧ ∀ y, Below sub y → u.get (m :: y) = none := by
  rintro u rfl
  obtain ⟨c1, c2, c3⟩ := copyM_spec hl ht hNv sub.dropLast.reverse (by rw [List.reverse_reverse]; exact hpar)
  rw [List.reverse_reverse] at c2 c3
  have hdl : ∀ y, y <+: sub.dropLast → Below y sub := fun y hy => below_of_prefix_below hy (dropLast_below hsub)
  have hwf := WF_prune c1 (p := m :: sub) (by simp)
  have hoff : ∀ q, q ≠ m :: sub → ¬ Below (m :: sub) q → FS.get ((copyUp st m mp sub.dropLast.reverse).filter (fun e => !(m :: sub).isPrefixOf e.1)) q = (copyUp st m mp sub.dropLast.reverse).get q := by
    intro q h1 h2
    rw [get_prune, if_neg (fun h => h2 (below_iff.2 ⟨h, fun e => h1 e.symm⟩))]
  have hch : FS.Chain ((copyUp st m mp sub.dropLast.reverse).filter (fun e => !(m :: sub).isPrefixOf e.1)) (m :: sub) := by
    intro q hq
    rw [FS.isDirAt_congr (hoff q hq.ne (fun hb => hb.not_prefix hq.prefix))]
    exact chain_copyUp hsub c1 c2 q hq
  have hc : ∀ q, (copyUp st m mp sub.dropLast.reverse).get q = st.upper.get q ∨ ∃ y, q = m :: y ∧ y ≠ [] ∧ Below y sub ∧ Copied st m mp y ((copyUp st m mp sub.dropLast.reverse).get q) := by
    intro q
    rcases c3 q with h | ⟨h0, y, k, l, h1, h2, h3, h4⟩
    · exact Or.inl h
    · subst h1
      exact Or.inr ⟨y, rfl, h2, hdl y h3, h0, k, l, h4⟩
  cases o with
  | none =>
    have hb' : ∀ y, Below sub y → FS.get ((copyUp st m mp sub.dropLast.reverse).filter (fun e => !(m :: sub).isPrefixOf e.1)) (m :: y) = none := fun y hb => by
      rw [get_prune, if_pos (below_cons hb).prefix]
    refine ⟨⟨hwf, by rw [get_prune, if_pos (List.prefix_refl _)], fun q h1 h2 => ?_, fun y hb => Or.inr (hb' y hb)⟩, hb'⟩
    dsimp only; rw [hoff q h1 h2]; exact hc q
  | some n =>
    have hb' : ∀ y, Below sub y → FS.get (FS.set ((copyUp st m mp sub.dropLast.reverse).filter (fun e => !(m :: sub).isPrefixOf e.1)) (m :: sub) n) (m :: y) = none := fun y hb => by
      rw [FS.get_set, if_neg (fun e => hb.ne (List.cons.inj e).2), get_prune, if_pos (below_cons hb).prefix]
    refine ⟨⟨hwf.set (hN _ (List.prefix_refl _)) hch (fun _ => ⟨by simp, fun q hq => by rw [get_prune, if_pos hq.prefix]⟩), by rw [FS.get_set, if_pos rfl], fun q h1 h2 => ?_,
      fun y hb => Or.inr (hb' y hb)⟩, hb'⟩
    dsimp only; rw [FS.get_set, if_neg (fun e => h1 e.symm), hoff q h1 h2]; exact hc q

end

/-- The view has changed at `sub` only. -/
structure UpdatedM (st st' : State) (m : Name) (mp sub : Path) (v : Option Attrs) : Prop where
  lawful : Lawful st'
  lower : st'.lower = st.lower
  others : ∀ q, (∀ y, q ≠ m :: y) → st'.upper.get q = st.upper.get q
  top : st'.upper.get [m] = st.upper.get [m]
  here : attrsOf (Spec.view st' m mp sub) = v
  there : ∀ y, y ≠ sub → noDev (Spec.view st' m mp y) = noDev (Spec.view st m mp y)
  keys : ∀ y n, st'.upper.get (m :: y) = some n → (st.upper.get (m :: y)).isSome = true ∨ (y ≠ [] ∧ y <+: sub)
  nodes : ∀ y n, st'.upper.get (m :: y) = some n → st.upper.get (m :: y) = some n ∨ (y ≠ [] ∧ y <+: sub ∧ (n.kind = .dir ∨ n.kind = .chr 0 ∨ v = some (n.kind, n.uid, n.gid, n.perm)))
  kept : ∀ k, Spec.view st m mp sub = some k → k.isDir = true → v ≠ none →
    (∃ k', Spec.view st' m mp sub = some k' ∧ k'.isDir = true ∧ k'.opq = k.opq ∧ k'.redirect = k.redirect) ∧ ∀ y, lowOf st' m mp y = lowOf st m mp y
  lowOff : ∀ y, ¬ sub <+: y → lowOf st' m mp y = lowOf st m mp y
  redirects : ∀ y n rd, st'.upper.get (m :: y) = some n → n.redirect = some rd →
    lowOf st' m mp y = lowOf st m mp y ∧ ∃ n0, st.upper.get (m :: y) = some n0 ∧ n0.redirect = some rd ∧ n.isDir = n0.isDir ∧ n.opq = n0.opq
  lows : ∀ y l, lowOf st' m mp y = some (some l) → lowOf st m mp y = some (some l)

section
variable {st : State} (hl : Lawful st) {m : Name} {mp : Path} (ht : TopOk st m mp) {sub : Path} (hsub : sub ≠ []) {o : Option Node} {u : FS} (h : WrittenM st m mp sub o u)
include hl ht hsub h

theorem WrittenM.updated (ho : ∀ n, o = some n → n.whiteout = false) {v : Option Attrs} (hhere : attrsOf (Spec.view { st with upper := u } m mp sub) = v)
    (hbelow : ∀ y, Below sub y → noDev (Spec.view { st with upper := u } m mp y) = noDev (Spec.view st m mp y))
    (hnode : ∀ n, o = some n → n.kind = .dir ∨ n.kind = .chr 0 ∨ v = some (n.kind, n.uid, n.gid, n.perm))
    (hkept : ∀ k, Spec.view st m mp sub = some k → k.isDir = true → v ≠ none →
      (∃ k', Spec.view { st with upper := u } m mp sub = some k' ∧ k'.isDir = true ∧ k'.opq = k.opq ∧ k'.redirect = k.redirect) ∧
      ∀ y, sub <+: y → lowOf { st with upper := u } m mp y = lowOf st m mp y)
    (hred : ∀ y n rd, sub <+: y → u.get (m :: y) = some n → n.redirect = some rd →
      lowOf { st with upper := u } m mp y = lowOf st m mp y ∧ ∃ n0, st.upper.get (m :: y) = some n0 ∧ n0.redirect = some rd ∧ n.isDir = n0.isDir ∧ n.opq = n0.opq)
    (hlows : ∀ y l, sub <+: y → lowOf { st with upper := u } m mp y = some (some l) → lowOf st m mp y = some (some l)) :
    UpdatedM st { st with upper := u } m mp sub v := by
  have hcases : ∀ y n, u.get (m :: y) = some n → st.upper.get (m :: y) = some n ∨ (y = sub ∧ o = some n) ∨ (y ≠ [] ∧ Below y sub ∧ n.isDir = true ∧ n.redirect = none) := by
    intro y n hg
    by_cases hy : y = sub
    · subst hy; rw [h.at_] at hg; exact Or.inr (Or.inl ⟨rfl, hg⟩)
    · by_cases hb : Below sub y
      · rcases h.below y hb with h' | h'
        · rw [h'] at hg; exact Or.inl hg
        · rw [h'] at hg; cases hg
      · rcases h.off (m :: y) (fun e => hy (List.cons.inj e).2) (fun hc => hb (by
          obtain ⟨w, hw, he⟩ := hc
          exact ⟨w, hw, by simpa using he⟩)) with h' | ⟨y', h1, h2, h3, _, k, l, h4, _, h6, h7⟩
        · rw [h'] at hg; exact Or.inl hg
        · cases h1
          rw [h4] at hg; cases hg
          exact Or.inr (Or.inr ⟨h2, h3, h7, (hl.plain l k h6).1⟩)
  refine ⟨h.lawful hl ho, rfl, fun q hq => ?_, h.top hsub, hhere, fun y hy => ?_, fun y n hg => ?_, fun y n hg => ?_, fun k h1 h2 h3 => ⟨(hkept k h1 h2 h3).1, fun y => ?_⟩, fun y hy => h.low hl ht hsub ho hy, fun y n rd hg hrd => ?_, fun y l hlo => ?_⟩
  · by_cases hb : Below (m :: sub) q
    · obtain ⟨w, _, he⟩ := hb
      exact absurd he (hq _)
    · rcases h.off q (hq sub) hb with h' | ⟨y, h1, _⟩
      · exact h'
      · exact absurd h1 (hq y)
  · by_cases hp : sub <+: y
    · exact hbelow y (below_iff.2 ⟨hp, fun e => hy e.symm⟩)
    · exact h.apart hl ht hsub ho hp
  · rcases hcases y n hg with h' | ⟨rfl, _⟩ | ⟨h1, h2, _⟩
    · left; rw [h']; rfl
    · exact Or.inr ⟨hsub, List.prefix_refl _⟩
    · exact Or.inr ⟨h1, h2.prefix⟩
  · rcases hcases y n hg with h' | ⟨rfl, h2⟩ | ⟨h1, h2, h3, _⟩
    · exact Or.inl h'
    · exact Or.inr ⟨hsub, List.prefix_refl _, hnode n h2⟩
    · exact Or.inr ⟨h1, h2.prefix, Or.inl (by unfold Node.isDir at h3; simpa using h3)⟩
  · by_cases hp : sub <+: y
    · exact (hkept k h1 h2 h3).2 y hp
    · exact h.low hl ht hsub ho hp
  · by_cases hp : sub <+: y
    · exact hred y n rd hp hg hrd
    · refine ⟨h.low hl ht hsub ho hp, n, ?_, hrd, rfl, rfl⟩
      rcases hcases y n hg with h' | ⟨rfl, _⟩ | ⟨_, _, _, h4⟩
      · exact h'
      · exact absurd (List.prefix_refl _) hp
      · rw [h4] at hrd; cases hrd
  · by_cases hp : sub <+: y
    · exact hlows y l hp hlo
    · rw [← h.low hl ht hsub ho hp]; exact hlo

end

end SB
