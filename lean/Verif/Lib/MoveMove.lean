import Verif.Lib.MoveAct
import Verif.Lib.TextLemmas

/-! Moving a directory in a sandbox (proof machinery). -/

namespace SB
open Spec

/-- Some directories have been copied up, nothing else. -/
structure Lifted (st : State) (m : Name) (mp : Path) (P : Path → Prop) (u : FS) : Prop where
  wf : u.WF
  get : ∀ q, u.get q = st.upper.get q ∨ ∃ y, q = m :: y ∧ y ≠ [] ∧ P y ∧ Copied st m mp y (u.get q)

section
variable {st : State} (hl : Lawful st) {m : Name} {mp : Path} (ht : TopOk st m mp) {P : Path → Prop} {u : FS} (h : Lifted st m mp P u)
include h

theorem Lifted.at_ (y : Path) : u.get (m :: y) = st.upper.get (m :: y) ∨ (y ≠ [] ∧ P y ∧ Copied st m mp y (u.get (m :: y))) := by
  rcases h.get (m :: y) with h' | ⟨y', h1, h2⟩
  · exact Or.inl h'
  · cases h1; exact Or.inr h2

include hl in
theorem Lifted.rel (y : Path) : StoredRel st m mp y (st.upper.get (m :: y)) (u.get (m :: y)) := by
  rcases h.at_ y with h' | ⟨_, _, h'⟩
  · exact Or.inl h'
  · exact h'.rel hl

include hl in
theorem Lifted.lawful : Lawful { st with upper := u } := by
  refine ⟨hl.host, h.wf, fun q n hg => ?_, hl.plain⟩
  have hg : u.get q = some n := hg
  rcases h.get q with h' | ⟨y, _, _, _, _, k, l, h5, _, h7, _⟩
  · rw [h'] at hg; exact hl.whiteout _ n hg
  · rw [h5] at hg; cases hg
    exact (hl.plain _ k h7).2.2

theorem Lifted.top : u.get [m] = st.upper.get [m] := by
  rcases h.at_ [] with h' | ⟨h', _⟩
  · exact h'
  · exact absurd rfl h'

include ht in
theorem Lifted.topOk : TopOk { st with upper := u } m mp := ⟨ht.1, by rw [FS.isDirAt_congr (gs := st.upper) h.top]; exact ht.2⟩

include hl ht in
theorem Lifted.low (y : Path) : lowOf { st with upper := u } m mp y = lowOf st m mp y := by
  have h0 : lowOf { st with upper := u } m mp [] = lowOf st m mp [] := by
    obtain ⟨t, t1, t2, t3⟩ := lookup_nil hl ht
    obtain ⟨t', t1', t2', t3'⟩ := lookup_nil (h.lawful hl) (h.topOk ht)
    unfold lowOf; rw [t3, t3']; rfl
  have := low_shift hl (h.lawful hl) rfl ht (h.topOk ht) h0 y (fun q _ _ => by rw [List.nil_append]; exact h.rel hl q)
  simpa using this

include hl ht in
theorem Lifted.view (y : Path) : noDev (Spec.view { st with upper := u } m mp y) = noDev (Spec.view st m mp y) := by
  have hl' := h.lawful hl
  have ht' := h.topOk ht
  rcases h.at_ y with h' | ⟨_, _, h'⟩
  · cases hg : st.upper.get (m :: y) with
    | some n => rw [viewM_stored hl ht hg, viewM_stored hl' ht' (show u.get _ = _ from by rw [h', hg])]
    | none => rw [viewM_belowLow hl ht hg, viewM_belowLow hl' ht' (show u.get _ = _ from by rw [h', hg]), h.low hl ht]
  · have hv := h'.view hl ht
    obtain ⟨_, n, l, h1, _, h3, h4⟩ := h'
    have hnw : isWhiteout { n with dev := devAt st.upper [m] } = false := not_whiteout_dir (n := { n with dev := devAt st.upper [m] }) h4 (hl.plain l n h3).2.2
    rw [viewM_stored hl' ht' (show u.get _ = _ from h1), if_neg (by rw [hnw]; simp), ← hv, h1]

include hl ht in
theorem Lifted.trans {P' : Path → Prop} {u' : FS} (h' : Lifted { st with upper := u } m mp P' u') : Lifted st m mp (fun y => P y ∨ P' y) u' := by
  refine ⟨h'.wf, fun q => ?_⟩
  rcases h'.get q with e | ⟨y, e, hy, hP, hc0, n, l, hc1, hc2, hc3, hc4⟩
  · rw [e]
    rcases h.get q with e' | ⟨y, e', hy, hP, hc⟩
    · exact Or.inl e'
    · exact Or.inr ⟨y, e', hy, Or.inl hP, hc⟩
  · subst e
    refine Or.inr ⟨y, rfl, hy, Or.inr hP, ?_, n, l, ?_, ?_, hc3, hc4⟩
    · rcases h.at_ y with e' | ⟨_, _, _, k, l', e', _⟩
      · rw [← e']; exact hc0
      · rw [show u.get (m :: y) = none from hc0] at e'; cases e'
    · rw [hc1]
      unfold devAt
      rw [show ({ st with upper := u } : State).upper.get [m] = st.upper.get [m] from h.top]
    · have hlow := h.low hl ht y
      unfold lowOf at hlow
      rw [hc2] at hlow
      have hn : st.upper.get (m :: y) = none := by
        rcases h.at_ y with e' | ⟨_, _, _, k, l', e', _⟩
        · rw [← e']; exact hc0
        · rw [show u.get (m :: y) = none from hc0] at e'; cases e'
      cases hf : Spec.lookup st m mp y with
      | none => rw [hf] at hlow; cases hlow
      | some f =>
        rw [hf] at hlow
        obtain ⟨g1, _⟩ := lookup_none hl ht hn hf
        have g2 : f.lower = some l := by simpa using hlow.symm
        cases f
        simp only at g1 g2
        rw [g1, g2]

end

/-- Copying up is lifting. -/
theorem lifted_copy {st : State} (hl : Lawful st) {m : Name} {mp : Path} (ht : TopOk st m mp) (hN : ∀ y, (∃ n, Spec.view st m mp y = some n) → NormalPath (m :: y)) {p : Path}
    (hd : dirSeen (Spec.view st m mp p) = true) : Lifted st m mp (· <+: p) (copyUp st m mp p.reverse) ∧ (copyUp st m mp p.reverse).isDirAt (m :: p) = true := by
  obtain ⟨c1, c2, c3⟩ := copyM_spec hl ht hN p.reverse (by rw [List.reverse_reverse]; exact hd)
  rw [List.reverse_reverse] at c2 c3
  refine ⟨⟨c1, fun q => ?_⟩, c2⟩
  rcases c3 q with h | ⟨h0, y, n, l, h1, h2, h3, h4, h5, h6, h7⟩
  · exact Or.inl h
  · subst h1; exact Or.inr ⟨y, rfl, h2, h3, h0, n, l, h4, h5, h6, h7⟩

/-- The redirects of a storage: on merged directories, with plain names. -/
def RedOk (st : State) (m : Name) (mp : Path) : Prop :=
  ∀ y n rd, st.upper.get (m :: y) = some n → n.redirect = some rd →
    y ≠ [] ∧ n.isDir = true ∧ n.opq = false ∧ components rd ≠ [] ∧ NormalPath (components rd) ∧ ∃ l, lowOf st m mp y = some (some l)

/-- The part in the lower layer is where the path is named after. -/
theorem low_named {st : State} (hl : Lawful st) {m : Name} {mp : Path} (ht : TopOk st m mp) : ∀ (y : Path) (l : Path), lowOf st m mp y = some (some l) → l = Spec.named st m mp y := by
  intro y
  induction y using List.reverseRecOn with
  | nil =>
    intro l h
    obtain ⟨t, t1, t2, t3⟩ := lookup_nil hl ht
    unfold lowOf at h
    rw [t3] at h
    simp only [Option.map_some, Option.some.injEq] at h
    subst h; rfl
  | append_singleton y x ih =>
    intro l h
    unfold lowOf at h ih
    rw [lookup_snoc hl ht] at h
    unfold Spec.named
    rw [List.reverse_append, List.reverse_singleton, List.singleton_append, Spec.namedRev]
    simp only [List.reverse_cons, List.reverse_reverse]
    cases hp : Spec.lookup st m mp y with
    | none => rw [hp] at h; cases h
    | some d =>
      rw [hp] at h ih
      have ih' : ∀ l, d.lower = some l → l = Spec.namedRev st m mp y.reverse := fun l hl => ih l (by simp [hl])
      simp only [Option.bind_some] at h
      cases hg : st.upper.get (m :: (y ++ [x])) with
      | none =>
        rw [hg] at h
        simp only [foundAt] at h
        simp only [Option.bind_none]
        obtain ⟨f, h1, h2⟩ := Option.map_eq_some_iff.1 h
        obtain ⟨l', h3, h4⟩ := Option.map_eq_some_iff.1 h1
        subst h4
        cases h2
        obtain ⟨p, q1, q2⟩ := Option.bind_eq_some_iff.1 h3
        obtain ⟨lo, r1, r2⟩ := Option.map_eq_some_iff.1 q1
        have e : l = p := by
          unfold present at q2
          split at q2
          · cases q2; rfl
          · cases q2
        rw [e, ← r2, ih' lo r1]
      | some n =>
        rw [hg] at h
        simp only [foundAt] at h
        split at h
        · cases h
        · split at h
          · simp at h
          · split at h
            · simp at h
            · simp only [Option.map_some, Option.some.injEq] at h
              obtain ⟨p, q1, q2⟩ := Option.bind_eq_some_iff.1 h
              obtain ⟨e, _⟩ := presentDir_some q2
              subst e
              simp only [Option.bind_some]
              cases hr : n.redirect with
              | none =>
                rw [hr] at q1
                obtain ⟨lo, r1, r2⟩ := Option.map_eq_some_iff.1 q1
                rw [← r2, ih' lo r1]
              | some rd =>
                rw [hr] at q1
                simp only [lowerName] at q1
                dsimp only
                split at q1
                · next hc => rw [if_pos hc]; exact (Option.some.inj q1).symm
                · next hc =>
                  rw [if_neg hc]
                  obtain ⟨lo, r1, r2⟩ := Option.map_eq_some_iff.1 q1
                  rw [← r2, ih' lo r1]

/-- Names are below the mount point. -/
theorem namedM_below {st : State} {m : Name} {mp : Path} (hr : RedOk st m mp) : ∀ y : Path, mp <+: Spec.named st m mp y ∧ (y ≠ [] → Spec.named st m mp y ≠ mp) := by
  intro y
  induction y using List.reverseRecOn with
  | nil => exact ⟨List.prefix_refl _, fun h => absurd rfl h⟩
  | append_singleton y x ih =>
    have key : Below mp (Spec.named st m mp (y ++ [x])) := by
      unfold Spec.named at ih ⊢
      rw [List.reverse_append, List.reverse_singleton, List.singleton_append, Spec.namedRev]
      simp only [List.reverse_cons, List.reverse_reverse]
      cases hg : (st.upper.get (m :: (y ++ [x]))).bind (·.redirect) with
      | none => exact below_of_prefix_below ih.1 ⟨[x], by simp, rfl⟩
      | some rd =>
        obtain ⟨n, h1, h2⟩ := Option.bind_eq_some_iff.1 hg
        have hc := (hr _ n rd h1 h2).2.2.2.1
        dsimp only
        split
        · exact ⟨_, hc, rfl⟩
        · exact below_of_prefix_below ih.1 ⟨_, hc, rfl⟩
    exact ⟨key.prefix, fun _ e => key.ne e.symm⟩

theorem components_name {x : Name} (hx : NormalName x) : components x = [x] ∧ x.head? ≠ some '/' := by
  constructor
  · unfold components
    rw [split_noSlash hx.2.1]
    simpa using filter_normal (p := [x]) (fun n hn => by simp at hn; subst hn; exact hx)
  · intro h
    cases x with
    | nil => cases h
    | cons c x =>
      simp only [List.head?_cons, Option.some.injEq] at h
      subst h
      exact hx.2.1 (by simp)

theorem display_abs (p : Path) : (display p).head? = some '/' := by
  cases p with
  | nil => rfl
  | cons n p => rfl


/-- The directory `a` has become `b`. -/
structure MovedTo (st st' : State) (m : Name) (mp a b : Path) : Prop where
  lawful : Lawful st'
  lower : st'.lower = st.lower
  others : ∀ q, (∀ y, q ≠ m :: y) → st'.upper.get q = st.upper.get q
  top : st'.upper.get [m] = st.upper.get [m]
  dest : attrsOf (Spec.view st' m mp b) = attrsOf (Spec.view st m mp a)
  tree : ∀ r, r ≠ [] → noDev (Spec.view st' m mp (b ++ r)) = noDev (Spec.view st m mp (a ++ r))
  gone : ∀ y, a <+: y → Spec.view st' m mp y = none
  there : ∀ y, ¬ a <+: y → ¬ b <+: y → noDev (Spec.view st' m mp y) = noDev (Spec.view st m mp y)
  lowTree : ∀ r, lowOf st' m mp (b ++ r) = lowOf st m mp (a ++ r)
  lowThere : ∀ y, ¬ a <+: y → ¬ b <+: y → lowOf st' m mp y = lowOf st m mp y
  keys : ∀ y n, st'.upper.get (m :: y) = some n → (st.upper.get (m :: y)).isSome = true ∨ (y ≠ [] ∧ (y <+: a ∨ y <+: b)) ∨ b <+: y
  nodes : ∀ y n, st'.upper.get (m :: y) = some n → n.kind = .dir ∨ n.kind = .chr 0 ∨ ∃ y', st.upper.get (m :: y') = some n
  redirects : RedOk st' m mp

theorem merged_iff {st : State} {m : Name} {mp y : Path} : merged st m mp y = true ↔ ∃ l, lowOf st m mp y = some (some l) := by
  unfold merged lowOf
  cases Spec.lookup st m mp y with
  | none => simp
  | some f =>
    cases hf : f.lower with
    | none => simp [hf]
    | some l => simp [hf]

/-- The lower part of the moved directory under its new name. -/
theorem moved_low {st : State} {m : Name} {mp a b : Path} {n : Node} {P : Path → Prop} {up : FS} (L : Lifted st m mp P up) (hn : up.get (m :: a) = some n) (hnd : n.isDir = true)
    (hl : Lawful st) (ht : TopOk st m mp) (ha0 : a ≠ []) (hb0 : b ≠ []) (hr : RedOk st m mp) (hNv : ∀ y, (∃ n, Spec.view st m mp y = some n) → NormalPath (m :: y))
    (hda : dirSeen (Spec.view st m mp a) = true) (hdb : dirSeen (Spec.view st m mp b.dropLast) = true) :
    ∃ lo, lowOf st m mp b.dropLast = some lo ∧ ∀ x, (foundAt st.lower mp lo x (some (movedNode st m mp a b n))).map (·.lower) = lowOf st m mp a ∧
      (movedNode st m mp a b n).isDir = true ∧ (movedNode st m mp a b n).whiteout = false ∧
      (∀ rd, (movedNode st m mp a b n).redirect = some rd → (movedNode st m mp a b n).opq = false ∧ components rd ≠ [] ∧ NormalPath (components rd) ∧ ∃ l, lowOf st m mp a = some (some l)) := by
  obtain ⟨lo, hlo⟩ : ∃ lo, lowOf st m mp b.dropLast = some lo := by
    cases hv : Spec.view st m mp b.dropLast with
    | none => rw [hv] at hdb; cases hdb
    | some k => exact lowOf_seen hl ht hv
  refine ⟨lo, hlo, fun x => ?_⟩
  obtain ⟨z, xa, rfl⟩ : ∃ z x, a = z ++ [x] := ⟨_, _, (List.dropLast_append_getLast ha0).symm⟩
  have hl' := L.lawful hl
  have ht' := L.topOk ht
  have hnw : n.whiteout = false := hl'.whiteout _ n hn
  -- the lookup of `a` through the lifted storage
  obtain ⟨loz, hloz⟩ : ∃ lo, lowOf st m mp z = some lo := by
    cases hv : Spec.view st m mp (z ++ [xa]) with
    | none => rw [hv] at hda; cases hda
    | some k =>
      have := viewM_parent hl ht hv
      cases hvz : Spec.view st m mp z with
      | none => rw [hvz] at this; cases this
      | some k' => exact lowOf_seen hl ht hvz
  have hla : lowOf st m mp (z ++ [xa]) = (foundAt st.lower mp loz xa (some n)).map (·.lower) := by
    rw [← L.low hl ht, lowOf_stored hl' ht' (n := n) hn, L.low hl ht, hloz]; rfl
  have hfa : ∀ (mv : Node) low y, mv.isDir = true → mv.whiteout = false →
      (foundAt st.lower mp low y (some mv)).map (·.lower) = if mv.opq then some none else some ((lowerName mp low y mv.redirect).bind (presentDir st.lower)) := by
    intro mv low y h1 h2
    unfold foundAt
    dsimp only
    rw [not_whiteout_dir h1 h2]
    simp only [Bool.false_eq_true, if_false, isDir_iff_ftype.1 h1, ne_eq, not_true]
    cases mv.opq <;> simp
  rw [hfa n loz xa hnd hnw] at hla
  -- the redirect that was there
  have hnr : ∀ rd, n.redirect = some rd → components rd ≠ [] ∧ NormalPath (components rd) ∧ ∃ l, lowOf st m mp (z ++ [xa]) = some (some l) := by
    intro rd hrd
    rcases L.at_ (z ++ [xa]) with h' | ⟨_, _, _, k, l, h5, _, h7, _⟩
    · rw [hn] at h'
      obtain ⟨_, _, _, h4, h5, h6⟩ := hr _ n rd h'.symm hrd
      exact ⟨h4, h5, h6⟩
    · rw [hn] at h5
      cases h5
      rw [show ({ k with dev := devAt st.upper [m] } : Node).redirect = k.redirect from rfl, (hl.plain l k h7).1] at hrd
      cases hrd
  unfold movedNode
  cases hm : merged st m mp (z ++ [xa]) with
  | true =>
    obtain ⟨l, hlow⟩ := merged_iff.1 hm
    simp only [if_true]
    have hopq : n.opq = false := by
      cases ho : n.opq with
      | false => rfl
      | true => rw [ho, if_pos rfl, hlow] at hla; cases hla
    rw [hopq] at hla
    simp only [Bool.false_eq_true, if_false, hlow, Option.some.injEq] at hla
    have hpd : presentDir st.lower l = some l := by
      obtain ⟨p, q1, q2⟩ := Option.bind_eq_some_iff.1 hla.symm
      obtain ⟨rfl, hd⟩ := presentDir_some q2
      exact presentDir_dir hd
    have hln : l = Spec.named st m mp (z ++ [xa]) := low_named hl ht _ l hlow
    obtain ⟨hb1, hb2⟩ := namedM_below hr (z ++ [xa])
    have hbel := hb2 (by simp)
    have hNn : NormalPath ((Spec.named st m mp (z ++ [xa])).drop mp.length) := by
      have hd : st.lower.get l ≠ none := by
        unfold presentDir at hpd
        intro hc; rw [hc] at hpd; cases hpd
      obtain ⟨k, hk⟩ := Option.ne_none_iff_exists'.1 hd
      have := hl.host.normal_of_get hk
      rw [hln] at this
      exact fun y hy => this y (List.mem_of_mem_drop hy)
    have habs : components (display ((Spec.named st m mp (z ++ [xa])).drop mp.length)) = (Spec.named st m mp (z ++ [xa])).drop mp.length := components_display hNn
    have hne : (Spec.named st m mp (z ++ [xa])).drop mp.length ≠ [] := by
      intro hc
      obtain ⟨w, hw⟩ := hb1
      rw [← hw, List.drop_left] at hc
      subst hc
      exact hbel (by rw [← hw, List.append_nil])
    have hjoin : mp ++ (Spec.named st m mp (z ++ [xa])).drop mp.length = l := by
      obtain ⟨w, hw⟩ := hb1
      rw [hln, ← hw, List.drop_left]
    have hxa : NormalName xa := by
      cases hv : Spec.view st m mp (z ++ [xa]) with
      | none => rw [hv] at hda; cases hda
      | some k => exact hNv _ ⟨k, hv⟩ xa (by simp)
    have goal : lowerName mp lo x (some (redirectFor st m mp (z ++ [xa]) b n.redirect)) = some l ∧ components (redirectFor st m mp (z ++ [xa]) b n.redirect) ≠ [] ∧
        NormalPath (components (redirectFor st m mp (z ++ [xa]) b n.redirect)) := by
      have hA : lowerName mp lo x (some (display ((Spec.named st m mp (z ++ [xa])).drop mp.length))) = some l := by
        simp only [lowerName, if_pos (display_abs _), habs, hjoin]
      have hsame : (z ++ [xa]).dropLast = b.dropLast → lo = loz := by
        intro e
        rw [List.dropLast_concat] at e
        rw [← e, hloz] at hlo
        exact (Option.some.inj hlo).symm
      unfold redirectFor
      cases hrd : n.redirect with
      | some rd =>
        obtain ⟨g1, g2, _⟩ := hnr rd hrd
        rw [hrd] at hla
        obtain ⟨p, q1, q2⟩ := Option.bind_eq_some_iff.1 hla.symm
        obtain ⟨rfl, _⟩ := presentDir_some q2
        simp only [lowerName] at q1
        dsimp only
        split
        · next hc =>
          refine ⟨?_, g1, g2⟩
          simp only [lowerName]
          split at q1
          · next h1 => rw [if_pos h1]; exact q1
          · next h1 =>
            rw [if_neg h1]
            rcases hc with hc | hc
            · rw [hsame hc]; exact q1
            · exact absurd hc h1
        · exact ⟨hA, by rw [habs]; exact hne, by rw [habs]; exact hNn⟩
      | none =>
        rw [hrd] at hla
        obtain ⟨p, q1, q2⟩ := Option.bind_eq_some_iff.1 hla.symm
        obtain ⟨rfl, _⟩ := presentDir_some q2
        simp only [lowerName] at q1
        dsimp only
        split
        · next hc =>
          rw [List.getLastD_concat]
          obtain ⟨c1, c2⟩ := components_name hxa
          refine ⟨?_, by rw [c1]; simp, by rw [c1]; exact fun y hy => by simp at hy; subst hy; exact hxa⟩
          simp only [lowerName, if_neg c2, c1]
          rw [hsame hc]; exact q1
        · exact ⟨hA, by rw [habs]; exact hne, by rw [habs]; exact hNn⟩
    obtain ⟨g1, g2, g3⟩ := goal
    refine ⟨?_, hnd, hnw, fun rd hrd => ?_⟩
    · rw [hfa { n with redirect := some (redirectFor st m mp (z ++ [xa]) b n.redirect) } lo x hnd hnw]
      simp only [hopq, Bool.false_eq_true, if_false, g1, Option.bind_some, hpd, hlow]
    · cases hrd
      exact ⟨hopq, g2, g3, l, hlow⟩
  | false =>
    have hnot : ∀ l, lowOf st m mp (z ++ [xa]) ≠ some (some l) := fun l hc => by
      rw [merged_iff.2 ⟨l, hc⟩] at hm; cases hm
    have hnored : n.redirect = none := by
      cases hrd : n.redirect with
      | none => rfl
      | some rd =>
        obtain ⟨_, _, l, hc⟩ := hnr rd hrd
        exact absurd hc (hnot l)
    have hnone : lowOf st m mp (z ++ [xa]) = some none := by
      cases hv : Spec.view st m mp (z ++ [xa]) with
      | none => rw [hv] at hda; cases hda
      | some k =>
        obtain ⟨lo', h'⟩ := lowOf_seen hl ht hv
        cases lo' with
        | none => exact h'
        | some l => exact absurd h' (hnot l)
    simp only [Bool.false_eq_true, if_false]
    cases hmb : merged st m mp b.dropLast with
    | true =>
      simp only [if_true]
      refine ⟨?_, hnd, hnw, fun rd hrd => ?_⟩
      · rw [hfa { n with opq := true } lo x hnd hnw, hnone]; rfl
      · rw [show ({ n with opq := true } : Node).redirect = n.redirect from rfl, hnored] at hrd; cases hrd
    | false =>
      simp only [Bool.false_eq_true, if_false]
      refine ⟨?_, hnd, hnw, fun rd hrd => by rw [hnored] at hrd; cases hrd⟩
      have : lo = none := by
        cases lo with
        | none => rfl
        | some l => rw [merged_iff.2 ⟨l, hlo⟩] at hmb; cases hmb
      rw [hfa n lo x hnd hnw, hnone, this, hnored]
      cases n.opq <;> rfl


/-- Moving a directory. -/
theorem move_update {st : State} (hl : Lawful st) {m : Name} {mp a b : Path} (ht : TopOk st m mp) (hb0 : b ≠ []) (hab : ¬ a <+: b) (hba : ¬ b <+: a)
    (hr : RedOk st m mp) (hNb : NormalPath (m :: b)) (hNv : ∀ y, (∃ n, Spec.view st m mp y = some n) → NormalPath (m :: y))
    (hda : dirSeen (Spec.view st m mp a) = true) (hdb : dirSeen (Spec.view st m mp b.dropLast) = true)
    (hfree : ((Spec.view st m mp b).isNone || (dirSeen (Spec.view st m mp b) && !childSeen st m mp b)) = true) :
    MovedTo st { st with upper := moveUpper st m mp a b } m mp a b := by
  have ha0 : a ≠ [] := by rintro rfl; exact hab List.nil_prefix
  obtain ⟨L1, c1⟩ := lifted_copy hl ht hNv hda
  have hNv1 : ∀ y, (∃ n, Spec.view { st with upper := copyUp st m mp a.reverse } m mp y = some n) → NormalPath (m :: y) := by
    rintro y ⟨n, hn⟩
    have := L1.view hl ht y
    rw [hn] at this
    obtain ⟨k, hk, _⟩ := noDev_some this.symm
    exact hNv y ⟨k, hk⟩
  have hdb1 : dirSeen (Spec.view { st with upper := copyUp st m mp a.reverse } m mp b.dropLast) = true := by
    rw [dirSeen_attrs (attrs_noDev (L1.view hl ht b.dropLast))]; exact hdb
  obtain ⟨L2, c2⟩ := lifted_copy (L1.lawful hl) (L1.topOk ht) hNv1 hdb1
  have L := L1.trans hl ht L2
  have hua : FS.isDirAt (copyUp { st with upper := copyUp st m mp a.reverse } m mp b.dropLast.reverse) (m :: a) = true := by
    obtain ⟨k, k1, k2⟩ := FS.isDirAt_iff.1 c1
    rcases L2.at_ a with h' | ⟨_, _, h0, _⟩
    · exact FS.isDirAt_iff.2 ⟨k, by rw [h']; exact k1, k2⟩
    · rw [show FS.get ({ st with upper := copyUp st m mp a.reverse } : State).upper (m :: a) = some k from k1] at h0; cases h0
  have hmu : moveUpper st m mp a b = (let up := copyUp { st with upper := copyUp st m mp a.reverse } m mp b.dropLast.reverse
      match up.get (m :: a) with
      | none => st.upper
      | some n =>
        let res := (up.set (m :: a) (movedNode st m mp a b n)).moveTree (m :: a) (m :: b)
        if lowerPositive st m mp a then res.set (m :: a) { kind := .chr 0, dev := devAt st.upper [m] } else res) := by
    unfold moveUpper
    rw [hda, hdb, hfree]
    rfl
  generalize copyUp { st with upper := copyUp st m mp a.reverse } m mp b.dropLast.reverse = up at hmu L hua c2
  obtain ⟨n, hn, hnd⟩ := FS.isDirAt_iff.1 hua
  obtain ⟨lo, hlo, hmv⟩ := moved_low L hn hnd hl ht ha0 hb0 hr hNv hda hdb
  simp only [hn] at hmu
  obtain ⟨zb, xb, rfl⟩ : ∃ z x, b = z ++ [x] := ⟨_, _, (List.dropLast_append_getLast hb0).symm⟩
  rw [List.dropLast_concat] at hlo c2 hdb
  obtain ⟨hv1, hv2, hv3, hv4⟩ := hmv xb
  have hattr : (movedNode st m mp a (zb ++ [xb]) n).kind = n.kind ∧ (movedNode st m mp a (zb ++ [xb]) n).uid = n.uid ∧ (movedNode st m mp a (zb ++ [xb]) n).gid = n.gid ∧
      (movedNode st m mp a (zb ++ [xb]) n).perm = n.perm := by
    unfold movedNode
    split
    · exact ⟨rfl, rfl, rfl, rfl⟩
    · split <;> exact ⟨rfl, rfl, rfl, rfl⟩
  generalize movedNode st m mp a (zb ++ [xb]) n = mv at *
  generalize hb : zb ++ [xb] = b at *
  have hab' : ¬ (m :: a) <+: (m :: b) := fun h => hab (cons_prefix.1 h)
  have hba' : ¬ (m :: b) <+: (m :: a) := fun h => hba (cons_prefix.1 h)
  have hzb : Below zb b := ⟨[xb], by simp, hb.symm⟩
  have hazb : ¬ a <+: zb := fun h => hab (h.trans hzb.prefix)
  -- the result of moving the tree
  have hset : (up.set (m :: a) mv).WF := by
    refine L.wf.set (L.wf.normal_of_get hn) (fun q hq => L.wf.ancestor hn hq) (fun hd => by rw [hv2] at hd; cases hd)
  have hsa : (up.set (m :: a) mv).get (m :: a) = some mv := by rw [FS.get_set, if_pos rfl]
  have hchb : (up.set (m :: a) mv).Chain (m :: b) := by
    intro q hq
    have hq' : q <+: m :: zb := by
      obtain ⟨w, hw, he⟩ := hq
      rw [← hb, ← List.cons_append] at he
      rcases (List.prefix_concat_iff.1 (⟨w, he.symm⟩ : q <+: (m :: zb) ++ [xb])) with h | h
      · exfalso; rw [h] at he; exact hw (List.append_cancel_left (by rw [List.append_nil]; exact he)).symm
      · exact h
    have hqa : m :: a ≠ q := by
      rintro rfl
      exact hazb (cons_prefix.1 hq')
    rw [FS.isDirAt_congr (gs := up) (by rw [FS.get_set, if_neg hqa])]
    by_cases he : q = m :: zb
    · rw [he]; exact c2
    · obtain ⟨d, hd1, _⟩ := FS.isDirAt_iff.1 c2
      exact L.wf.ancestor hd1 (below_iff.2 ⟨hq', he⟩)
  have hres := hset.moveTree hsa hab' hba' hNb hchb
  have hget := FS.get_moveTree (up.set (m :: a) mv) hab' hba'
  generalize (up.set (m :: a) mv).moveTree (m :: a) (m :: b) = res at hmu hres hget
  have hres_b : ∀ r, res.get (m :: (b ++ r)) = if r = [] then some mv else up.get (m :: (a ++ r)) := by
    intro r
    rw [hget, if_pos (cons_prefix.2 (List.prefix_append _ _))]
    rw [show (m :: (b ++ r)).drop (m :: b).length = r from by simp]
    rw [FS.get_set]
    by_cases hr0 : r = []
    · subst hr0; simp
    · rw [if_neg hr0, if_neg (fun e => hr0 (by simpa using e))]
      simp
  have hres_a : ∀ y, a <+: y → res.get (m :: y) = none := by
    intro y hy
    rw [hget, if_neg (fun h => ?_), if_pos (cons_prefix.2 hy)]
    rcases prefix_total hy (cons_prefix.1 h) with h' | h'
    · exact hab h'
    · exact hba h'
  have hres_o : ∀ q, ¬ (m :: a) <+: q → ¬ (m :: b) <+: q → res.get q = up.get q := by
    intro q h1 h2
    rw [hget, if_neg h2, if_neg h1, FS.get_set, if_neg (fun e => h1 (by rw [e]))]
  -- the new upper layer
  have hu : (moveUpper st m mp a b).WF ∧ (moveUpper st m mp a b).get (m :: a) = (if lowerPositive st m mp a then some { kind := .chr 0, dev := devAt st.upper [m] } else none) ∧
      ∀ q, q ≠ m :: a → (moveUpper st m mp a b).get q = res.get q := by
    rw [hmu]
    cases lowerPositive st m mp a with
    | true =>
      simp only [if_true]
      refine ⟨hres.set (L.wf.normal_of_get hn) (fun q hq => ?_) (fun _ => ⟨by simp, fun q hq => ?_⟩), by rw [FS.get_set, if_pos rfl], fun q hq => by rw [FS.get_set, if_neg (fun e => hq e.symm)]⟩
      · rw [FS.isDirAt_congr (hres_o q (fun h => hq.not_prefix h) (fun h => hba' (h.trans hq.prefix)))]
        exact L.wf.ancestor hn hq
      · obtain ⟨w, hw, rfl⟩ := hq
        exact hres_a (a ++ w) (List.prefix_append _ _)
    | false =>
      simp only [Bool.false_eq_true, if_false]
      exact ⟨hres, hres_a a (List.prefix_refl _), fun _ _ => trivial⟩
  clear hmu
  generalize moveUpper st m mp a b = u at hu
  obtain ⟨hu1, hu2, hu3⟩ := hu
  have hne_b : ∀ r, m :: (b ++ r) ≠ m :: a := fun r e => hba ⟨r, (List.cons.inj e).2⟩
  have ub : ∀ r, u.get (m :: (b ++ r)) = if r = [] then some mv else up.get (m :: (a ++ r)) := fun r => by rw [hu3 _ (hne_b r)]; exact hres_b r
  have ub0 : u.get (m :: b) = some mv := by have := ub []; simpa using this
  have ua : ∀ y, Below a y → u.get (m :: y) = none := fun y hy => by
    rw [hu3 _ (fun e => hy.ne (List.cons.inj e).2.symm)]; exact hres_a y hy.prefix
  have uo : ∀ q, ¬ (m :: a) <+: q → ¬ (m :: b) <+: q → u.get q = up.get q := fun q h1 h2 => by
    rw [hu3 q (fun e => h1 (by rw [e]))]; exact hres_o q h1 h2
  have uo' : ∀ y, ¬ a <+: y → ¬ b <+: y → u.get (m :: y) = up.get (m :: y) := fun y h1 h2 => uo _ (fun h => h1 (cons_prefix.1 h)) (fun h => h2 (cons_prefix.1 h))
  -- every stored node
  have cases_ : ∀ q k, u.get q = some k → (q = m :: a ∧ k = { kind := .chr 0, dev := devAt st.upper [m] }) ∨ (q = m :: b ∧ k = mv) ∨ (∃ r, r ≠ [] ∧ q = m :: (b ++ r) ∧ up.get (m :: (a ++ r)) = some k) ∨
      (¬ (m :: a) <+: q ∧ ¬ (m :: b) <+: q ∧ up.get q = some k) := by
    intro q k hg
    by_cases h1 : (m :: a) <+: q
    · by_cases he : q = m :: a
      · subst he
        rw [hu2] at hg
        split at hg
        · cases hg; exact Or.inl ⟨rfl, rfl⟩
        · cases hg
      · obtain ⟨w, rfl⟩ := h1
        have hw : w ≠ [] := by rintro rfl; exact he (by simp)
        rw [List.cons_append, ua (a ++ w) ⟨w, hw, rfl⟩] at hg; cases hg
    · by_cases h2 : (m :: b) <+: q
      · obtain ⟨w, rfl⟩ := h2
        rw [List.cons_append, ub w] at hg
        split at hg
        · next hw => subst hw; cases hg; exact Or.inr (Or.inl ⟨by simp, rfl⟩)
        · next hw => exact Or.inr (Or.inr (Or.inl ⟨w, hw, rfl, hg⟩))
      · exact Or.inr (Or.inr (Or.inr ⟨h1, h2, by rw [← uo q h1 h2]; exact hg⟩))
  have hlL := L.lawful hl
  have htL := L.topOk ht
  have hl' : Lawful { st with upper := u } := by
    refine ⟨hl.host, hu1, fun q k hg => ?_, hl.plain⟩
    rcases cases_ q k hg with ⟨_, rfl⟩ | ⟨_, rfl⟩ | ⟨r, _, _, h'⟩ | ⟨_, _, h'⟩
    · rfl
    · exact hv3
    · exact hlL.whiteout _ k h'
    · exact hlL.whiteout _ k h'
  have htop : u.get [m] = st.upper.get [m] := by
    rw [uo [m] (fun h => ha0 (List.prefix_nil.1 (cons_prefix.1 h))) (fun h => hb0 (List.prefix_nil.1 (cons_prefix.1 h))), L.top]
  have ht' : TopOk { st with upper := u } m mp := ⟨ht.1, by rw [FS.isDirAt_congr (gs := st.upper) htop]; exact ht.2⟩
  have h0 : lowOf { st with upper := u } m mp [] = lowOf st m mp [] := by
    obtain ⟨t, t1, t2, t3⟩ := lookup_nil hl ht
    obtain ⟨t', t1', t2', t3'⟩ := lookup_nil hl' ht'
    unfold lowOf; rw [t3, t3']; rfl
  have hlowThere : ∀ y, ¬ a <+: y → ¬ b <+: y → lowOf { st with upper := u } m mp y = lowOf st m mp y := by
    intro y h1 h2
    have := low_shift hl hl' rfl ht ht' h0 y (fun q _ hq => by
      rw [List.nil_append, uo' q (fun h => h1 (h.trans hq)) (fun h => h2 (h.trans hq))]
      exact L.rel hl q)
    simpa using this
  have hlowb : lowOf { st with upper := u } m mp b = lowOf st m mp a := by
    have e1 : lowOf { st with upper := u } m mp zb = some lo := by rw [hlowThere zb hazb hzb.not_prefix, hlo]
    have e2 := lowOf_stored hl' ht' (y := zb) (x := xb) (n := mv) (by rw [hb]; exact ub0)
    rw [hb, e1] at e2
    rw [e2]
    exact hv1
  have hlowTree : ∀ r, lowOf { st with upper := u } m mp (b ++ r) = lowOf st m mp (a ++ r) := by
    intro r
    refine low_shift hl hl' rfl ht ht' hlowb r (fun q hq _ => ?_)
    rw [ub q, if_neg hq]
    exact L.rel hl (a ++ q)
  have hgone0 : Spec.view { st with upper := u } m mp a = none := by
    cases hlp : lowerPositive st m mp a with
    | true =>
      rw [hlp] at hu2
      rw [viewM_stored hl' ht' (show u.get _ = _ from hu2)]
      rfl
    | false =>
      rw [hlp] at hu2
      rw [viewM_belowLow hl' ht' (show u.get _ = _ from hu2)]
      obtain ⟨za, xa, rfl⟩ : ∃ z x, a = z ++ [x] := ⟨_, _, (List.dropLast_append_getLast ha0).symm⟩
      have hz := hlowThere za (fun h => by have := h.length_le; rw [List.length_append] at this; simp only [List.length_singleton] at this; omega) (fun h => hba (h.trans (List.prefix_append _ _)))
      have : lowOf { st with upper := u } m mp (za ++ [xa]) = none := by
        unfold lowOf at hz ⊢
        rw [lookup_snoc hl' ht']
        cases hz1 : Spec.lookup { st with upper := u } m mp za with
        | none => rfl
        | some d =>
          rw [hz1] at hz
          rw [show ({ st with upper := u } : State).upper.get (m :: (za ++ [xa])) = none from hu2]
          cases hz0 : Spec.lookup st m mp za with
          | none => rw [hz0] at hz; cases hz
          | some d0 =>
            rw [hz0] at hz
            have hd : d.lower = d0.lower := by simpa using hz
            simp only [Option.bind_some, foundAt, hd, Option.map_eq_none_iff]
            cases hd0 : d0.lower with
            | none => rfl
            | some l =>
              simp only [Option.map_some, Option.bind_some]
              apply present_of.2
              unfold lowerPositive at hlp
              rw [List.dropLast_concat, hz0] at hlp
              simp only [hd0] at hlp
              simpa using hlp
      rw [this]; rfl
  have hview : ∀ y y', lowOf { st with upper := u } m mp y' = lowOf st m mp y → u.get (m :: y') = up.get (m :: y) → noDev (Spec.view { st with upper := u } m mp y') = noDev (Spec.view st m mp y) := by
    intro y y' h1 h2
    rw [← L.view hl ht y]
    cases hg : up.get (m :: y) with
    | some k => rw [viewM_stored hlL htL (show up.get _ = _ from hg), viewM_stored hl' ht' (show u.get _ = _ from by rw [h2, hg])]
    | none => rw [viewM_belowLow hlL htL (show up.get _ = _ from hg), viewM_belowLow hl' ht' (show u.get _ = _ from by rw [h2, hg]), h1, L.low hl ht]
  have hPa : ∀ y, (y <+: a ∨ y <+: zb) → y <+: a ∨ y <+: b := fun y h => h.elim Or.inl (fun h => Or.inr (h.trans hzb.prefix))
  refine ⟨hl', rfl, fun q hq => ?_, htop, ?_, fun r hr0 => hview _ _ (hlowTree r) (by rw [ub r, if_neg hr0]), fun y hy => ?_, fun y h1 h2 => hview y y (hlowThere y h1 h2) (uo' y h1 h2), hlowTree, hlowThere,
    fun y k hg => ?_, fun y k hg => ?_, fun y k rd hg hrd => ?_⟩
  · have hq1 : ∀ y : Path, ¬ (m :: y) <+: q := fun y ⟨w, hw⟩ => hq (y ++ w) (by rw [← hw, List.cons_append])
    show u.get q = _
    rw [uo q (hq1 a) (hq1 b)]
    rcases L.get q with h' | ⟨y, h1, _⟩
    · exact h'
    · exact absurd h1 (hq y)
  · rw [viewM_stored hl' ht' (show u.get _ = _ from ub0), not_whiteout_dir hv2 hv3]
    rw [← attrs_noDev (L.view hl ht a), viewM_stored hlL htL (show up.get _ = _ from hn), not_whiteout_dir hnd (hlL.whiteout _ _ hn)]
    simp [attrsOf, hattr]
  · by_cases he : y = a
    · subst he; exact hgone0
    · exact noneM_below hl' ht' (below_iff.2 ⟨hy, fun e => he e.symm⟩) (by rw [hgone0]; rfl)
  · rcases cases_ _ k hg with ⟨h1, _⟩ | ⟨h1, _⟩ | ⟨r, _, h1, _⟩ | ⟨_, _, h1⟩
    · cases h1; exact Or.inr (Or.inl ⟨ha0, Or.inl (List.prefix_refl _)⟩)
    · cases h1; exact Or.inr (Or.inr (List.prefix_refl _))
    · cases h1; exact Or.inr (Or.inr (List.prefix_append _ _))
    · rcases L.at_ y with h' | ⟨h2, h3, _⟩
      · rw [h'] at h1; left; rw [h1]; rfl
      · rw [← hb, List.dropLast_concat] at h3
        exact Or.inr (Or.inl ⟨h2, hPa y h3⟩)
  · have hL : ∀ y' k, up.get (m :: y') = some k → k.kind = .dir ∨ k.kind = .chr 0 ∨ ∃ y', st.upper.get (m :: y') = some k := by
      intro y' k hk
      rcases L.at_ y' with h' | ⟨_, _, _, j, l, h5, _, _, h8⟩
      · rw [h'] at hk; exact Or.inr (Or.inr ⟨y', hk⟩)
      · rw [h5] at hk; cases hk
        exact Or.inl (by simpa [Node.isDir] using h8)
    rcases cases_ _ k hg with ⟨_, rfl⟩ | ⟨_, rfl⟩ | ⟨r, _, _, h1⟩ | ⟨_, _, h1⟩
    · exact Or.inr (Or.inl rfl)
    · exact Or.inl (by simpa [Node.isDir] using hv2)
    · exact hL _ k h1
    · exact hL _ k h1
  · have hL : ∀ y' k, up.get (m :: y') = some k → k.redirect = some rd → st.upper.get (m :: y') = some k := by
      intro y' k hk hkr
      rcases L.at_ y' with h' | ⟨_, _, _, j, l, h5, _, h7, _⟩
      · rw [h'] at hk; exact hk
      · rw [h5] at hk; cases hk
        rw [show ({ j with dev := devAt st.upper [m] } : Node).redirect = j.redirect from rfl, (hl.plain l j h7).1] at hkr
        cases hkr
    rcases cases_ _ k hg with ⟨h1, rfl⟩ | ⟨h1, rfl⟩ | ⟨r, hr0, h1, h2⟩ | ⟨h2, h3, h1⟩
    · cases hrd
    · cases h1
      obtain ⟨g1, g2, g3, l, g4⟩ := hv4 rd hrd
      exact ⟨hb0, hv2, g1, g2, g3, l, by rw [hlowb]; exact g4⟩
    · cases h1
      obtain ⟨_, g2, g3, g4, g5, l, g6⟩ := hr _ k rd (hL _ k h2 hrd) hrd
      exact ⟨by simp [hb0], g2, g3, g4, g5, l, by rw [hlowTree]; exact g6⟩
    · obtain ⟨g1, g2, g3, g4, g5, l, g6⟩ := hr _ k rd (hL _ k h1 hrd) hrd
      exact ⟨g1, g2, g3, g4, g5, l, by rw [hlowThere y (fun h => h2 (cons_prefix.2 h)) (fun h => h3 (cons_prefix.2 h))]; exact g6⟩

end SB
