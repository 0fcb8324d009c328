import Verif.Props.Repeat
import Verif.Props.Fresh
import Verif.Props.ViewMoved

/-!
# C120: accepting in steps
-/

namespace SB

/-- A change of the selection is recorded at this path of the storage. -/
def Spec.TakenFrom (env : Env) (st : State) (q : Path) : Prop := ∃ e ∈ selected env st, ∃ s, e.staged = some s ∧ s.path = q

/-- The selection takes directories as a whole: if a stored directory is taken, then so is everything stored below it (except for marks of deletions of files the host does not have); and of a
directory that was made or replaced in the sandbox nothing is taken, or it is taken with everything the sandbox hides there on the host. -/
structure Spec.WholeDirs (env : Env) (st : State) : Prop where
  below : ∀ p m mp sub n, Spec.TakenFrom env st p → env.decode m = some mp → st.upper.get (m :: sub) = some n → p <+: m :: sub →
    Spec.TakenFrom env st (m :: sub) ∨ Spec.isWhiteout n = true ∧ st.lower.get (mp ++ sub) = none
  replaced : ∀ m mp sub n, env.decode m = some mp → sub ≠ [] → st.upper.get (m :: sub) = some n → n.opq = true →
    (∀ p, Spec.TakenFrom env st p → ¬ m :: sub <+: p) ∨
    Spec.TakenFrom env st (m :: sub) ∧ ∀ q k, mp ++ sub <+: q → st.lower.get q = some k → Spec.Removes (selected env st) q

/-- No link of the host is deleted or replaced by a directory in the sandbox. -/
def Spec.NoLinkDeleted (env : Env) (st : State) : Prop :=
  ∀ m mp sub n k, env.decode m = some mp → sub ≠ [] → st.upper.get (m :: sub) = some n → Spec.isWhiteout n = true ∨ n.opq = true → st.lower.get (mp ++ sub) = some k → Spec.ftype k.kind ≠ .symlink

/-- Any number of successful accepts, one after the other, each of a selection that takes directories as a whole. -/
inductive Spec.AcceptedInSteps (decode : Name → Option Path) : State → State → Prop
  | none (st : State) : Spec.AcceptedInSteps decode st st
  | step (env : Env) {st st' : State} : env.decode = decode → Spec.Ordinary env st → Spec.WholeDirs env st → (accept env st).error = none →
      Spec.AcceptedInSteps decode (accept env st).state st' → Spec.AcceptedInSteps decode st st'

/-- The same at a path: nothing in both, or nodes of the same type, content, owner and mode. -/
def Spec.SameThing (a b : Option Node) : Prop := (b = none → a = none) ∧ ∀ n, b = some n → ∃ n', a = some n' ∧ Spec.SameNode n' n

section
variable {env : Env} {st : State}

theorem sameThing_refl (a : Option Node) : Spec.SameThing a a := ⟨id, fun n h => ⟨n, h, rfl, rfl, rfl, Or.inr rfl⟩⟩

theorem sameThing_of_eq {a b : Option Node} (h : a = b) : Spec.SameThing a b := h ▸ sameThing_refl a

theorem sameThing_trans {a b c : Option Node} (h1 : Spec.SameThing a b) (h2 : Spec.SameThing b c) : Spec.SameThing a c := by
  refine ⟨fun h => h1.1 (h2.1 h), fun n h => ?_⟩
  obtain ⟨x, hx, hxn⟩ := h2.2 n h
  obtain ⟨y, hy, hyx⟩ := h1.2 x hx
  exact ⟨y, hy, sameNode_trans hyx hxn⟩

theorem lower_wf_after (ho : Spec.Ordinary env st) (hok : (accept env st).error = none) : (accept env st).state.lower.WF := by
  by_cases hne : selected env st = []
  · have hne' : matching env.glob env.cwd env.patterns (changes env st) = [] := hne
    simpa [accept, hne'] using ho.wf
  · obtain ⟨_, st1, h1, h2, _⟩ := accept_ok hok hne
    obtain ⟨_, hw, _⟩ := applied_of_run ho.ready ho.distinct h1
    rw [h2]; exact hw

/-- What is taken from a place of the storage is carried out there. -/
theorem taken_done (ho : Spec.Ordinary env st) (hp : Spec.PlainStorage env st) (hok : (accept env st).error = none) {m : Name} {mp sub : Path} {n : Node} (hdec : env.decode m = some mp)
    (hg : st.upper.get (m :: sub) = some n) (ht : Spec.TakenFrom env st (m :: sub)) :
    (Spec.isWhiteout n = true → Spec.Removes (selected env st) (mp ++ sub)) ∧
    (Spec.isWhiteout n = false → ∃ n', (accept env st).state.lower.get (mp ++ sub) = some n' ∧ Spec.SameNode n' n) := by
  obtain ⟨e, he, s, hs, hsp⟩ := ht
  obtain ⟨ue, hue, h⟩ := mem_changes.1 (mem_selected he)
  obtain ⟨m', mp', sub', hk, hi⟩ := mem_upperEntries hue
  have hpath : s.path = ue.upperPath := by
    rcases h with h | h
    · obtain ⟨_, _, _, _, _, h, _⟩ := mem_removesOf h
      rcases h with ⟨_, _, _, h⟩ | ⟨_, _, _, h⟩
      · rw [hs] at h
        split at h
        · cases h; rfl
        · cases h
      · rw [hs] at h; cases h; rfl
    · have := (mem_setsOf h).2.2.1
      rw [hs] at this; cases this; rfl
  have hmm : m' :: sub' = m :: sub := by rw [← hi.upperPath, ← hpath, hsp]
  obtain ⟨rfl, rfl⟩ := List.cons.inj hmm
  have hmp : mp' = mp := by have := hi.decode; rw [hdec] at this; exact (Option.some.inj this).symm
  subst hmp
  have hn : ue.node = n := by have := hi.node; rw [hg] at this; exact (Option.some.inj this).symm
  have hdest : e.dest = mp' ++ sub' := by
    rcases h with h | h
    · obtain ⟨sp, h1, _, _, _, h, _⟩ := mem_removesOf h
      rw [hi.source, plain_source hp hi.node] at h1
      have hsp' : sp = mp' ++ sub' := by
        unfold ifExists at h1
        split at h1
        · cases h1; rfl
        · cases h1
      rcases h with ⟨_, _, _, h⟩ | ⟨_, h, _, _⟩
      · rw [hs] at h
        split at h
        · next hd => rw [hd, hsp']
        · cases h
      · rw [h, hsp']
    · exact (mem_setsOf h).2.1.trans hi.lowerPath
  constructor
  · intro hw
    rcases h with h | h
    · obtain ⟨sp, h1, _, _, hop, hx, _⟩ := mem_removesOf h
      refine ⟨e, he, hop, ?_⟩
      rw [hi.source, plain_source hp hi.node] at h1
      unfold ifExists at h1
      split at h1
      · next hex =>
        cases h1
        have hsrc : e.source = details st.lower (mp' ++ sub') := by
          rcases hx with ⟨_, _, h, _⟩ | ⟨_, _, h, _⟩
          · rw [h, hdest]
          · rw [h, hi.details, hi.source, plain_source hp hi.node]
            simp [ifExists, hex]
        obtain ⟨r, hr⟩ : ∃ r, details st.lower (mp' ++ sub') = some r := by
          cases hs' : e.source with
          | none =>
            have := C02_checks_before_effects env st e he (.removeNothing hop hs')
            rw [hok] at this
            simp at this
          | some s' => exact ⟨s', by rw [← hsrc]; exact hs'⟩
        exact ⟨r, by rw [hsrc, hr], (details_path hr).1⟩
      · cases h1
    · have := (mem_setsOf h).1
      rw [hn, (isRemoved_iff_whiteout hp hg).2 hw] at this
      cases this
  · intro hw
    have hrm : ue.node.isRemoved = false := by
      cases hx : ue.node.isRemoved with
      | false => rfl
      | true => rw [hn, isRemoved_iff_whiteout hp hg, hw] at hx; cases hx
    obtain ⟨e', he'⟩ := setsOf_singleton (st := st) hrm
    have hmem : e' ∈ setsOf st ue := by rw [he']; simp
    obtain ⟨_, h2, h3, _, _, hx⟩ := mem_setsOf hmem
    have hsel : e' ∈ selected env st := by
      have h4 := (List.mem_filter.1 he).2
      refine List.mem_filter.2 ⟨mem_changes.2 ⟨ue, hue, Or.inr hmem⟩, ?_⟩
      rw [h2, hi.lowerPath, ← hdest]
      exact h4
    have hset : Spec.IsSet e' := by
      have hr := hp.noRedirects _ _ hi.node
      rcases hx with ⟨h1, _⟩ | ⟨h1, _⟩ | ⟨_, _, hx⟩ | ⟨_, _, hx⟩
      · rw [hr] at h1; cases h1
      · rw [hr] at h1; cases h1
      · exact absurd hx (no_error_selected hok hsel _)
      · exact ⟨_, hx⟩
    obtain ⟨n', h4, h5, _⟩ := C09_owner_and_mode_partial env st ho hok e' _ hsel hset h3
    rw [h2, hi.lowerPath] at h4
    exact ⟨n', h4, by rw [← hn]; exact h5⟩

/-- What a stored mark of a deletion, or a stored directory that stays in the storage, hides is still hidden; what was taken is on the host. -/
theorem step_view (ho : Spec.Ordinary env st) (hp : Spec.PlainStorage env st) (hd : Spec.WholeDirs env st) (hok : (accept env st).error = none) {m : Name} {mp sub : Path}
    (hs : Spec.Seen env st m mp (mp ++ sub)) : Spec.SameThing (Spec.view (accept env st).state m mp sub) (Spec.view st m mp sub) := by
  classical
  have hafter := C06_storage_after env st hp.wf hok
  have hwl := lower_wf_after ho hok
  have hwu := upper_wf_after hp.wf hok
  generalize hst' : (accept env st).state = st' at *
  have hsub : ∀ q n, st'.upper.get q = some n → st.upper.get q = some n := by
    intro q n hq
    rw [hafter] at hq
    split at hq
    · cases hq
    · exact hq
  have cleared : ∀ q n, st.upper.get q = some n → st'.upper.get q = none → ∃ p, Spec.TakenFrom env st p ∧ p <+: q := by
    intro q n hq hq'
    rw [hafter] at hq'
    split at hq'
    · next h =>
      obtain ⟨p, ⟨e, he, s, hse, hsp⟩, hpq⟩ := h
      exact ⟨p, ⟨e, he, s, hse, hsp⟩, hpq⟩
    · rw [hq] at hq'; cases hq'
  have takenGone : ∀ p, Spec.TakenFrom env st p → ∀ q, p <+: q → st'.upper.get q = none := by
    rintro p ⟨e, he, s, hse, hsp⟩ q hpq
    rw [hafter, if_pos ⟨p, ⟨e, he, s, hse, hsp⟩, hpq⟩]
  have hne : sub ≠ [] := by
    rintro rfl
    have := hs.below
    rw [List.append_nil] at this
    exact not_below_self _ this
  -- nothing is put where nothing but a mark is stored
  have nodest : ∀ y, y ≠ [] → y <+: sub → (∀ n, st.upper.get (m :: y) = some n → Spec.isWhiteout n = true) → ∀ e ∈ selected env st, Spec.IsSet e → e.dest ≠ mp ++ y := by
    intro y hy hys hg e he hse hde
    obtain ⟨m', mp', sub', n', g1, g2, g3, g4, g5, _⟩ := set_stored he hse
    rw [g5] at hde
    by_cases hmm : m' = m
    · subst hmm
      rw [hs.decode] at g1; cases g1
      have := List.append_cancel_left hde
      subst this
      have := (isRemoved_iff_whiteout hp g3).2 (hg _ g3)
      rw [this] at g4; cases g4
    · have hpre : mp' ++ sub' <+: mp ++ sub := by rw [hde]; exact (List.prefix_append_right_inj mp).2 hys
      have hmp' : mp' <+: mp ++ sub := (List.prefix_append _ _).trans hpre
      rcases prefix_total hmp' (List.prefix_append mp sub) with h | h
      · exact (hp.nested m mp m' mp' sub' n' hs.stored hs.decode hmm g1 h g2 g3).1 (by rw [hde]; exact List.prefix_append _ _)
      · exact hs.deepest m' mp' (stored_root hp g3) g1 hmm h hmp'
  have effect : ∀ y, y ≠ [] → y <+: sub → (∀ n, st.upper.get (m :: y) = some n → Spec.isWhiteout n = true) →
      (Spec.Removes (selected env st) (mp ++ y) → st'.lower.get (mp ++ y) = none) ∧ (¬ Spec.Removes (selected env st) (mp ++ y) → st'.lower.get (mp ++ y) = st.lower.get (mp ++ y)) := by
    intro y hy hys hg
    have := plain_effect ho hp hok (nodest y hy hys hg)
    rwa [hst'] at this
  have noneBelow : ∀ y, y <+: sub → (∀ n, st'.lower.get (mp ++ y) = some n → n.isDir = false) → y ≠ sub → st'.lower.get (mp ++ sub) = none := by
    intro y hys hn hne'
    cases hg : st'.lower.get (mp ++ sub) with
    | none => rfl
    | some k =>
      obtain ⟨d, hd1, hd2⟩ := FS.isDirAt_iff.1 (hwl.ancestor hg (below_iff.2 ⟨(List.prefix_append_right_inj mp).2 hys, fun h => hne' (List.append_cancel_left h)⟩))
      rw [hn d hd1] at hd2; cases hd2
  obtain ⟨⟨h1, h2, h3⟩, ⟨h4, h5, h6⟩⟩ := hp.mounts m mp hs.stored hs.decode
  have hmp' : st'.lower.get mp = st.lower.get mp := by
    have hun := mount_untouched ho hp hs.stored hs.decode
    have := (plain_effect ho hp hok (q := mp) (fun e he hse hq => hun (.dest e he hse hq))).2 (fun ⟨e, he, hop, s, hse, hq⟩ => hun (.removed e s he hop hse hq))
    rwa [hst'] at this
  have hm' : st'.upper.get [m] = st.upper.get [m] := by
    rw [hafter, if_neg]
    rintro ⟨p, ⟨e, he, s, hse, rfl⟩, hpre⟩
    obtain ⟨_, _, sub', h, _, h'⟩ := staged_below he hse
    rw [h] at hpre
    have := hpre.length_le
    cases sub' with
    | nil => exact h' rfl
    | cons a l => simp at this
  have hwh : ∀ q n, st.upper.get q = some n → n.whiteout = true → Spec.ftype n.kind ≠ .directory := fun q n hg hx => by rw [hp.whiteouts q n hg hx]; decide
  obtain ⟨v1, v2⟩ := view_closed (mp := mp) ho.wf hp.wf (FS.isDirAt_iff.2 ⟨h1, h2, isDir_of_ftype h3⟩) (FS.isDirAt_iff.2 ⟨h4, h5, isDir_of_ftype h6⟩) hp.noRedirects hwh sub
  obtain ⟨w1, w2⟩ := view_closed (st := st') (m := m) (mp := mp) hwl hwu (FS.isDirAt_iff.2 ⟨h1, by rw [hmp']; exact h2, isDir_of_ftype h3⟩)
    (FS.isDirAt_iff.2 ⟨h4, by rw [hm']; exact h5, isDir_of_ftype h6⟩) (fun q n h => hp.noRedirects q n (hsub q n h)) (fun q n h => hwh q n (hsub q n h)) sub
  -- at a cleared place
  have place : ∀ y n, y ≠ [] → y <+: sub → st.upper.get (m :: y) = some n → st'.upper.get (m :: y) = none →
      Spec.TakenFrom env st (m :: y) ∨ (Spec.isWhiteout n = true ∧ st.lower.get (mp ++ y) = none) := by
    intro y n _ _ hg hg'
    obtain ⟨p, hp1, hp2⟩ := cleared _ n hg hg'
    exact hd.below p m mp y n hp1 hs.decode hg hp2
  have marked : ∀ y n, y ≠ [] → y <+: sub → st.upper.get (m :: y) = some n → st'.upper.get (m :: y) = none → Spec.isWhiteout n = true → st'.lower.get (mp ++ y) = none := by
    intro y n hy hys hg hg' hw
    have heff := effect y hy hys (fun k hk => by rw [hg] at hk; cases hk; exact hw)
    by_cases hr : Spec.Removes (selected env st) (mp ++ y)
    · exact heff.1 hr
    · rcases place y n hy hys hg hg' with h | ⟨_, h⟩
      · exact absurd ((taken_done ho hp hok hs.decode hg h).1 hw) hr
      · rw [heff.2 hr]; exact h
  cases hg : st.upper.get (m :: sub) with
  | some n =>
    cases hk : st'.upper.get (m :: sub) with
    | some k =>
      have := hsub _ _ hk
      rw [hg] at this; cases this
      cases hwn : Spec.isWhiteout n with
      | true => exact sameThing_of_eq (by rw [(v1 n hg).1 hwn, (w1 n hk).1 hwn])
      | false => exact sameThing_of_eq (by rw [(v1 n hg).2 hwn, (w1 n hk).2 hwn])
    | none =>
      have hnh : Spec.isWhiteout n = false → ¬ HiddenAt st' m sub.reverse := by
        rintro hwn ⟨y, k, hy, hyp, hyg, hyh⟩
        rw [List.reverse_reverse] at hyp
        have hys : y ≠ sub := by rintro rfl; rw [hk] at hyg; cases hyg
        have hopq := above_opaque hp (hsub _ _ hyg) hyh hg ⟨sub.drop y.length, by
          obtain ⟨r, hr⟩ := hyp
          subst hr
          rw [List.drop_left]
          rintro rfl
          exact hys (by simp), by
          obtain ⟨r, hr⟩ := hyp
          subst hr
          rw [List.drop_left]⟩
        have htk : Spec.TakenFrom env st (m :: sub) := by
          rcases place sub n hne (List.prefix_refl _) hg hk with h | ⟨h, _⟩
          · exact h
          · rw [hwn] at h; cases h
        rcases hd.replaced m mp y k hs.decode hy (hsub _ _ hyg) hopq with h | ⟨h, _⟩
        · exact h _ htk (List.cons_prefix_cons.2 ⟨rfl, hyp⟩)
        · rw [takenGone _ h _ (List.prefix_refl _)] at hyg; cases hyg
      cases hwn : Spec.isWhiteout n with
      | true =>
        rw [(v1 n hg).1 hwn]
        refine sameThing_of_eq ?_
        by_cases hh : HiddenAt st' m sub.reverse
        · exact (w2 hk).1 hh
        · rw [(w2 hk).2 hh]
          exact marked sub n hne (List.prefix_refl _) hg hk hwn
      | false =>
        rw [(v1 n hg).2 hwn, (w2 hk).2 (hnh hwn)]
        rcases place sub n hne (List.prefix_refl _) hg hk with h | ⟨h, _⟩
        · obtain ⟨n', a1, a2⟩ := (taken_done ho hp hok hs.decode hg h).2 hwn
          rw [hst'] at a1
          exact ⟨(fun h => by cases h), fun k hk => by cases hk; exact ⟨n', a1, a2⟩⟩
        · rw [hwn] at h; cases h
  | none =>
    have hk : st'.upper.get (m :: sub) = none := by
      cases hx : st'.upper.get (m :: sub) with
      | none => rfl
      | some k => rw [hsub _ _ hx] at hg; cases hg
    have heff := effect sub hne (List.prefix_refl _) (fun n hn => by rw [hg] at hn; cases hn)
    by_cases hh : HiddenAt st m sub.reverse
    · rw [(v2 hg).1 hh]
      refine sameThing_of_eq ?_
      by_cases hh' : HiddenAt st' m sub.reverse
      · exact (w2 hk).1 hh'
      rw [(w2 hk).2 hh']
      obtain ⟨y, n, hy, hyp, hyg, hyh⟩ := hh
      rw [List.reverse_reverse] at hyp
      have hys : y ≠ sub := by rintro rfl; rw [hg] at hyg; cases hyg
      have hyk : st'.upper.get (m :: y) = none := by
        cases hx : st'.upper.get (m :: y) with
        | none => rfl
        | some k =>
          have := hsub _ _ hx
          rw [hyg] at this; cases this
          exact absurd ⟨y, n, hy, by rw [List.reverse_reverse]; exact hyp, hx, hyh⟩ hh'
      cases hwn : Spec.isWhiteout n with
      | true => exact noneBelow y hyp (fun k hk => by rw [marked y n hy hyp hyg hyk hwn] at hk; cases hk) hys
      | false =>
        have htk : Spec.TakenFrom env st (m :: y) := by
          rcases place y n hy hyp hyg hyk with h | ⟨h, _⟩
          · exact h
          · rw [hwn] at h; cases h
        by_cases hopq : n.opq = true
        · rcases hd.replaced m mp y n hs.decode hy hyg hopq with h | ⟨_, h⟩
          · exact absurd (List.prefix_refl _) (h _ htk)
          · cases hx : st.lower.get (mp ++ sub) with
            | some x => exact heff.1 (h _ x ((List.prefix_append_right_inj mp).2 hyp) hx)
            | none =>
              by_cases hr : Spec.Removes (selected env st) (mp ++ sub)
              · exact heff.1 hr
              · rw [heff.2 hr, hx]
        · obtain ⟨n', a1, a2⟩ := (taken_done ho hp hok hs.decode hyg htk).2 hwn
          rw [hst'] at a1
          refine noneBelow y hyp (fun k hk => ?_) hys
          rw [a1] at hk; cases hk
          rcases hyh with h | h | h
          · rw [hwn] at h; cases h
          · exact absurd h hopq
          · rw [← a2.1] at h
            unfold Node.isDir
            cases hkk : n'.kind <;> simp_all [Spec.ftype]
    · have hh' : ¬ HiddenAt st' m sub.reverse := by
        rintro ⟨y, n, a, b, c, d⟩
        exact hh ⟨y, n, a, b, hsub _ _ c, d⟩
      rw [(v2 hg).2 hh, (w2 hk).2 hh']
      refine sameThing_of_eq (heff.2 ?_)
      rintro ⟨e, he, hop, s, hse, hq⟩
      obtain ⟨m', mp', sub', n', g1, g2, g3, g4, g5⟩ := removes_hiding hp ⟨e, he, hop, s, hse, hq⟩
      by_cases hmm : m' = m
      · subst hmm
        rw [hs.decode] at g1; cases g1
        exact hh ⟨sub', n', g2, by rw [List.reverse_reverse]; exact (List.prefix_append_right_inj mp).1 g5, g3, g4⟩
      · exact (seen_other hp hs hmm g1 g2 g3 g5).2 g4

/-- The host has what it had where something is still stored. -/
theorem remaining_kept (ho : Spec.Ordinary env st) (hp : Spec.PlainStorage env st) (hok : (accept env st).error = none) {m : Name} {mp sub : Path} {n k : Node} (hd : env.decode m = some mp)
    (hne : sub ≠ []) (hg : (accept env st).state.upper.get (m :: sub) = some n) (hk : (accept env st).state.lower.get (mp ++ sub) = some k) : st.lower.get (mp ++ sub) = some k := by
  classical
  have hafter := C06_storage_after env st hp.wf hok
  have hg0 : st.upper.get (m :: sub) = some n := by
    rw [hafter] at hg
    split at hg
    · cases hg
    · exact hg
  have hns : ∀ e ∈ selected env st, Spec.IsSet e → e.dest ≠ mp ++ sub := by
    intro e he hse hde
    obtain ⟨m', mp', sub', n', g1, g2, g3, g4, g5, g6⟩ := set_stored he hse
    rw [g5] at hde
    have hmm : m' = m := ho.mounts m' m sub' sub mp' mp (FS.mem_keys.2 ⟨n', g3⟩) (FS.mem_keys.2 ⟨n, hg0⟩) g1 hd g2 hne hde
    subst hmm
    rw [hd] at g1; cases g1
    have := List.append_cancel_left hde
    subst this
    rw [hafter, if_pos ⟨_, ⟨e, he, _, g6, rfl⟩, List.prefix_refl _⟩] at hg
    cases hg
  have h := plain_effect ho hp hok hns
  by_cases hr : Spec.Removes (selected env st) (mp ++ sub)
  · rw [h.1 hr] at hk; cases hk
  · rw [← h.2 hr]; exact hk

/-- What is on the host was there before or is stored. -/
theorem after_kind (ho : Spec.Ordinary env st) (hp : Spec.PlainStorage env st) (hok : (accept env st).error = none) {q : Path} {k : Node} (hk : (accept env st).state.lower.get q = some k) :
    st.lower.get q = some k ∨ ∃ m mp sub n, env.decode m = some mp ∧ sub ≠ [] ∧ st.upper.get (m :: sub) = some n ∧ Spec.isWhiteout n = false ∧ k.kind = n.kind := by
  by_cases hx : ∃ e ∈ selected env st, Spec.IsSet e ∧ e.dest = q
  · right
    obtain ⟨e, he, hse, rfl⟩ := hx
    obtain ⟨m, mp, sub, n, g1, g2, g3, g4, g5, g6⟩ := set_stored he hse
    obtain ⟨k', a, b, _⟩ := C09_owner_and_mode_partial env st ho hok e _ he hse g6
    rw [hk] at a; cases a
    refine ⟨m, mp, sub, n, g1, g2, g3, ?_, b.1⟩
    cases hw : Spec.isWhiteout n with
    | false => rfl
    | true => rw [(isRemoved_iff_whiteout hp g3).2 hw] at g4; cases g4
  · left
    have h := plain_effect ho hp hok (q := q) (fun e he hse hd => hx ⟨e, he, hse, hd⟩)
    by_cases hr : Spec.Removes (selected env st) q
    · rw [h.1 hr] at hk; cases hk
    · rw [← h.2 hr]; exact hk

/-- What is left can be accepted. -/
theorem step_ready (ho : Spec.Ordinary env st) (hp : Spec.PlainStorage env st) (hl : Spec.NoLinkDeleted env st) (hok : (accept env st).error = none) (hrd : Spec.AcceptReady env st)
    (hdl : Spec.OneDevice st.lower) {env' : Env} (hdec : env'.decode = env.decode) : Spec.AcceptReady env' (accept env st).state ∧ Spec.OneDevice (accept env st).state.lower := by
  classical
  have hafter := C06_storage_after env st hp.wf hok
  have hwl := lower_wf_after ho hok
  have hrem := fun (m : Name) (mp sub : Path) (n k : Node) (a : env.decode m = some mp) (b : sub ≠ []) => remaining_kept (n := n) (k := k) ho hp hok a b
  have hdl' : Spec.OneDevice (accept env st).state.lower := by
    obtain ⟨st1, hc, hl⟩ := acceptState_lower (accept_final env st)
    obtain ⟨D, hD⟩ := hdl
    have : OneDev D st.lower := ⟨fun e he => hD e.1 e.2 (FS.get_of_mem ho.wf.nodup he), FS.isDirAt_iff.1 ho.wf.root⟩
    exact ⟨D, fun q n hq => (crash_oneDev hc this).get (by rw [← hl]; exact hq)⟩
  refine ⟨?_, hdl'⟩
  obtain ⟨D, hD⟩ := hdl'
  have kind := fun q k => after_kind (q := q) (k := k) ho hp hok
  generalize (accept env st).state = st' at *
  have hsub : ∀ q n, st'.upper.get q = some n → st.upper.get q = some n := by
    intro q n hq
    rw [hafter] at hq
    split at hq
    · cases hq
    · exact hq
  have up : ∀ q r n k, st'.upper.get r = some n → q <+: r → st.upper.get q = some k → st'.upper.get q = some k := by
    intro q r n k hr hpre hq
    rw [hafter] at hr ⊢
    split at hr
    · cases hr
    · next h =>
      rw [if_neg (fun ⟨p, h1, h2⟩ => h ⟨p, h1, h2.trans hpre⟩), hq]
  refine ⟨fun m mp sub n hd hne hg => ?_, fun m mp sub n q k hd hne hg hh hpre hk => ?_, fun m mp sub n m' mp' sub' n' k hd hne hg hh hd' hne' hg' hh' hb hk => ?_,
    fun m mp sub n k hd hne hg hf hk => ?_⟩
  · rw [hdec] at hd
    exact hrd.stored m mp sub n hd hne (hsub _ _ hg)
  · rw [hdec] at hd
    refine ⟨?_, fun _ k' hk' => by rw [hD _ _ hk, hD _ _ hk']⟩
    rcases kind q k hk with h | ⟨m', mp', sub', n', a, b, c, d, e⟩
    · exact (hrd.hidden m mp sub n q k hd hne (hsub _ _ hg) hh hpre h).1
    · rw [e]; exact hrd.stored m' mp' sub' n' a b c d
  · rw [hdec] at hd hd'
    exact hrd.once m mp sub n m' mp' sub' n' k hd hne (hsub _ _ hg) hh hd' hne' (hsub _ _ hg') hh' hb (hrem m' mp' sub' n' k hd' hne' hg' hk)
  · rw [hdec] at hd
    have hk0 := hrem m mp sub n k hd hne hg hk
    rcases hrd.dirs m mp sub n k hd hne (hsub _ _ hg) hf hk0 with h | ⟨h, _⟩ | ⟨sub0, n0, a, b, c, d⟩
    · exact Or.inl h
    · right; left
      refine ⟨h, ?_⟩
      have hnl := isLnk_of_ftype (hl m mp sub n k hd hne (hsub _ _ hg) (Or.inr h) hk0)
      unfold FS.pexists
      rw [FS.stat_chain (hwl.normal_of_get hk) hwl.root (hwl.chain hk) (fun x hx => by rw [hk] at hx; cases hx; exact hnl), hk]
    · exact Or.inr (Or.inr ⟨sub0, n0, a, b, up _ _ _ _ hg (List.cons_prefix_cons.2 ⟨rfl, b.prefix⟩) c, d⟩)

/-- The storage is as plain as before, and still no link of the host is deleted in the sandbox. -/
theorem step_plain (ho : Spec.Ordinary env st) (hp : Spec.PlainStorage env st) (hl : Spec.NoLinkDeleted env st) (hok : (accept env st).error = none) {env' : Env}
    (hdec : env'.decode = env.decode) : Spec.PlainStorage env' (accept env st).state ∧ Spec.NoLinkDeleted env' (accept env st).state ∧
      ∀ m, ([m] ∈ (accept env st).state.upper.keys ↔ [m] ∈ st.upper.keys) := by
  classical
  have hafter := C06_storage_after env st hp.wf hok
  have hwl := lower_wf_after ho hok
  have hwu := upper_wf_after hp.wf hok
  have heff := fun q => plain_effect ho hp hok (q := q)
  generalize hst : (accept env st).state = st' at *
  have hsub : ∀ q n, st'.upper.get q = some n → st.upper.get q = some n := by
    intro q n hq
    rw [hafter] at hq
    split at hq
    · cases hq
    · exact hq
  have top : ∀ m, st'.upper.get [m] = st.upper.get [m] := by
    intro m
    rw [hafter, if_neg]
    rintro ⟨p, ⟨e, he, s, hse, rfl⟩, hpre⟩
    obtain ⟨_, _, sub', h, _, h'⟩ := staged_below he hse
    rw [h] at hpre
    have := hpre.length_le
    cases sub' with
    | nil => exact h' rfl
    | cons a l => simp at this
  have hkeys : ∀ m, [m] ∈ st'.upper.keys ↔ [m] ∈ st.upper.keys := by
    intro m
    rw [FS.mem_keys, FS.mem_keys, top]
  have point : ∀ m mp, [m] ∈ st.upper.keys → env.decode m = some mp → st'.lower.get mp = st.lower.get mp := by
    intro m mp hm hd
    have hun := mount_untouched ho hp hm hd
    exact (heff mp (fun e he hse hq => hun (.dest e he hse hq))).2 (fun ⟨e, he, hop, s, hse, hq⟩ => hun (.removed e s he hop hse hq))
  have mark : ∀ m mp sub n k, env.decode m = some mp → sub ≠ [] → st'.upper.get (m :: sub) = some n → st'.lower.get (mp ++ sub) = some k → st.lower.get (mp ++ sub) = some k :=
    fun m mp sub n k hd hne hg hk => remaining_kept ho hp hok hd hne (by rw [hst]; exact hg) (by rw [hst]; exact hk)
  have notop : ∀ m mp n, env.decode m = some mp → st.upper.get [m] = some n → Spec.isWhiteout n = false := by
    intro m mp n hd hg0
    obtain ⟨_, ⟨x, h5, h6⟩⟩ := hp.mounts m mp (FS.mem_keys.2 ⟨n, hg0⟩) hd
    rw [hg0] at h5; cases h5
    cases hw : Spec.isWhiteout n with
    | false => rfl
    | true =>
      unfold Spec.isWhiteout at hw
      rw [Bool.or_eq_true] at hw
      rcases hw with h | h
      · rw [beq_iff_eq] at h; rw [h] at h6; cases h6
      · rw [hp.whiteouts _ _ hg0 h] at h6; cases h6
  have hl' : Spec.NoLinkDeleted env' st' := by
    intro m mp sub n k hd hne hg hw hk
    rw [hdec] at hd
    exact hl m mp sub n k hd hne (hsub _ _ hg) hw (mark m mp sub n k hd hne hg hk)
  refine ⟨⟨hwu, fun q n h => hp.noRedirects q n (hsub q n h), fun q n h => hp.whiteouts q n (hsub q n h), fun q n r h => hp.devices q n r (hsub q n h), ?_, ?_, ?_⟩, hl', hkeys⟩
  · intro m mp hm hd
    rw [hdec] at hd
    rw [hkeys] at hm
    rw [point m mp hm hd, top]
    exact hp.mounts m mp hm hd
  · intro m mp m' mp' sub n hm hd hmm hd' hpre hne hg
    rw [hdec] at hd hd'
    rw [hkeys] at hm
    exact hp.nested m mp m' mp' sub n hm hd hmm hd' hpre hne (hsub _ _ hg)
  · intro m mp sub n k hd hg hw hk hkl
    have hne : sub ≠ [] := by
      rintro rfl
      rw [hdec] at hd
      rw [notop m mp n hd (hsub _ _ hg)] at hw
      cases hw
    exact absurd hkl (hl' m mp sub n k hd hne hg (Or.inl hw) hk)

theorem step_seen {m : Name} {mp q : Path} {st' : State} {env' : Env} (hdec : env'.decode = env.decode) (hk : ∀ m, ([m] ∈ st'.upper.keys ↔ [m] ∈ st.upper.keys)) (hs : Spec.Seen env st m mp q) :
    Spec.Seen env' st' m mp q :=
  ⟨(hk m).2 hs.stored, by rw [hdec]; exact hs.decode, hs.below, fun m' mp' h1 h2 => hs.deepest m' mp' ((hk m').1 h1) (by rw [← hdec]; exact h2)⟩

theorem steps_all {decode : Name → Option Path} {a b : State} (h : Spec.AcceptedInSteps decode a b) : ∀ env, env.decode = decode → Spec.PlainStorage env a → Spec.NoLinkDeleted env a →
    Spec.PlainStorage env b ∧ (∀ m, ([m] ∈ b.upper.keys ↔ [m] ∈ a.upper.keys)) ∧
    (∀ m mp sub, Spec.Seen env a m mp (mp ++ sub) → Spec.SameThing (Spec.view b m mp sub) (Spec.view a m mp sub)) ∧
    (∀ q, (∀ m mp, [m] ∈ a.upper.keys → decode m = some mp → ¬ Below mp q) → b.lower.get q = a.lower.get q) := by
  induction h with
  | none a => exact fun env _ hp _ => ⟨hp, fun _ => Iff.rfl, fun _ _ _ _ => sameThing_refl _, fun _ _ => rfl⟩
  | @step env1 a b hd1 ho hw hok _ ih =>
    intro env hd hp hl
    have hdd : env.decode = env1.decode := hd.trans hd1.symm
    have hp1 : Spec.PlainStorage env1 a := by
      obtain ⟨a1, a2, a3, a4, a5, a6, a7⟩ := hp
      rw [hdd] at a5 a6 a7
      exact ⟨a1, a2, a3, a4, a5, a6, a7⟩
    have hl1 : Spec.NoLinkDeleted env1 a := by
      intro m mp sub n k h
      rw [← hdd] at h
      exact hl m mp sub n k h
    obtain ⟨p1, p2, p3⟩ := step_plain ho hp1 hl1 hok hdd
    obtain ⟨q1, q2, q3, q4⟩ := ih env hd p1 p2
    refine ⟨q1, fun m => (q2 m).trans (p3 m), fun m mp sub hs => ?_, fun q hq => ?_⟩
    · exact sameThing_trans (q3 m mp sub (step_seen rfl p3 hs)) (step_view ho hp1 hw hok (step_seen (env' := env1) hdd.symm (fun _ => Iff.rfl) hs))
    · have hun : ¬ Spec.Touched env1 (selected env1 a) q := outside_untouched hp1 (fun m mp h1 h2 => hq m mp h1 (by rw [← hd1]; exact h2))
      rw [q4 q (fun m mp h1 h2 => hq m mp ((p3 m).1 h1) h2)]
      exact (plain_effect ho hp1 hok (q := q) (fun e he hse hq => hun (.dest e he hse hq))).2 (fun ⟨e, he, hop, s, hse, hq⟩ => hun (.removed e s he hop hse hq))

end

theorem steps_ready {decode : Name → Option Path} {a b : State} (h : Spec.AcceptedInSteps decode a b) : ∀ env, env.decode = decode → Spec.PlainStorage env a → Spec.NoLinkDeleted env a →
    Spec.AcceptReady env a → Spec.OneDevice a.lower → Spec.OneDevice a.upper → Spec.AcceptReady env b ∧ Spec.OneDevice b.upper := by
  induction h with
  | none a => exact fun env _ _ _ h _ hu => ⟨h, hu⟩
  | @step env1 a b hd1 ho hw hok _ ih =>
    intro env hd hp hl hr hdl hdu
    have hdd : env.decode = env1.decode := hd.trans hd1.symm
    have hp1 : Spec.PlainStorage env1 a := by
      obtain ⟨a1, a2, a3, a4, a5, a6, a7⟩ := hp
      rw [hdd] at a5 a6 a7
      exact ⟨a1, a2, a3, a4, a5, a6, a7⟩
    have hl1 : Spec.NoLinkDeleted env1 a := by
      intro m mp sub n k h
      rw [← hdd] at h
      exact hl m mp sub n k h
    have hr1 : Spec.AcceptReady env1 a := by
      obtain ⟨a1, a2, a3, a4⟩ := hr
      rw [hdd] at a1 a2 a3 a4
      exact ⟨a1, a2, a3, a4⟩
    obtain ⟨p1, p2, _⟩ := step_plain ho hp1 hl1 hok hdd
    obtain ⟨r1, r2⟩ := step_ready ho hp1 hl1 hok hr1 hdl hdd
    refine ih env hd p1 p2 r1 r2 ?_
    classical
    obtain ⟨D, hD⟩ := hdu
    refine ⟨D, fun q n hq => hD q n ?_⟩
    rw [C06_storage_after env1 a hp1.wf hok] at hq
    split at hq
    · cases hq
    · exact hq

/-- **C120 (partial)**: however much of the changes is accepted, and in however many steps, as long as each accept succeeds and takes directories as a whole: a process in the sandbox sees at every path
what it saw before.
Missing: selections that split directories made or replaced in the sandbox (`C120_refuted_replaced_directory`), deleted links (`C120_refuted_link`), moved directories. -/
theorem C120_view_partial (env : Env) (st st' : State) (hp : Spec.PlainStorage env st) (hl : Spec.NoLinkDeleted env st) (h : Spec.AcceptedInSteps env.decode st st') (m : Name) (mp sub : Path)
    (hs : Spec.Seen env st m mp (mp ++ sub)) : Spec.SameThing (Spec.view st' m mp sub) (Spec.view st m mp sub) :=
  (steps_all h env rfl hp hl).2.2.1 m mp sub hs

/-- **C120 (partial)**: if some of the changes are accepted, in any number of steps, and then all that are left, the host is the same as if everything had been accepted at once.
Missing: as for `C120_view_partial`. -/
theorem C120_partial (env env' : Env) (st st' : State) (hp : Spec.PlainStorage env st) (hl : Spec.NoLinkDeleted env st) (h : Spec.AcceptedInSteps env.decode st st')
    (ho : Spec.Ordinary env st) (hall : Spec.AllSelected env st) (hok : (accept env st).error = none)
    (hdec : env'.decode = env.decode) (ho' : Spec.Ordinary env' st') (hall' : Spec.AllSelected env' st') (hok' : (accept env' st').error = none) :
    (∀ m mp sub, Spec.Seen env st m mp (mp ++ sub) →
      ((accept env st).state.lower.get (mp ++ sub) = none → (accept env' st').state.lower.get (mp ++ sub) = none) ∧
      (∀ a, (accept env st).state.lower.get (mp ++ sub) = some a → ∃ b, (accept env' st').state.lower.get (mp ++ sub) = some b ∧ Spec.SameNode b a)) ∧
    (∀ q, (∀ m mp, [m] ∈ st.upper.keys → env.decode m = some mp → ¬ Below mp q) → (accept env' st').state.lower.get q = (accept env st).state.lower.get q) := by
  obtain ⟨p1, p2, p3, p4⟩ := steps_all h env rfl hp hl
  have p1' : Spec.PlainStorage env' st' := by
    obtain ⟨a1, a2, a3, a4, a5, a6, a7⟩ := p1
    rw [← hdec] at a5 a6 a7
    exact ⟨a1, a2, a3, a4, a5, a6, a7⟩
  obtain ⟨v, o⟩ := C01_view_partial env st ho hp hall hok
  obtain ⟨v', o'⟩ := C01_view_partial env' st' ho' p1' hall' hok'
  refine ⟨fun m mp sub hs => ?_, fun q hq => ?_⟩
  · have h3 := p3 m mp sub hs
    obtain ⟨v1, v2⟩ := v m mp sub hs
    obtain ⟨w1, w2⟩ := v' m mp sub (step_seen hdec p2 hs)
    cases hx : Spec.view st m mp sub with
    | none =>
      rw [v1 hx, w1 (h3.1 hx)]
      exact ⟨fun _ => rfl, (fun a h => by cases h)⟩
    | some n =>
      obtain ⟨a, ha1, ha2⟩ := v2 n hx
      obtain ⟨n', hn1, hn2⟩ := h3.2 n hx
      obtain ⟨b, hb1, hb2⟩ := w2 n' hn1
      rw [ha1, hb1]
      refine ⟨(fun h => by cases h), fun a' h => ?_⟩
      cases h
      exact ⟨b, rfl, sameNode_join ha2 (sameNode_trans hb2 hn2)⟩
  · rw [o q hq, o' q (fun m mp h1 h2 => hq m mp ((p2 m).1 h1) (by rw [← hdec]; exact h2)), p4 q hq]

/-- **C120 (partial)**: if everything could be accepted at once, all that is left after any number of steps can be accepted, too.
Missing: as for `C120_view_partial`; hosts with several file systems, and the conditions of `C85_everything_partial`. -/
theorem C120_succeeds_partial (env env' : Env) (st st' : State) (hp : Spec.PlainStorage env st) (hl : Spec.NoLinkDeleted env st) (hr : Spec.AcceptReady env st)
    (hdl : Spec.OneDevice st.lower) (hdu : Spec.OneDevice st.upper) (h : Spec.AcceptedInSteps env.decode st st') (hdec : env'.decode = env.decode) (ho' : Spec.Ordinary env' st')
    (hall' : Spec.AllSelected env' st') : (accept env' st').error = none := by
  obtain ⟨p1, _⟩ := steps_all h env rfl hp hl
  obtain ⟨r1, r2⟩ := steps_ready h env rfl hp hl hr hdl hdu
  have p1' : Spec.PlainStorage env' st' := by
    obtain ⟨a1, a2, a3, a4, a5, a6, a7⟩ := p1
    rw [← hdec] at a5 a6 a7
    exact ⟨a1, a2, a3, a4, a5, a6, a7⟩
  have r1' : Spec.AcceptReady env' st' := by
    obtain ⟨a1, a2, a3, a4⟩ := r1
    rw [← hdec] at a1 a2 a3 a4
    exact ⟨a1, a2, a3, a4⟩
  exact C85_everything_partial env' st' ho' p1' r1' hall' r2

/-! ### Concrete cases -/

/-- The places of the storage the selected changes are recorded at. -/
def takenPlaces (env : Env) (st : State) : List Path := (selected env st).filterMap (fun e => e.staged.map (·.path))

theorem taken_iff {env : Env} {st : State} {q : Path} : Spec.TakenFrom env st q ↔ q ∈ takenPlaces env st := by
  unfold Spec.TakenFrom takenPlaces
  rw [List.mem_filterMap]
  constructor
  · rintro ⟨e, he, s, hs, rfl⟩
    exact ⟨e, he, by rw [hs]; rfl⟩
  · rintro ⟨e, he, h⟩
    cases hs : e.staged with
    | none => rw [hs] at h; cases h
    | some s =>
      rw [hs] at h
      exact ⟨e, he, s, hs, Option.some.inj h⟩

def wholeBelowCheck (env : Env) (st : State) : Bool :=
  (takenPlaces env st).all (fun p => st.upper.all (fun o => match o.1 with
    | [] => true
    | m :: sub => match env.decode m with
      | none => true
      | some mp => !p.isPrefixOf o.1 || (takenPlaces env st).contains o.1 || (Spec.isWhiteout o.2 && (st.lower.get (mp ++ sub)).isNone)))

def replacedCheck (env : Env) (st : State) : Bool :=
  st.upper.all (fun o => match o.1 with
    | [] => true
    | m :: sub => match env.decode m with
      | none => true
      | some mp => !o.2.opq || (takenPlaces env st).all (fun p => !o.1.isPrefixOf p) ||
        ((takenPlaces env st).contains o.1 && st.lower.all (fun h => !(mp ++ sub).isPrefixOf h.1 || (selected env st).any (fun e => decide (e.op = .remove) && (match e.source with | some s => s.path == h.1 | none => false)))))

theorem wholeDirs_of_check {env : Env} {st : State} (h1 : wholeBelowCheck env st = true) (h2 : replacedCheck env st = true) : Spec.WholeDirs env st := by
  unfold wholeBelowCheck at h1
  unfold replacedCheck at h2
  rw [List.all_eq_true] at h1 h2
  refine ⟨fun p m mp sub n ht hd hg hpre => ?_, fun m mp sub n hd _ hg ho => ?_⟩
  · have h := h1 p (taken_iff.1 ht)
    rw [List.all_eq_true] at h
    have h := h _ (FS.mem_of_get hg)
    simp only [hd] at h
    rw [List.isPrefixOf_iff_prefix.2 hpre] at h
    rw [taken_iff]
    simpa using h
  · have h := h2 _ (FS.mem_of_get hg)
    simp only [hd, ho, Bool.not_true, Bool.false_or] at h
    rw [Bool.or_eq_true, Bool.and_eq_true, List.all_eq_true, List.all_eq_true] at h
    rcases h with h | ⟨ha, hb⟩
    · left
      intro p hp hpre
      have := h p (taken_iff.1 hp)
      rw [List.isPrefixOf_iff_prefix.2 hpre] at this
      cases this
    · right
      refine ⟨taken_iff.2 (by simpa using ha), fun q k hpre hk => ?_⟩
      have := hb _ (FS.mem_of_get hk)
      rw [List.isPrefixOf_iff_prefix.2 hpre, Bool.not_true, Bool.false_or, List.any_eq_true] at this
      obtain ⟨e, he, h⟩ := this
      rw [Bool.and_eq_true] at h
      refine ⟨e, he, by simpa using h.1, ?_⟩
      cases hs : e.source with
      | none => rw [hs] at h; cases h.2
      | some s => rw [hs] at h; exact ⟨s, rfl, by simpa using h.2⟩

/-- Host with directories `d` and `o`; in the sandbox: `chmod 700 d; echo new >d/f; rm d/g; rm -r d/x; mkdir d/x; echo >d/x/z; rm -r o; mkdir n; echo >n/k`. -/
def exSteps : State :=
  ⟨[([], { kind := .dir }), ([str "d"], { kind := .dir }), ([str "d", str "f"], { kind := .reg (str "1") }), ([str "d", str "g"], { kind := .reg (str "2") }), ([str "d", str "x"], { kind := .dir }),
    ([str "d", str "x", str "y"], { kind := .reg (str "3") }), ([str "o"], { kind := .dir }), ([str "o", str "p"], { kind := .reg (str "4") })],
   [([], { kind := .dir }), ([str "F4"], { kind := .dir }), ([str "F4", str "d"], { kind := .dir, perm := 0o700 }), ([str "F4", str "d", str "f"], { kind := .reg (str "new"), uid := 7 }),
    ([str "F4", str "d", str "g"], { kind := .chr 0 }), ([str "F4", str "d", str "x"], { kind := .dir, opq := true }), ([str "F4", str "d", str "x", str "z"], { kind := .reg [] }),
    ([str "F4", str "o"], { kind := .chr 0 }), ([str "F4", str "n"], { kind := .dir, opq := true }), ([str "F4", str "n", str "k"], { kind := .reg [] })]⟩

/-- First `d/f` and all of `d/x` (a directory's name only selects what is below it), then all of `n` and `d/g`. -/
def exStep1 : Env := { exViewEnv with patterns := [str "/d/f", str "/d/x", str "/d/x*"], glob := globRef }
def exStep2 : Env := { exViewEnv with patterns := [str "/n", str "/n*", str "/d/g"], glob := globRef }
def exSteps1 : State := (accept exStep1 exSteps).state
def exSteps2 : State := (accept exStep2 exSteps1).state

theorem exSteps_plain : Spec.PlainStorage exViewEnv exSteps := plainStorage_of_check (by decide +kernel) (by decide +kernel)
theorem exSteps_ordinary : Spec.Ordinary exViewEnv exSteps := ordinary_of_check (fun _ => rfl) (fun _ => rfl) (by decide +kernel) (by decide +kernel) (by decide +kernel)
theorem exSteps_links : Spec.NoLinkDeleted exViewEnv exSteps := by
  intro m mp sub n k _ _ _ _ hk
  have : ∀ e ∈ exSteps.lower, Spec.ftype e.2.kind ≠ .symlink := by decide +kernel
  exact this _ (FS.mem_of_get hk)
theorem exSteps_steps : Spec.AcceptedInSteps exViewEnv.decode exSteps exSteps2 :=
  .step exStep1 rfl (ordinary_of_check (fun _ => rfl) (fun _ => rfl) (by decide +kernel) (by decide +kernel) (by decide +kernel)) (wholeDirs_of_check (by decide +kernel) (by decide +kernel)) (by decide +kernel)
    (.step exStep2 rfl (ordinary_of_check (fun _ => rfl) (fun _ => rfl) (by decide +kernel) (by decide +kernel) (by decide +kernel)) (wholeDirs_of_check (by decide +kernel) (by decide +kernel)) (by decide +kernel)
      (.none _))
theorem exSteps_last : Spec.Ordinary exViewEnv exSteps2 := ordinary_of_check (fun _ => rfl) (fun _ => rfl) (by decide +kernel) (by decide +kernel) (by decide +kernel)

-- the conditions of the theorems hold; what is left after the two steps, and what the last accept does
example : Spec.AllSelected exViewEnv exSteps ∧ (accept exViewEnv exSteps).error = none ∧ Spec.AllSelected exViewEnv exSteps2 ∧ (accept exViewEnv exSteps2).error = none := by
  refine ⟨?_, by decide +kernel, ?_, by decide +kernel⟩
  · have : selected exViewEnv exSteps = changes exViewEnv exSteps := by decide +kernel
    intro e he
    rw [this]
    exact he
  · have : selected exViewEnv exSteps2 = changes exViewEnv exSteps2 := by decide +kernel
    intro e he
    rw [this]
    exact he
set_option synthInstance.maxSize 1000 in
set_option synthInstance.maxHeartbeats 200000 in
example : Spec.AcceptReady exViewEnv exSteps ∧ Spec.OneDevice exSteps.lower ∧ Spec.OneDevice exSteps.upper :=
  ⟨acceptable_of_check (by decide +kernel) (by decide +kernel) (by decide +kernel) (by decide +kernel) (by decide +kernel), oneDevice_of_check 0 (by decide +kernel), oneDevice_of_check 0 (by decide +kernel)⟩

example : (changes exViewEnv exSteps2).map (·.dest) = [[str "d"], [str "o"], [str "o", str "p"]] ∧
    (exSteps2.lower.get [str "d", str "x", str "y"] = none ∧ (exSteps2.lower.get [str "n", str "k"]).isSome = true ∧ exSteps2.lower.get [str "d", str "g"] = none ∧ (exSteps2.lower.get [str "o", str "p"]).isSome = true) ∧
    (accept exViewEnv exSteps2).state.lower.get [str "o", str "p"] = none ∧ ((accept exViewEnv exSteps2).state.lower.get [str "d"]).map (·.perm) = some 0o700 := by decide +kernel

/-! ### Refutations -/

/-- Host with a directory `d`; in the sandbox: `rm -r d; mkdir d; echo x >d/f`. -/
def exReplacedDir : State :=
  ⟨[([], { kind := .dir }), ([str "d"], { kind := .dir }), ([str "d", str "o"], { kind := .reg (str "old") })],
   [([], { kind := .dir }), ([str "F4"], { kind := .dir }), ([str "F4", str "d"], { kind := .dir, opq := true }), ([str "F4", str "d", str "f"], { kind := .reg (str "x") })]⟩
/-- `sandbox accept /d` -/
def exStepD : Env := { exViewEnv with patterns := [str "/d"], glob := globRef }

/-- **C120 refuted** for directories replaced in the sandbox (`rm -r d; mkdir d; echo x >d/f`): `sandbox accept d` takes what is below `d`: `d/f` is on the host then - but the sandbox, for which `d` is new and empty then, does not
see it any more, and accepting the rest (`sandbox accept`) deletes `d/f` on the host: the accepted file is lost.  Accepting everything at once keeps it. -/
theorem C120_refuted_replaced_directory : Spec.Ordinary exViewEnv exReplacedDir ∧ Spec.PlainStorage exViewEnv exReplacedDir ∧ Spec.Ordinary exStepD exReplacedDir ∧
    (accept exStepD exReplacedDir).error = none ∧ (Spec.view exReplacedDir (str "F4") [] [str "d", str "f"]).map (·.kind) = some (.reg (str "x")) ∧
    ((accept exStepD exReplacedDir).state.lower.get [str "d", str "f"]).map (·.kind) = some (.reg (str "x")) ∧ Spec.view (accept exStepD exReplacedDir).state (str "F4") [] [str "d", str "f"] = none ∧
    (accept exViewEnv (accept exStepD exReplacedDir).state).error = none ∧ (accept exViewEnv (accept exStepD exReplacedDir).state).state.lower.get [str "d", str "f"] = none ∧
    (accept exViewEnv exReplacedDir).error = none ∧ ((accept exViewEnv exReplacedDir).state.lower.get [str "d", str "f"]).map (·.kind) = some (.reg (str "x")) :=
  ⟨ordinary_of_check (fun _ => rfl) (fun _ => rfl) (by decide +kernel) (by decide +kernel) (by decide +kernel), plainStorage_of_check (by decide +kernel) (by decide +kernel),
    ordinary_of_check (fun _ => rfl) (fun _ => rfl) (by decide +kernel) (by decide +kernel) (by decide +kernel), by decide +kernel⟩

/-- Host with a file `a` and a link `l` to it; in the sandbox: `rm a l`. -/
def exDeadLinkSteps : State :=
  ⟨[([], { kind := .dir }), ([str "a"], { kind := .reg (str "a") }), ([str "l"], { kind := .lnk (str "a") })],
   [([], { kind := .dir }), ([str "F4"], { kind := .dir }), ([str "F4", str "a"], { kind := .chr 0 }), ([str "F4", str "l"], { kind := .chr 0 })]⟩
def exOnlyA : Env := { exViewEnv with patterns := [str "/a"], glob := fun p s => p == s }

/-- **C120 refuted** for deleted links (`rm a l`, where `l` is a link to `a`): if first the deletion of `a` is accepted, the deletion of `l` is not listed any more and cannot be accepted; accepting
everything at once deletes both. -/
theorem C120_refuted_link : Spec.Ordinary exViewEnv exDeadLinkSteps ∧ Spec.PlainStorage exViewEnv exDeadLinkSteps ∧ Spec.Ordinary exOnlyA exDeadLinkSteps ∧ Spec.WholeDirs exOnlyA exDeadLinkSteps ∧
    (accept exOnlyA exDeadLinkSteps).error = none ∧ changes exViewEnv (accept exOnlyA exDeadLinkSteps).state = [] ∧
    ((accept exViewEnv (accept exOnlyA exDeadLinkSteps).state).state.lower.get [str "l"]).map (·.kind) = some (.lnk (str "a")) ∧
    (accept exViewEnv exDeadLinkSteps).error = none ∧ (accept exViewEnv exDeadLinkSteps).state.lower.get [str "l"] = none :=
  ⟨ordinary_of_check (fun _ => rfl) (fun _ => rfl) (by decide +kernel) (by decide +kernel) (by decide +kernel), plainStorage_of_check (by decide +kernel) (by decide +kernel),
    ordinary_of_check (fun _ => rfl) (fun _ => rfl) (by decide +kernel) (by decide +kernel) (by decide +kernel), wholeDirs_of_check (by decide +kernel) (by decide +kernel), by decide +kernel⟩

end SB
