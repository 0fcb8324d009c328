import Verif.Props.Everything
import Verif.Props.Suid
import Verif.Lib.CleanCrash

/-!
# C106: while changes are accepted, the sandbox keeps seeing what it saw
-/

namespace SB

section
variable {env : Env} {st : State}

/-- A stored whiteout of something the host has is staged for a removal. -/
theorem whiteout_staged (hw : st.lower.WF) (hp : Spec.PlainStorage env st) (hall : Spec.AllSelected env st) {m : Name} {mp sub : Path} {n k : Node} (hdec : env.decode m = some mp)
    (hne : sub ≠ []) (hg : st.upper.get (m :: sub) = some n) (hwn : Spec.isWhiteout n = true) (hq : st.lower.get (mp ++ sub) = some k) :
    ∃ e ∈ selected env st, e.op = .remove ∧ e.staged = some ⟨m :: sub, n⟩ := by
  obtain ⟨ue, hue, hi, hn⟩ := upperEntries_of_kept (kept_all (FS.mem_keys.2 ⟨n, hg⟩) hdec hne) hg
  have hex : st.lower.pexists (mp ++ sub) = true := by
    by_cases hl : Spec.ftype k.kind = .symlink
    · exact hp.links m mp sub n k hdec hg hwn hq hl
    · have hl' := isLnk_of_ftype hl
      unfold FS.pexists
      rw [FS.stat_chain (hw.normal_of_get hq) hw.root (hw.chain hq) (fun x hx => by rw [hq] at hx; cases hx; exact hl'), hq]
  have hsp : ue.sourcePath = some (mp ++ sub) := by
    rw [hi.source, plain_source hp hg]
    simp [ifExists, hex]
  have hrm : ue.node.isRemoved = true := by rw [hn]; exact (isRemoved_iff_whiteout hp hg).2 hwn
  have key : ∃ e ∈ removesOf st (renamedPaths (upperEntries { env with includeIgnored := true } st)) ue, e.op = .remove ∧ e.staged = some ⟨m :: sub, n⟩ := by
    unfold removesOf
    rw [hsp, plain_renamed hp]
    simp only [hrm, Bool.or_true, Bool.true_or, if_true, List.not_mem_nil, if_false]
    by_cases hd : st.lower.pisDir (mp ++ sub) = true
    · rw [if_pos hd]
      refine ⟨_, List.mem_map.2 ⟨mp ++ sub, ?_, rfl⟩, rfl, by simp [hi.upperPath, hn]⟩
      have hst := hex
      unfold FS.pexists FS.stat at hst
      unfold FS.walkDir
      cases hrp : st.lower.realpath (mp ++ sub) with
      | error e => rw [hrp] at hst; cases hst
      | ok c =>
        rw [hrp] at hst
        simp only at hst ⊢
        cases hgc : st.lower.get c with
        | none => rw [hgc] at hst; cases hst
        | some x =>
          refine List.mem_filterMap.2 ⟨(c, x), FS.mem_of_get hgc, ?_⟩
          simp
    · rw [if_neg hd]
      refine ⟨_, List.mem_singleton.2 rfl, rfl, by simp [hi.upperPath, hn]⟩
  obtain ⟨e, he, ho, hs⟩ := key
  exact ⟨e, hall e (mem_changes.2 ⟨ue, hue, Or.inl he⟩), ho, hs⟩

/-- A stored path that is not a whiteout is staged for a creation or modification, if no selected change is an error. -/
theorem node_staged (hp : Spec.PlainStorage env st) (hall : Spec.AllSelected env st) (herr : ∀ e ∈ selected env st, ∀ x, e.op ≠ .error x) {m : Name} {mp sub : Path} {n : Node}
    (hdec : env.decode m = some mp) (hne : sub ≠ []) (hg : st.upper.get (m :: sub) = some n) (hw : Spec.isWhiteout n = false) :
    ∃ e ∈ selected env st, Spec.IsSet e ∧ e.dest = mp ++ sub ∧ e.staged = some ⟨m :: sub, n⟩ := by
  obtain ⟨ue, hue, hi, hn⟩ := upperEntries_of_kept (kept_all (FS.mem_keys.2 ⟨n, hg⟩) hdec hne) hg
  have hrm : ue.node.isRemoved = false := by
    cases hx : ue.node.isRemoved with
    | false => rfl
    | true => rw [hn, isRemoved_iff_whiteout hp hg, hw] at hx; cases hx
  obtain ⟨e, he⟩ := setsOf_singleton (st := st) hrm
  have hmem : e ∈ setsOf st ue := by rw [he]; simp
  have hsel := hall e (mem_changes.2 ⟨ue, hue, Or.inr hmem⟩)
  obtain ⟨_, h2, h3, _, _, hx⟩ := mem_setsOf hmem
  refine ⟨e, hsel, ?_, h2.trans hi.lowerPath, by rw [h3, hi.upperPath, hn]⟩
  have hr := hp.noRedirects _ _ hi.node
  rcases hx with ⟨h1, _⟩ | ⟨h1, _⟩ | ⟨_, _, hx⟩ | ⟨_, _, hx⟩
  · rw [hr] at h1; cases h1
  · rw [hr] at h1; cases h1
  · exact absurd hx (herr e hsel _)
  · exact ⟨_, hx⟩

/-- A mount point is not touched. -/
theorem mount_untouched (ho : Spec.Ordinary env st) (hp : Spec.PlainStorage env st) {m : Name} {mp : Path} (hm : [m] ∈ st.upper.keys) (hd : env.decode m = some mp) :
    ¬ Spec.Touched env (selected env st) mp := by
  have up : ∀ {m' mp' sub' n'}, env.decode m' = some mp' → sub' ≠ [] → st.upper.get (m' :: sub') = some n' → mp' ++ sub' <+: mp → Spec.Hiding n' ∨ mp' ++ sub' = mp → False := by
    intro m' mp' sub' n' h1 h2 h3 h4 h5
    have hpre : mp' <+: mp := (List.prefix_append _ _).trans h4
    by_cases hmm : m' = m
    · subst hmm
      rw [hd] at h1; cases h1
      have := h4.length_le
      rw [List.length_append] at this
      exact h2 (List.eq_nil_of_length_eq_zero (by omega))
    · obtain ⟨a, b⟩ := hp.nested m mp m' mp' sub' n' hm hd hmm h1 hpre h2 h3
      rcases h5 with h | h
      · exact b h h4
      · exact a (h ▸ List.prefix_refl _)
  intro ht
  cases ht with
  | removed e s he hop hs hq =>
    obtain ⟨m', mp', sub', n', h1, h2, h3, h4, h5⟩ := removes_hiding hp ⟨e, he, hop, s, hs, hq⟩
    exact up h1 h2 h3 h5 (Or.inl h4)
  | dest e he hs hq =>
    obtain ⟨m', mp', sub', n', h1, h2, h3, _, h5, _⟩ := set_stored he hs
    rw [h5] at hq
    exact up h1 h2 h3 (hq ▸ List.prefix_refl _) (Or.inr hq)
  | copyTemp e i he hs hq =>
    obtain ⟨k, hk, _⟩ := (hp.mounts m mp hm hd).1
    exact (ho.fresh.copy i e he).host mp (FS.mem_keys.2 ⟨k, hk⟩) (by rw [← hq]; simp)
  | renSource e s he hop hs _ => exact no_renames hp ⟨e, he, hop, rfl, s, hs, rfl⟩
  | renDest e he hop _ =>
    obtain ⟨s, hs⟩ := changes_rename_source (mem_selected he) hop
    exact no_renames hp ⟨e, he, hop, rfl, s, hs, rfl⟩
  | renTemp e s i he hop hs _ => exact no_renames hp ⟨e, he, hop, rfl, s, hs, rfl⟩

/-- A seen path that is neither stored nor hidden is not touched, unless it is a temporary. -/
theorem seen_untouched (hp : Spec.PlainStorage env st) {m : Name} {mp sub : Path} (hs : Spec.Seen env st m mp (mp ++ sub)) (hg : st.upper.get (m :: sub) = none)
    (hh : ¬ HiddenAt st m sub.reverse) (ht : ¬ Spec.Temp env (selected env st) (mp ++ sub)) : ¬ Spec.Touched env (selected env st) (mp ++ sub) := by
  intro h
  cases h with
  | removed e s he hop hse hq =>
    obtain ⟨m', mp', sub', n', g1, g2, g3, g4, g5⟩ := removes_hiding hp ⟨e, he, hop, s, hse, hq⟩
    by_cases hmm : m' = m
    · subst hmm
      rw [hs.decode] at g1; cases g1
      exact hh ⟨sub', n', g2, by rw [List.reverse_reverse]; exact (List.prefix_append_right_inj mp).1 g5, g3, g4⟩
    · exact (seen_other hp hs hmm g1 g2 g3 g5).2 g4
  | dest e he hse hq =>
    obtain ⟨m', mp', sub', n', g1, g2, g3, _, g5, _⟩ := set_stored he hse
    rw [g5] at hq
    by_cases hmm : m' = m
    · subst hmm
      rw [hs.decode] at g1; cases g1
      have := List.append_cancel_left hq
      subst this
      rw [hg] at g3; cases g3
    · exact (seen_other hp hs hmm g1 g2 g3 (by rw [hq])).1 hq
  | copyTemp e i he hse hq => exact ht (.copy e i he hse hq)
  | renSource e s he hop hse _ => exact no_renames hp ⟨e, he, hop, rfl, s, hse, rfl⟩
  | renDest e he hop _ =>
    obtain ⟨s, hse⟩ := changes_rename_source (mem_selected he) hop
    exact no_renames hp ⟨e, he, hop, rfl, s, hse, rfl⟩
  | renTemp e s i he hop hse _ => exact no_renames hp ⟨e, he, hop, rfl, s, hse, rfl⟩

end

/-- **C106 (partial)**: in every state an accept can leave (whatever it is asked to accept, and even if it is interrupted or fails) before it begins to clear the storage,
a process in the sandbox sees at every path what it saw before, except for temporary files.
Missing: the clearing of the storage (`C106_clearing_partial`, `C106_refuted_new_directory`), renamed directories (`C106_refuted_moved`). -/
theorem C106_view_partial (env : Env) (st st' : State) (ho : Spec.Ordinary env st) (hp : Spec.PlainStorage env st) (ha : AcceptState env st st') (hu : st'.upper = st.upper)
    (m : Name) (mp sub : Path) (hs : Spec.Seen env st m mp (mp ++ sub)) (ht : ¬ Spec.Temp env (selected env st) (mp ++ sub)) : Spec.view st' m mp sub = Spec.view st m mp sub := by
  obtain ⟨st1, hc, hl⟩ := acceptState_lower ha
  have hw' : st'.lower.WF := by rw [hl]; exact crash_wf ho.ready hc
  have hun : ∀ q, ¬ Spec.Touched env (selected env st) q → st'.lower.get q = st.lower.get q := by rw [hl]; exact (crash_host ho.ready hc).1
  obtain ⟨⟨h1, h2, h3⟩, ⟨h4, h5, h6⟩⟩ := hp.mounts m mp hs.stored hs.decode
  have hwh : ∀ q n, st.upper.get q = some n → n.whiteout = true → Spec.ftype n.kind ≠ .directory := fun q n hg hx => by rw [hp.whiteouts q n hg hx]; decide
  obtain ⟨v1, v2⟩ := view_closed (mp := mp) ho.wf hp.wf (FS.isDirAt_iff.2 ⟨h1, h2, isDir_of_ftype h3⟩) (FS.isDirAt_iff.2 ⟨h4, h5, isDir_of_ftype h6⟩) hp.noRedirects hwh sub
  obtain ⟨w1, w2⟩ := view_closed (st := st') (m := m) (mp := mp) hw' (by rw [hu]; exact hp.wf)
    (FS.isDirAt_iff.2 ⟨h1, by rw [hun mp (mount_untouched ho hp hs.stored hs.decode)]; exact h2, isDir_of_ftype h3⟩)
    (by rw [hu]; exact FS.isDirAt_iff.2 ⟨h4, h5, isDir_of_ftype h6⟩) (by rw [hu]; exact hp.noRedirects) (by rw [hu]; exact hwh) sub
  have hhid : HiddenAt st' m sub.reverse ↔ HiddenAt st m sub.reverse := by unfold HiddenAt; rw [hu]
  rw [hu] at w1 w2
  cases hg : st.upper.get (m :: sub) with
  | some n =>
    cases hwn : Spec.isWhiteout n with
    | true => rw [(v1 n hg).1 hwn, (w1 n hg).1 hwn]
    | false => rw [(v1 n hg).2 hwn, (w1 n hg).2 hwn]
  | none =>
    by_cases hh : HiddenAt st m sub.reverse
    · rw [(v2 hg).1 hh, (w2 hg).1 (hhid.2 hh)]
    · rw [(v2 hg).2 hh, (w2 hg).2 (fun h => hh (hhid.1 h)), hun _ (seen_untouched hp hs hg hh ht)]

/-- **C106 (partial)**: if everything is accepted, this stays so while the storage is cleared and afterwards (up to what accept does not carry over, such as timestamps), unless the
storage has an opaque directory or a whiteout for something the host does not have.
Missing: those (`C106_refuted_new_directory`), renamed directories. -/
theorem C106_clearing_partial (env : Env) (st st' : State) (ho : Spec.Ordinary env st) (hp : Spec.PlainStorage env st) (hall : Spec.AllSelected env st) (ha : AcceptState env st st')
    (hopq : ∀ q n, st.upper.get q = some n → n.opq = false)
    (hwho : ∀ m mp sub n, env.decode m = some mp → sub ≠ [] → st.upper.get (m :: sub) = some n → Spec.isWhiteout n = true → ∃ k, st.lower.get (mp ++ sub) = some k)
    (m : Name) (mp sub : Path) (hs : Spec.Seen env st m mp (mp ++ sub)) (ht : ¬ Spec.Temp env (selected env st) (mp ++ sub)) :
    (Spec.view st m mp sub = none → Spec.view st' m mp sub = none) ∧
    (∀ n, Spec.view st m mp sub = some n → ∃ n', Spec.view st' m mp sub = some n' ∧ Spec.SameNode n' n) := by
  have hsame : ∀ {n : Node}, Spec.SameNode n n := ⟨rfl, rfl, rfl, Or.inr rfl⟩
  have of_eq : Spec.view st' m mp sub = Spec.view st m mp sub → (Spec.view st m mp sub = none → Spec.view st' m mp sub = none) ∧
      (∀ n, Spec.view st m mp sub = some n → ∃ n', Spec.view st' m mp sub = some n' ∧ Spec.SameNode n' n) :=
    fun h => ⟨fun h' => h.trans h', fun n h' => ⟨n, h.trans h', hsame⟩⟩
  by_cases hue : st'.upper = st.upper
  · exact of_eq (C106_view_partial env st st' ho hp ha hue m mp sub hs ht)
  cases ha with
  | before => exact absurd rfl hue
  | during hpc hc =>
    have herr : ∀ e ∈ selected env st, ∀ x, e.op ≠ .error x := fun e he x hx => pretend_fails he (.errorEntry x hx) hpc
    unfold plan at hc
    rcases crash_append hc with hc | ⟨st1, h1, hc⟩
    · exact absurd (crash_upper (applyPlan_noClean env _) hc) hue
    have hu1 : st1.upper = st.upper := by
      have := crash_of_run (ops := applyPlan env (selected env st)) (st := st)
      rw [h1] at this
      exact crash_upper (applyPlan_noClean env _) this
    obtain ⟨hA, hw1, _⟩ := applied_of_run ho.ready ho.distinct h1
    have staged : ∀ {m mp sub n}, env.decode m = some mp → sub ≠ [] → st.upper.get (m :: sub) = some n → m :: sub ∈ cleanPaths (realOrders env (selected env st)).2.2 := by
      intro m mp sub n hd hne hg
      cases hwn : Spec.isWhiteout n with
      | true =>
        obtain ⟨k, hk⟩ := hwho m mp sub n hd hne hg hwn
        obtain ⟨e, he, hop, hst⟩ := whiteout_staged ho.wf hp hall hd hne hg hwn hk
        exact mem_cleanPaths_c5.2 ⟨e, he, herr e he, _, hst, rfl⟩
      | false =>
        obtain ⟨e, he, _, _, hst⟩ := node_staged hp hall herr hd hne hg hwn
        exact mem_cleanPaths_c5.2 ⟨e, he, herr e he, _, hst, rfl⟩
    have listed : ∀ p ∈ cleanPaths (realOrders env (selected env st)).2.2, ∃ m mp sub, p = m :: sub ∧ env.decode m = some mp ∧ sub ≠ [] := by
      intro p hp'
      obtain ⟨e, he, _, s, hst, rfl⟩ := mem_cleanPaths_c5.1 hp'
      obtain ⟨ue, hue, h⟩ := mem_changes.1 (mem_selected he)
      obtain ⟨m, mp, sub, _, hi⟩ := mem_upperEntries hue
      have : s.path = ue.upperPath := by
        rcases h with h | h
        · obtain ⟨_, _, _, _, _, h, _⟩ := mem_removesOf h
          rcases h with ⟨_, _, _, h⟩ | ⟨_, _, _, h⟩
          · rw [hst] at h
            split at h
            · cases h; rfl
            · cases h
          · rw [hst] at h; cases h; rfl
        · have := (mem_setsOf h).2.2.1
          rw [hst] at this; cases this; rfl
      exact ⟨m, mp, sub, by rw [this, hi.upperPath], hi.decode, hi.sub_ne⟩
    obtain ⟨hl', hwu', hgone⟩ := clean_crash _ st1 st' (by rw [hu1]; exact hp.wf) (cleanPaths_strict _)
      (fun p hp' => by obtain ⟨_, _, _, rfl, _, _⟩ := listed p hp'; simp)
      (fun p hp' q n hq hpre => by
        obtain ⟨m', mp', sub', rfl, hd', hne'⟩ := listed p hp'
        rw [hu1] at hq
        obtain ⟨r, rfl⟩ := hpre
        exact staged (sub := sub' ++ r) hd' (by simp [hne']) hq) hc
    rw [hu1] at hgone
    have hsub : ∀ q n, st'.upper.get q = some n → st.upper.get q = some n := by
      intro q n hq
      rcases hgone q with h | ⟨h, _⟩
      · rw [← h, hq]
      · rw [hq] at h; cases h
    have hne : sub ≠ [] := by
      rintro rfl
      have := hs.below
      rw [List.append_nil] at this
      exact not_below_self _ this
    have nodest : (st.upper.get (m :: sub) = none ∨ ∃ n, st.upper.get (m :: sub) = some n ∧ Spec.isWhiteout n = true) → ∀ e ∈ selected env st, Spec.IsSet e → e.dest ≠ mp ++ sub := by
      intro hg e he hse hd
      obtain ⟨m', mp', sub', n', g1, g2, g3, g4, g5, _⟩ := set_stored he hse
      rw [g5] at hd
      by_cases hmm : m' = m
      · subst hmm
        rw [hs.decode] at g1; cases g1
        have := List.append_cancel_left hd
        subst this
        rcases hg with hg | ⟨n, hg, hwn⟩
        · rw [hg] at g3; cases g3
        · rw [hg] at g3; cases g3
          rw [(isRemoved_iff_whiteout hp hg).2 hwn] at g4; cases g4
      · exact (seen_other hp hs hmm g1 g2 g3 (by rw [hd])).1 hd
    have gone : Spec.Removes (selected env st) (mp ++ sub) → (∀ e ∈ selected env st, Spec.IsSet e → e.dest ≠ mp ++ sub) → st'.lower.get (mp ++ sub) = none := by
      intro hr hns
      rw [hl']
      exact hA.gone _ hns (fun s d h' => absurd h' (no_renames hp)) (Or.inl hr)
    have kept : ∀ {q}, ¬ Spec.Removes (selected env st) q → (∀ e ∈ selected env st, Spec.IsSet e → e.dest ≠ q) → st'.lower.get q = st.lower.get q := by
      intro q hr hns
      rw [hl']
      exact hA.kept _ hns (fun s d h' => absurd h' (no_renames hp)) hr
    obtain ⟨⟨h1, h2, h3⟩, ⟨h4, h5, h6⟩⟩ := hp.mounts m mp hs.stored hs.decode
    have hmp' : st'.lower.get mp = st.lower.get mp := by
      have hun := mount_untouched ho hp hs.stored hs.decode
      exact kept (fun ⟨e, he, hop, s, hse, hq⟩ => hun (.removed e s he hop hse hq)) (fun e he hse hq => hun (.dest e he hse hq))
    have hm' : st'.upper.get [m] = st.upper.get [m] := by
      rcases hgone [m] with h | ⟨_, h⟩
      · exact h
      · obtain ⟨_, _, sub', h, _, h'⟩ := listed _ h
        simp only [List.cons.injEq] at h
        exact absurd h.2.symm h'
    have hwh : ∀ q n, st.upper.get q = some n → n.whiteout = true → Spec.ftype n.kind ≠ .directory := fun q n hg hx => by rw [hp.whiteouts q n hg hx]; decide
    obtain ⟨v1, v2⟩ := view_closed (mp := mp) ho.wf hp.wf (FS.isDirAt_iff.2 ⟨h1, h2, isDir_of_ftype h3⟩) (FS.isDirAt_iff.2 ⟨h4, h5, isDir_of_ftype h6⟩) hp.noRedirects hwh sub
    obtain ⟨w1, w2⟩ := view_closed (st := st') (m := m) (mp := mp) (by rw [hl']; exact hw1) hwu' (FS.isDirAt_iff.2 ⟨h1, by rw [hmp']; exact h2, isDir_of_ftype h3⟩)
      (FS.isDirAt_iff.2 ⟨h4, by rw [hm']; exact h5, isDir_of_ftype h6⟩) (fun q n h => hp.noRedirects q n (hsub q n h)) (fun q n h => hwh q n (hsub q n h)) sub
    -- below a stored node that hides something nothing is stored
    have leaf : ∀ {y n}, y ≠ [] → y <+: sub → y ≠ sub → st.upper.get (m :: y) = some n → Spec.Hiding n → st.upper.get (m :: sub) = none := by
      intro y n hy hpre hys hg hh
      cases hgs : st.upper.get (m :: sub) with
      | none => rfl
      | some k =>
        exfalso
        obtain ⟨d, hd1, hd2⟩ := FS.isDirAt_iff.1 (hp.wf.ancestor (q := m :: y) hgs (below_iff.2 ⟨List.cons_prefix_cons.2 ⟨rfl, hpre⟩, fun h => hys (List.cons.inj h).2⟩))
        rw [hg] at hd1; cases hd1
        have hdir : Spec.ftype n.kind = .directory := by unfold Node.isDir at hd2; simp at hd2; rw [hd2]; rfl
        rcases hh with h | h | h
        · unfold Spec.isWhiteout at h
          rw [Bool.or_eq_true] at h
          rcases h with h | h
          · rw [beq_iff_eq] at h; rw [h] at hdir; cases hdir
          · exact hwh _ _ hg h hdir
        · rw [hopq _ _ hg] at h; cases h
        · exact h hdir
    cases hg : st.upper.get (m :: sub) with
    | some n =>
      rcases hgone (m :: sub) with hk | ⟨hk, _⟩
      · rw [hg] at hk
        cases hwn : Spec.isWhiteout n with
        | true => exact of_eq (by rw [(v1 n hg).1 hwn, (w1 n hk).1 hwn])
        | false => exact of_eq (by rw [(v1 n hg).2 hwn, (w1 n hk).2 hwn])
      · have hnh : ¬ HiddenAt st' m sub.reverse := by
          rintro ⟨y, k, hy, hyp, hyg, hyh⟩
          rw [List.reverse_reverse] at hyp
          have hys : y ≠ sub := by rintro rfl; rw [hk] at hyg; cases hyg
          rw [leaf hy hyp hys (hsub _ _ hyg) hyh] at hg; cases hg
        rw [(w2 hk).2 hnh]
        cases hwn : Spec.isWhiteout n with
        | true =>
          rw [(v1 n hg).1 hwn]
          obtain ⟨k, hk'⟩ := hwho m mp sub n hs.decode hne hg hwn
          exact ⟨fun _ => gone (hiding_removes ho.wf hp hall hs.decode hne hg (Or.inl hwn) hk' (List.prefix_refl _) (fun _ => hwn)) (nodest (Or.inr ⟨n, hg, hwn⟩)), (fun k hk => by cases hk)⟩
        | false =>
          rw [(v1 n hg).2 hwn]
          obtain ⟨e, he, hse, hd, hst⟩ := node_staged hp hall herr hs.decode hne hg hwn
          obtain ⟨n', hn', hsn⟩ := hA.set e he hse _ hst
          rw [hd] at hn'
          refine ⟨(fun h => by cases h), fun k hk => ?_⟩
          cases hk
          exact ⟨n', by rw [hl']; exact hn', hsn⟩
    | none =>
      have hk : st'.upper.get (m :: sub) = none := by
        cases hx : st'.upper.get (m :: sub) with
        | none => rfl
        | some k => rw [hsub _ _ hx] at hg; cases hg
      have hns := nodest (Or.inl hg)
      by_cases hh : HiddenAt st m sub.reverse
      · rw [(v2 hg).1 hh]
        refine ⟨fun _ => ?_, (fun k hk => by cases hk)⟩
        by_cases hh' : HiddenAt st' m sub.reverse
        · exact (w2 hk).1 hh'
        · rw [(w2 hk).2 hh']
          by_cases hr : Spec.Removes (selected env st) (mp ++ sub)
          · exact gone hr hns
          · obtain ⟨y, n, hy, hyp, hyg, hyh⟩ := hh
            rw [List.reverse_reverse] at hyp
            rw [kept hr hns]
            cases hq : st.lower.get (mp ++ sub) with
            | none => rfl
            | some k =>
              refine absurd (hiding_removes ho.wf hp hall hs.decode hy hyg hyh hq ((List.prefix_append_right_inj mp).2 hyp) (fun he => ?_)) hr
              have := List.append_cancel_left he
              subst this
              rw [hg] at hyg; cases hyg
      · have hh' : ¬ HiddenAt st' m sub.reverse := by
          rintro ⟨y, n, hy, hyp, hyg, hyh⟩
          exact hh ⟨y, n, hy, hyp, hsub _ _ hyg, hyh⟩
        have hun := seen_untouched hp hs hg hh ht
        exact of_eq (by rw [(v2 hg).2 hh, (w2 hk).2 hh', kept (fun ⟨e, he, hop, s, hse, hq⟩ => hun (.removed e s he hop hse hq)) hns])

/-! ### Refutations -/

/-- The state after the first `k` operations of accept. -/
def interrupted (env : Env) (st : State) (k : Nat) : State := (run ((plan env (selected env st)).take k) st).1

theorem interrupted_state {env : Env} {st : State} {k : Nat} (hp : pretendCheck env st (selected env st) = none)
    (h : (run ((plan env (selected env st)).take k) st).2 = none) : AcceptState env st (interrupted env st k) :=
  .during hp (crash_take k (Prod.ext rfl h))

/-- The second run uses other UUIDs. -/
def exAgain (e : Env) : Env := { e with uuidR := fun n => List.replicate (n + 1) '%', uuidC := fun n => List.replicate (n + 1) '$' }

/-- Empty host; in the sandbox: `mkdir d; echo x > d/f`. -/
def exNewDir : State := ⟨[([], { kind := .dir })],
  [([], { kind := .dir }), ([str "F4"], { kind := .dir }), ([str "F4", str "d"], { kind := .dir, opq := true }), ([str "F4", str "d", str "f"], { kind := .reg (str "x") })]⟩

/-- Host with `/d/x`; in the sandbox: `mv d e`. -/
def exMoveDir : State := ⟨[([], { kind := .dir }), ([str "d"], { kind := .dir }), ([str "d", str "x"], { kind := .reg (str "precious") })],
  [([], { kind := .dir }), ([str "F4"], { kind := .dir }), ([str "F4", str "d"], { kind := .chr 0 }), ([str "F4", str "e"], { kind := .dir, redirect := some (str "d") })]⟩


/-- **C106 refuted** for a directory made in the sandbox (`mkdir d; echo x > d/f`): while accept clears the storage, `d/f` is gone before `d`, and since `d` is stored as
opaque the sandbox does not see the file on the host either. -/
theorem C106_refuted_new_directory : Spec.Ordinary exViewEnv exNewDir ∧ Spec.PlainStorage exViewEnv exNewDir ∧ Spec.AllSelected exViewEnv exNewDir ∧
    ∃ st', AcceptState exViewEnv exNewDir st' ∧ (Spec.view exNewDir (str "F4") [] [str "d", str "f"]).map (·.kind) = some (.reg (str "x")) ∧
      Spec.view st' (str "F4") [] [str "d", str "f"] = none ∧ (st'.lower.get [str "d", str "f"]).map (·.kind) = some (.reg (str "x")) := by
  refine ⟨ordinary_of_check (fun _ => rfl) (fun _ => rfl) (by decide +kernel) (by decide +kernel) (by decide +kernel), plainStorage_of_check (by decide +kernel) (by decide +kernel), ?_,
    interrupted exViewEnv exNewDir 8, ?_, ?_⟩
  · have : selected exViewEnv exNewDir = changes exViewEnv exNewDir := by decide +kernel
    intro e he
    rw [this]
    exact he
  · exact interrupted_state (by decide +kernel) (by decide +kernel)
  · decide +kernel

/-- **C106 refuted** for a renamed directory (`mv d e`): accept moves `d` to a temporary name first; until it has moved that to `e`, the directory is empty in the sandbox. -/
theorem C106_refuted_moved : Spec.Ordinary exViewEnv exMoveDir ∧ Spec.AllSelected exViewEnv exMoveDir ∧
    ∃ st', AcceptState exViewEnv exMoveDir st' ∧ st'.upper = exMoveDir.upper ∧ (Spec.view exMoveDir (str "F4") [] [str "e", str "x"]).map (·.kind) = some (.reg (str "precious")) ∧
      Spec.view st' (str "F4") [] [str "e", str "x"] = none := by
  refine ⟨ordinary_of_check (fun _ => rfl) (fun _ => rfl) (by decide +kernel) (by decide +kernel) (by decide +kernel), ?_, interrupted exViewEnv exMoveDir 1, ?_, ?_⟩
  · have : selected exViewEnv exMoveDir = changes exViewEnv exMoveDir := by decide +kernel
    intro e he
    rw [this]
    exact he
  · exact interrupted_state (by decide +kernel) (by decide +kernel)
  · decide +kernel

/-! ### A concrete case -/

/-- Host with `/d/x` and `/f`; in the sandbox: `rm d/x; echo new > f; echo y > d/g; ln -s x d/l`. -/
def exDuring : State := ⟨[([], { kind := .dir }), ([str "d"], { kind := .dir }), ([str "d", str "x"], { kind := .reg (str "old") }), ([str "f"], { kind := .reg (str "f") })],
  [([], { kind := .dir }), ([str "F4"], { kind := .dir }), ([str "F4", str "d"], { kind := .dir }), ([str "F4", str "d", str "x"], { kind := .chr 0 }),
   ([str "F4", str "d", str "g"], { kind := .reg (str "y"), uid := 7 }), ([str "F4", str "d", str "l"], { kind := .lnk (str "x") }), ([str "F4", str "f"], { kind := .reg (str "new") })]⟩

theorem exDuring_ordinary : Spec.Ordinary exViewEnv exDuring := ordinary_of_check (fun _ => rfl) (fun _ => rfl) (by decide +kernel) (by decide +kernel) (by decide +kernel)
theorem exDuring_plain : Spec.PlainStorage exViewEnv exDuring := plainStorage_of_check (by decide +kernel) (by decide +kernel)
theorem exDuring_all : Spec.AllSelected exViewEnv exDuring := by
  have : selected exViewEnv exDuring = changes exViewEnv exDuring := by decide +kernel
  intro e he
  rw [this]
  exact he

/-- Half applied: `d/x` is gone on the host, `f` not yet written; the sandbox sees the same. -/
example : AcceptState exViewEnv exDuring (interrupted exViewEnv exDuring 2) ∧ (interrupted exViewEnv exDuring 2).upper = exDuring.upper ∧
    (interrupted exViewEnv exDuring 2).lower.get [str "d", str "x"] = none ∧ (interrupted exViewEnv exDuring 2).lower.get [str "f"] = exDuring.lower.get [str "f"] ∧
    Spec.view (interrupted exViewEnv exDuring 2) (str "F4") [] [str "f"] = some { kind := .reg (str "new") } ∧ Spec.Seen exViewEnv exDuring (str "F4") [] ([] ++ [str "f"]) :=
  ⟨interrupted_state (by decide +kernel) (by decide +kernel), by decide +kernel, by decide +kernel, by decide +kernel, by decide +kernel,
    ⟨by decide +kernel, by decide +kernel, ⟨[str "f"], by simp, rfl⟩, fun m' mp' h1 h2 h3 => by
      have : m' = str "F4" := by
        have h : [m'] ∈ exDuring.upper.keys := h1
        simp [exDuring, FS.keys] at h
        exact h
      exact absurd this h3⟩⟩

/-- Partly cleared: `f` and `d/x` are no longer in the storage, `d/g` still is; the sandbox sees the same. -/
example : ∃ k, AcceptState exViewEnv exDuring (interrupted exViewEnv exDuring k) ∧ (interrupted exViewEnv exDuring k).upper.get [str "F4", str "f"] = none ∧
    (interrupted exViewEnv exDuring k).upper.get [str "F4", str "d", str "g"] ≠ none ∧ (interrupted exViewEnv exDuring k).upper.get [str "F4", str "d", str "x"] = none ∧
    Spec.view (interrupted exViewEnv exDuring k) (str "F4") [] [str "f"] = some { kind := .reg (str "new") } ∧
    Spec.view (interrupted exViewEnv exDuring k) (str "F4") [] [str "d", str "x"] = none :=
  ⟨18, interrupted_state (by decide +kernel) (by decide +kernel), by decide +kernel⟩

example (m : Name) (mp sub : Path) (hs : Spec.Seen exViewEnv exDuring m mp (mp ++ sub)) (ht : ¬ Spec.Temp exViewEnv (selected exViewEnv exDuring) (mp ++ sub)) :
    Spec.view exDuring m mp sub = none → Spec.view (interrupted exViewEnv exDuring 18) m mp sub = none :=
  (C106_clearing_partial exViewEnv exDuring _ exDuring_ordinary exDuring_plain exDuring_all (interrupted_state (by decide +kernel) (by decide +kernel))
    (fun q n h => by
      have : ∀ e ∈ exDuring.upper, e.2.opq = false := by decide +kernel
      exact this _ (FS.mem_of_get h))
    (fun m mp sub n hd hne hg hw => by
      have : ∀ e ∈ exDuring.upper, Spec.isWhiteout e.2 = true → ∀ p ∈ hostPlace exViewEnv e.1, (exDuring.lower.get p).isSome = true := by decide +kernel
      have h := this _ (FS.mem_of_get hg) hw (mp ++ sub) (by simp [hostPlace, hne, hd])
      exact Option.isSome_iff_exists.1 h)
    m mp sub hs ht).1

end SB
