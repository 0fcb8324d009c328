import Verif.Props.Reject
import Verif.Props.Fresh
import Verif.Lib.HistoryKinds

/-! # C109: rejected changes are undone, and nothing else -/

namespace SB

/-- A state in which a reject can be interrupted: `k` of the selected changes are handled.  With all of them handled (or a failure before) it is the final state. -/
def rejectUpTo (env : Env) (st : State) (k : Nat) : State :=
  { st with upper := (rejectLoop ((stableSort byStagedDescending (selected env st)).take k) none st.upper).1 }

theorem rejectUpTo_all (env : Env) (st : State) : rejectUpTo env st (selected env st).length = (reject env st).1 := by
  unfold rejectUpTo reject
  rw [← (perm_stableSort byStagedDescending (selected env st)).length_eq, List.take_length]

section
variable {env : Env} {st : State}

/-- The storage stays a tree. -/
theorem rejectLoop_wf {orig : FS} (ho : orig.WF) : ∀ (l : List Entry) (last : Option Path) (up : FS),
    up.WF → (∀ q, up.get q = orig.get q ∨ up.get q = none) → (∀ e ∈ l, ∀ s, e.staged = some s → s.path ≠ [] ∧ ∃ n, orig.get s.path = some n) → (rejectLoop l last up).1.WF := by
  intro l
  induction l with
  | nil => intro last up hw _ _; exact hw
  | cons e r ih =>
    intro last up hw hsub hst
    have hst' : ∀ e ∈ r, ∀ s, e.staged = some s → s.path ≠ [] ∧ ∃ n, orig.get s.path = some n := fun e he => hst e (List.mem_cons_of_mem _ he)
    simp only [rejectLoop]
    cases hs : e.staged with
    | none => exact ih last up hw hsub hst'
    | some s =>
      simp only
      split
      · exact ih last up hw hsub hst'
      · obtain ⟨hp, n, hn⟩ := hst e (by simp) s hs
        cases hstep : (if s.node.isDir then up.rmdir s.path else up.unlink s.path) with
        | error x => exact hw
        | ok up' =>
          simp only
          have hnl : ∀ q, Below q s.path → ∀ n, up.get q = some n → n.isLnk = false := by
            intro q hq m hm
            have hd := ho.ancestor hn hq
            rcases hsub q with h | h
            · rw [hm] at h
              obtain ⟨m', hm', hd'⟩ := FS.isDirAt_iff.1 hd
              rw [← h] at hm'; cases hm'
              unfold Node.isDir at hd'
              have : m.kind = .dir := by simpa using hd'
              simp [Node.isLnk, this, Kind.isLnk]
            · rw [hm] at h; cases h
          obtain ⟨rfl, hw'⟩ := reject_step hw hp (ho.normal_of_get hn) hnl hstep
          refine ih (some s.path) _ hw' (fun q => ?_) hst'
          rw [FS.get_del]
          split
          · right; rfl
          · exact hsub q

/-- If the loop ends without an error, all staged paths are gone. -/
theorem rejectLoop_gone {orig : FS} (ho : orig.WF) : ∀ (l : List Entry) (last : Option Path) (up : FS),
    up.WF → (∀ q, up.get q = orig.get q ∨ up.get q = none) → (∀ e ∈ l, ∀ s, e.staged = some s → s.path ≠ [] ∧ ∃ n, orig.get s.path = some n) →
    (∀ p, last = some p → up.get p = none) → (rejectLoop l last up).2 = none →
    (∀ q, up.get q = none → (rejectLoop l last up).1.get q = none) ∧ ∀ e ∈ l, ∀ s, e.staged = some s → (rejectLoop l last up).1.get s.path = none := by
  intro l
  induction l with
  | nil => intro last up _ _ _ _ _; exact ⟨fun q h => h, fun e he => by cases he⟩
  | cons e r ih =>
    intro last up hw hsub hst hlast hok
    have hst' : ∀ e ∈ r, ∀ s, e.staged = some s → s.path ≠ [] ∧ ∃ n, orig.get s.path = some n := fun e he => hst e (List.mem_cons_of_mem _ he)
    simp only [rejectLoop] at hok ⊢
    cases hs : e.staged with
    | none =>
      rw [hs] at hok
      obtain ⟨h1, h2⟩ := ih last up hw hsub hst' hlast hok
      refine ⟨h1, fun e' he' s' hs' => ?_⟩
      rcases List.mem_cons.1 he' with rfl | he'
      · rw [hs] at hs'; cases hs'
      · exact h2 e' he' s' hs'
    | some s =>
      rw [hs] at hok
      simp only at hok ⊢
      split at hok
      · next hl =>
        rw [if_pos hl]
        obtain ⟨h1, h2⟩ := ih last up hw hsub hst' hlast hok
        refine ⟨h1, fun e' he' s' hs' => ?_⟩
        rcases List.mem_cons.1 he' with rfl | he'
        · rw [hs] at hs'; cases hs'
          exact h1 _ (hlast _ hl)
        · exact h2 e' he' s' hs'
      · next hl =>
        rw [if_neg hl]
        obtain ⟨hp, n, hn⟩ := hst e (by simp) s hs
        cases hstep : (if s.node.isDir then up.rmdir s.path else up.unlink s.path) with
        | error x => rw [hstep] at hok; cases hok
        | ok up' =>
          rw [hstep] at hok
          simp only at hok ⊢
          have hnl : ∀ q, Below q s.path → ∀ n, up.get q = some n → n.isLnk = false := by
            intro q hq m hm
            have hd := ho.ancestor hn hq
            rcases hsub q with h | h
            · rw [hm] at h
              obtain ⟨m', hm', hd'⟩ := FS.isDirAt_iff.1 hd
              rw [← h] at hm'; cases hm'
              unfold Node.isDir at hd'
              have : m.kind = .dir := by simpa using hd'
              simp [Node.isLnk, this, Kind.isLnk]
            · rw [hm] at h; cases h
          obtain ⟨rfl, hw'⟩ := reject_step hw hp (ho.normal_of_get hn) hnl hstep
          have hself : (up.del s.path).get s.path = none := by rw [FS.get_del, if_pos rfl]
          obtain ⟨h1, h2⟩ := ih (some s.path) _ hw' (fun q => by
            rw [FS.get_del]
            split
            · right; rfl
            · exact hsub q) hst' (fun p hp' => by cases hp'; exact hself) hok
          refine ⟨fun q hq => h1 q ?_, fun e' he' s' hs' => ?_⟩
          · rw [FS.get_del]
            split
            · rfl
            · exact hq
          · rcases List.mem_cons.1 he' with rfl | he'
            · rw [hs] at hs'; cases hs'
              exact h1 _ hself
            · exact h2 e' he' s' hs'

theorem reject_staged_ok : ∀ e ∈ stableSort byStagedDescending (selected env st), ∀ s, e.staged = some s → s.path ≠ [] ∧ ∃ n, st.upper.get s.path = some n := by
  intro e he s hs
  obtain ⟨h1, h2⟩ := changes_staged (mem_selected (mem_stableSort.1 he)) hs
  exact ⟨h2, _, h1⟩

theorem rejectUpTo_wf (hw : st.upper.WF) (k : Nat) : (rejectUpTo env st k).upper.WF :=
  rejectLoop_wf hw _ none _ hw (fun _ => Or.inl rfl) (fun e he => reject_staged_ok e (List.mem_of_mem_take he))

theorem reject_gone (hw : st.upper.WF) (hok : (reject env st).2 = none) {e : Entry} {s : Details} (he : e ∈ selected env st) (hs : e.staged = some s) :
    (reject env st).1.upper.get s.path = none :=
  (rejectLoop_gone hw _ none _ hw (fun _ => Or.inl rfl) reject_staged_ok (fun p hp => by cases hp) hok).2 e (mem_stableSort.2 he) s hs

/-- Without renamed directories, the staged path of a change belongs to its destination. -/
theorem staged_dest (hp : Spec.PlainStorage env st) {e : Entry} {s : Details} (he : e ∈ selected env st) (hst : e.staged = some s) :
    ∃ m mp sub, s.path = m :: sub ∧ env.decode m = some mp ∧ sub ≠ [] ∧ e.dest = mp ++ sub := by
  obtain ⟨ue, hue, h⟩ := mem_changes.1 (mem_selected he)
  obtain ⟨m, mp, sub, _, hi⟩ := mem_upperEntries hue
  have hsrc : ∀ sp, ue.sourcePath = some sp → sp = mp ++ sub := by
    intro sp hsp
    rw [hi.source, plain_source hp hi.node] at hsp
    unfold ifExists at hsp
    split at hsp
    · cases hsp; rfl
    · cases hsp
  rcases h with h | h
  · obtain ⟨sp, hsp, _, _, _, h, _⟩ := mem_removesOf h
    rcases h with ⟨_, _, _, h⟩ | ⟨_, hd, _, h⟩
    · rw [hst] at h
      split at h
      · next hd => cases h; exact ⟨m, mp, sub, hi.upperPath, hi.decode, hi.sub_ne, hd.trans (hsrc sp hsp)⟩
      · cases h
    · rw [hst] at h; cases h
      exact ⟨m, mp, sub, hi.upperPath, hi.decode, hi.sub_ne, hd.trans (hsrc sp hsp)⟩
  · obtain ⟨_, h2, h3, _⟩ := mem_setsOf h
    rw [hst] at h3; cases h3
    exact ⟨m, mp, sub, hi.upperPath, hi.decode, hi.sub_ne, h2.trans hi.lowerPath⟩

/-- Everything stored, except for marks of deletions of what the host does not have, is staged for a change with this destination. -/
theorem stored_listed (hw : st.lower.WF) (hp : Spec.PlainStorage env st) {m : Name} {mp sub : Path} {n : Node} (hdec : env.decode m = some mp)
    (hne : sub ≠ []) (hg : st.upper.get (m :: sub) = some n) (hq : Spec.isWhiteout n = true → st.lower.get (mp ++ sub) ≠ none) :
    ∃ e ∈ changes { env with includeIgnored := true } st, e.dest = mp ++ sub ∧ e.staged = some ⟨m :: sub, n⟩ := by
  obtain ⟨ue, hue, hi, hn⟩ := upperEntries_of_kept (kept_all (FS.mem_keys.2 ⟨n, hg⟩) hdec hne) hg
  cases hwn : Spec.isWhiteout n with
  | false =>
    have hrm : ue.node.isRemoved = false := by
      cases hx : ue.node.isRemoved with
      | false => rfl
      | true => rw [hn, isRemoved_iff_whiteout hp hg, hwn] at hx; cases hx
    obtain ⟨e, he⟩ := setsOf_singleton (st := st) hrm
    have hmem : e ∈ setsOf st ue := by rw [he]; simp
    obtain ⟨_, h2, h3, _⟩ := mem_setsOf hmem
    exact ⟨e, mem_changes.2 ⟨ue, hue, Or.inr hmem⟩, h2.trans hi.lowerPath, by rw [h3, hi.upperPath, hn]⟩
  | true =>
    obtain ⟨k, hk⟩ := Option.ne_none_iff_exists'.1 (hq hwn)
    have hex : st.lower.pexists (mp ++ sub) = true := by
      by_cases hl : Spec.ftype k.kind = .symlink
      · exact hp.links m mp sub n k hdec hg hwn hk hl
      · have hl' := isLnk_of_ftype hl
        unfold FS.pexists
        rw [FS.stat_chain (hw.normal_of_get hk) hw.root (hw.chain hk) (fun x hx => by rw [hk] at hx; cases hx; exact hl'), hk]
    have hsp : ue.sourcePath = some (mp ++ sub) := by
      rw [hi.source, plain_source hp hg]
      simp [ifExists, hex]
    have hrm : ue.node.isRemoved = true := by rw [hn]; exact (isRemoved_iff_whiteout hp hg).2 hwn
    have key : ∃ e ∈ removesOf st (renamedPaths (upperEntries { env with includeIgnored := true } st)) ue, e.dest = mp ++ sub ∧ e.staged = some ⟨m :: sub, n⟩ := by
      unfold removesOf
      rw [hsp, plain_renamed hp]
      simp only [hrm, Bool.or_true, Bool.true_or, if_true, List.not_mem_nil, if_false]
      by_cases hd : st.lower.pisDir (mp ++ sub) = true
      · rw [if_pos hd]
        refine ⟨_, List.mem_map.2 ⟨mp ++ sub, ?_, rfl⟩, rfl, by simp [hi.upperPath, hn]⟩
        have hst := hex
        unfold FS.pexists FS.stat at hst
        unfold FS.walkDir
        cases hrp : st.lower.realpath (mp ++ sub) with
        | error e => rw [hrp] at hst; cases hst
        | ok c =>
          rw [hrp] at hst
          simp only at hst ⊢
          cases hgc : st.lower.get c with
          | none => rw [hgc] at hst; cases hst
          | some x =>
            refine List.mem_filterMap.2 ⟨(c, x), FS.mem_of_get hgc, ?_⟩
            simp
      · rw [if_neg hd]
        refine ⟨_, List.mem_singleton.2 rfl, rfl, by simp [hi.upperPath, hn]⟩
    obtain ⟨e, he, h1, h2⟩ := key
    exact ⟨e, mem_changes.2 ⟨ue, hue, Or.inl he⟩, h1, h2⟩

end

/-- A process in the sandbox can look below this mount: its changes are kept in `m` and it is mounted at `mp`. -/
structure Spec.MountAt (env : Env) (st : State) (m : Name) (mp : Path) : Prop where
  stored : [m] ∈ st.upper.keys
  decode : env.decode m = some mp

section
variable {env : Env} {st : State}

theorem rejected_views (hw : st.lower.WF) (hp : Spec.PlainStorage env st) {up : FS} (hwu : up.WF) {m : Name} {mp : Path} (hm : Spec.MountAt env st m mp)
    (hsub : ∀ q, up.get q = st.upper.get q ∨ (up.get q = none ∧ ∃ e ∈ selected env st, ∃ s, e.staged = some s ∧ s.path = q)) (sub : Path) :
    (∀ n, up.get (m :: sub) = some n → (Spec.isWhiteout n = true → Spec.view ⟨st.lower, up⟩ m mp sub = none) ∧ (Spec.isWhiteout n = false → Spec.view ⟨st.lower, up⟩ m mp sub = some n)) ∧
    (up.get (m :: sub) = none → (HiddenAt ⟨st.lower, up⟩ m sub.reverse → Spec.view ⟨st.lower, up⟩ m mp sub = none) ∧
      (¬ HiddenAt ⟨st.lower, up⟩ m sub.reverse → Spec.view ⟨st.lower, up⟩ m mp sub = st.lower.get (mp ++ sub))) := by
  obtain ⟨⟨h1, h2, h3⟩, ⟨h4, h5, h6⟩⟩ := hp.mounts m mp hm.stored hm.decode
  have hback : ∀ q n, up.get q = some n → st.upper.get q = some n := by
    intro q n hq
    rcases hsub q with h | ⟨h, _⟩
    · rw [← h, hq]
    · rw [hq] at h; cases h
  have htop : up.get [m] = some h4 := by
    rcases hsub [m] with h | ⟨_, e, he, s, hs, hp'⟩
    · rw [h, h5]
    · obtain ⟨m', _, sub', h', _, hne⟩ := staged_below he hs
      rw [hp'] at h'
      exact absurd (List.cons.inj h').2.symm hne
  exact view_closed (st := ⟨st.lower, up⟩) hw hwu (FS.isDirAt_iff.2 ⟨h1, h2, isDir_of_ftype h3⟩) (FS.isDirAt_iff.2 ⟨h4, htop, isDir_of_ftype h6⟩)
    (fun q k hg => hp.noRedirects q k (hback q k hg)) (fun q k hg hx => by rw [hp.whiteouts q k (hback q k hg) hx]; decide) sub

/-- A hidden path is still hidden, if what hides it is. -/
theorem hiddenAt_mono {a b : State} {m : Name} {r : List Name} (h : ∀ q, q ≠ [] → q <+: r.reverse → a.upper.get (m :: q) = none ∨ a.upper.get (m :: q) = b.upper.get (m :: q)) (hh : HiddenAt a m r) :
    HiddenAt b m r := by
  obtain ⟨q, n, h1, h2, h3, h4⟩ := hh
  rcases h q h1 h2 with h' | h'
  · rw [h3] at h'; cases h'
  · exact ⟨q, n, h1, h2, by rw [← h', h3], h4⟩

end

/-- **C109 (partial)**: where no selected change is, at or above, the sandbox sees the same as before at every moment of a reject, however it ends.
Missing: renamed directories (`C109_refuted_moved`). -/
theorem C109_kept_partial (env : Env) (st : State) (hw : st.lower.WF) (hp : Spec.PlainStorage env st) (m : Name) (mp sub : Path) (hm : Spec.MountAt env st m mp)
    (hno : ∀ e ∈ selected env st, ¬ e.dest <+: mp ++ sub) (k : Nat) : Spec.view (rejectUpTo env st k) m mp sub = Spec.view st m mp sub := by
  have hsame : ∀ q, q <+: sub → (rejectUpTo env st k).upper.get (m :: q) = st.upper.get (m :: q) := by
    intro q hq
    rcases C17_only_selected_storage env st hp.wf k (m :: q) with h | ⟨_, e, he, s, hs, hpath⟩
    · exact h
    · exfalso
      obtain ⟨m', mp', sub', h1, h2, _, h4⟩ := staged_dest hp he hs
      rw [hpath] at h1
      obtain ⟨rfl, rfl⟩ := List.cons.inj h1
      rw [hm.decode] at h2; cases h2
      exact hno e he (by rw [h4]; exact (List.prefix_append_right_inj mp).2 hq)
  obtain ⟨v1, v2⟩ := rejected_views hw hp hp.wf hm (fun q => Or.inl rfl) sub
  obtain ⟨w1, w2⟩ := rejected_views hw hp (rejectUpTo_wf (env := env) hp.wf k) hm (C17_only_selected_storage env st hp.wf k) sub
  have hs := hsame sub (List.prefix_refl _)
  have e1 : (⟨st.lower, st.upper⟩ : State) = st := rfl
  have e2 : (⟨st.lower, (rejectUpTo env st k).upper⟩ : State) = rejectUpTo env st k := rfl
  rw [e1] at v1 v2
  rw [e2] at w1 w2
  have hhid : HiddenAt (rejectUpTo env st k) m sub.reverse ↔ HiddenAt st m sub.reverse :=
    ⟨hiddenAt_mono (fun q _ hq => Or.inr (hsame q (by simpa using hq))), hiddenAt_mono (fun q _ hq => Or.inr (hsame q (by simpa using hq)).symm)⟩
  cases hg : st.upper.get (m :: sub) with
  | some n =>
    cases hwn : Spec.isWhiteout n with
    | true => rw [(v1 n hg).1 hwn, (w1 n (hs.trans hg)).1 hwn]
    | false => rw [(v1 n hg).2 hwn, (w1 n (hs.trans hg)).2 hwn]
  | none =>
    by_cases hh : HiddenAt st m sub.reverse
    · rw [(v2 hg).1 hh, (w2 (hs.trans hg)).1 (hhid.2 hh)]
    · rw [(v2 hg).2 hh, (w2 (hs.trans hg)).2 (fun h => hh (hhid.1 h))]

/-- **C109 (partial)**: at every moment of a reject, and however it ends, the sandbox sees at each path what it saw before, or the host's version, or nothing.
Missing: renamed directories. -/
theorem C109_between_partial (env : Env) (st : State) (hw : st.lower.WF) (hp : Spec.PlainStorage env st) (m : Name) (mp sub : Path) (hm : Spec.MountAt env st m mp) (k : Nat) :
    Spec.view (rejectUpTo env st k) m mp sub = Spec.view st m mp sub ∨ Spec.view (rejectUpTo env st k) m mp sub = st.lower.get (mp ++ sub) ∨ Spec.view (rejectUpTo env st k) m mp sub = none := by
  obtain ⟨v1, v2⟩ := rejected_views hw hp hp.wf hm (fun q => Or.inl rfl) sub
  obtain ⟨w1, w2⟩ := rejected_views hw hp (rejectUpTo_wf (env := env) hp.wf k) hm (C17_only_selected_storage env st hp.wf k) sub
  have e1 : (⟨st.lower, st.upper⟩ : State) = st := rfl
  have e2 : (⟨st.lower, (rejectUpTo env st k).upper⟩ : State) = rejectUpTo env st k := rfl
  rw [e1] at v1 v2
  rw [e2] at w1 w2
  cases hg : (rejectUpTo env st k).upper.get (m :: sub) with
  | some n =>
    have hg' : st.upper.get (m :: sub) = some n := by
      rcases C17_only_selected_storage env st hp.wf k (m :: sub) with h | ⟨h, _⟩
      · exact h.symm.trans hg
      · cases h.symm.trans hg
    left
    cases hwn : Spec.isWhiteout n with
    | true => rw [(v1 n hg').1 hwn, (w1 n hg).1 hwn]
    | false => rw [(v1 n hg').2 hwn, (w1 n hg).2 hwn]
  | none =>
    by_cases hh : HiddenAt (rejectUpTo env st k) m sub.reverse
    · exact Or.inr (Or.inr ((w2 hg).1 hh))
    · exact Or.inr (Or.inl ((w2 hg).2 hh))

/-- **C109 (partial)**: after a successful reject, where every change at or above was selected, the sandbox sees the host's version.
Missing: renamed directories (`C109_refuted_moved`), deleted dangling links. -/
theorem C109_rejected_partial (env : Env) (st : State) (hw : st.lower.WF) (hp : Spec.PlainStorage env st) (m : Name) (mp sub : Path) (hm : Spec.MountAt env st m mp) (hne : sub ≠ [])
    (hall : ∀ e ∈ changes { env with includeIgnored := true } st, e.dest <+: mp ++ sub → e ∈ selected env st) (hok : (reject env st).2 = none) :
    Spec.view (reject env st).1 m mp sub = st.lower.get (mp ++ sub) := by
  have honly := (C17_reject_keeps_host env st).2 hp.wf
  have hwu : (reject env st).1.upper.WF := by rw [← rejectUpTo_all]; exact rejectUpTo_wf hp.wf _
  obtain ⟨w1, w2⟩ := rejected_views hw hp hwu hm honly sub
  have e2 : (⟨st.lower, (reject env st).1.upper⟩ : State) = (reject env st).1 := rfl
  rw [e2] at w1 w2
  -- what is left at or above the path are marks of what the host does not have
  have left : ∀ q n, q ≠ [] → q <+: sub → (reject env st).1.upper.get (m :: q) = some n → Spec.isWhiteout n = true ∧ st.lower.get (mp ++ q) = none := by
    intro q n hq hpre hg
    have hg' : st.upper.get (m :: q) = some n := by
      rcases honly (m :: q) with h | ⟨h, _⟩
      · exact h.symm.trans hg
      · cases h.symm.trans hg
    by_contra hc
    obtain ⟨e, he, hd, hs⟩ := stored_listed hw hp hm.decode hq hg' (fun h1 h2 => hc ⟨h1, h2⟩)
    have hsel := hall e he (by rw [hd]; exact (List.prefix_append_right_inj mp).2 hpre)
    have := reject_gone hp.wf hok hsel hs
    dsimp only at this
    rw [hg] at this; cases this
  have nothing : ∀ q, q <+: sub → st.lower.get (mp ++ q) = none → st.lower.get (mp ++ sub) = none := by
    intro q hpre hn
    cases hg : st.lower.get (mp ++ sub) with
    | none => rfl
    | some k =>
      exfalso
      by_cases he : q = sub
      · subst he; rw [hn] at hg; cases hg
      · obtain ⟨d, hd, _⟩ := FS.isDirAt_iff.1 (hw.ancestor hg (below_iff.2 ⟨(List.prefix_append_right_inj mp).2 hpre, fun h => he (List.append_cancel_left h)⟩))
        rw [hn] at hd; cases hd
  cases hg : (reject env st).1.upper.get (m :: sub) with
  | some n =>
    obtain ⟨h1, h2⟩ := left sub n hne (List.prefix_refl _) hg
    rw [(w1 n hg).1 h1, h2]
  | none =>
    by_cases hh : HiddenAt (reject env st).1 m sub.reverse
    · rw [(w2 hg).1 hh]
      obtain ⟨q, n, h1, h2, h3, _⟩ := hh
      rw [List.reverse_reverse] at h2
      exact (nothing q h2 (left q n h1 h2 h3).2).symm
    · exact (w2 hg).2 hh

/-! ### Everything rejected -/

section
variable {env : Env} {st : State}

theorem reject_everything (hw : st.lower.WF) (hp : Spec.PlainStorage env st) (hdev : Spec.OneDevice st.upper) (hall : Spec.AllSelected env st) (hst : Spec.NoStaleMarks env st) :
    (reject env st).2 = none ∧ Spec.NoChangeStored env (reject env st).1.upper ∧
    (∀ q, (∀ m mp sub, env.decode m = some mp → sub ≠ [] → q ≠ m :: sub) → (reject env st).1.upper.get q = st.upper.get q) := by
  have staged : ∀ {m mp sub n}, env.decode m = some mp → sub ≠ [] → st.upper.get (m :: sub) = some n → ∃ e ∈ selected env st, e.staged = some ⟨m :: sub, n⟩ := by
    intro m mp sub n hd hne hg
    obtain ⟨e, he, _, hs⟩ := stored_listed hw hp hd hne hg (fun hwn => by
      obtain ⟨k, hk⟩ := hst m mp sub n hd hne hg hwn
      rw [hk]; simp)
    exact ⟨e, hall e he, hs⟩
  have hcl : Spec.ClosedBelow st.upper (selected env st) := by
    intro e he s hs _ q n hb hg
    obtain ⟨m, mp, sub, h1, h2, h3⟩ := staged_below he hs
    obtain ⟨w, hw', rfl⟩ := hb
    rw [h1, List.cons_append] at hg
    obtain ⟨e', he', hs'⟩ := staged h2 (by simp [h3]) hg
    exact ⟨e', he', _, hs', by rw [h1]; rfl⟩
  obtain ⟨h1, h2, h3⟩ := C18_complete_rejection env st hp.wf hdev hcl
  refine ⟨h1, fun m mp sub hd hne => ?_, fun q hq => h3 q (fun e he s hs heq => ?_)⟩
  · cases hg : (reject env st).1.upper.get (m :: sub) with
    | none => rfl
    | some n =>
      exfalso
      have hg' : st.upper.get (m :: sub) = some n := by
        rcases (C17_reject_keeps_host env st).2 hp.wf (m :: sub) with h | ⟨h, _⟩
        · exact h.symm.trans hg
        · cases h.symm.trans hg
      obtain ⟨e, he, hs⟩ := staged hd hne hg'
      have := h2 e he _ hs
      dsimp only at this
      rw [hg] at this; cases this
  · obtain ⟨m, mp, sub, h4, h5, h6⟩ := staged_below he hs
    exact hq m mp sub h5 h6 (by rw [← heq, h4])

end

/-- **C109 (partial)**: rejecting everything succeeds; afterwards, and whatever happens to the host later on, a process in the sandbox sees the host as it is then, and no changes are listed.
Missing: renamed directories (`C109_refuted_moved`), files deleted in the sandbox that were deleted on the host as well (`C109_refuted_deleted_twice`), the mount points themselves. -/
theorem C109_everything_partial (env : Env) (st : State) (hwl : st.lower.WF) (hp : Spec.PlainStorage env st) (hdev : Spec.OneDevice st.upper) (hall : Spec.AllSelected env st)
    (hst : Spec.NoStaleMarks env st) (host : FS) (hw : host.WF) (env' : Env) (hd : env'.decode = env.decode) :
    (reject env st).2 = none ∧
    (∀ m mp sub, Spec.MountAt env st m mp → host.isDirAt mp = true → sub ≠ [] → Spec.view ⟨host, (reject env st).1.upper⟩ m mp sub = host.get (mp ++ sub)) ∧
    changes env' ⟨host, (reject env st).1.upper⟩ = [] := by
  obtain ⟨hok, hn, hrest⟩ := reject_everything hwl hp hdev hall hst
  refine ⟨hok, fun m mp sub hm hdir hne => ?_, nothing_listed hn hd host⟩
  have hwu : (reject env st).1.upper.WF := by rw [← rejectUpTo_all]; exact rejectUpTo_wf hp.wf _
  have hsub : ∀ q n, (reject env st).1.upper.get q = some n → st.upper.get q = some n := by
    intro q n hg
    rcases (C17_reject_keeps_host env st).2 hp.wf q with h | ⟨h, _⟩
    · exact h.symm.trans hg
    · cases h.symm.trans hg
  obtain ⟨_, ⟨n, h5, h6⟩⟩ := hp.mounts m mp hm.stored hm.decode
  have htop : (reject env st).1.upper.get [m] = some n := by
    rw [hrest [m] (fun m' mp' sub' _ hne' he => hne' (List.cons.inj he).2.symm)]
    exact h5
  have hclosed := view_closed (st := ⟨host, (reject env st).1.upper⟩) (m := m) (mp := mp) hw hwu hdir (FS.isDirAt_iff.2 ⟨n, htop, isDir_of_ftype h6⟩)
    (fun q k hg => hp.noRedirects q k (hsub q k hg)) (fun q k hg hx => by rw [hp.whiteouts q k (hsub q k hg) hx]; decide) sub
  refine (hclosed.2 (hn m mp sub hm.decode hne)).2 ?_
  rintro ⟨q, k, hq, _, hg, _⟩
  dsimp only at hg
  rw [hn m mp q hm.decode hq] at hg
  cases hg

/-! ### For histories -/

/-- **C109 (partial)** for every history: whatever was done in a new sandbox, rejecting everything succeeds, leaves the host alone, and gives a new sandbox again.
Missing: directories moved (`C109_refuted_moved`), links of the host in the way. -/
theorem C109_new_partial (env : Env) (mounts : List MountHash) (st : State) (acts : List Act) (hnew : Spec.NewSandbox mounts st) (hone : Spec.OneDevice st.upper) (hacts : ∀ a ∈ acts, ActOk mounts a)
    (hdec : ∀ m ∈ mounts, env.decode m.hash = some m.dir) (hway : ∀ a ∈ acts, Spec.ClearWay st.lower a.path) (hall : Spec.AllSelected env (runIn mounts st acts)) :
    (reject env (runIn mounts st acts)).2 = none ∧ (reject env (runIn mounts st acts)).1.lower = st.lower ∧ Spec.NewSandbox mounts (reject env (runIn mounts st acts)).1 ∧
    Spec.OneDevice (reject env (runIn mounts st acts)).1.upper := by
  obtain ⟨hm, h⟩ := hist_run hnew hacts
  have hpl := hist_plain hm hdec h (by rintro p ⟨a, ha, rfl⟩; exact hway a ha)
  have hb : Backed mounts (runIn mounts st acts) :=
    Backed.run hm acts (hist_new hnew (fun p => ∃ a ∈ acts, a.path = p)).2 (backed_new hnew) (fun a ha => ⟨hacts a ha, a, ha, rfl⟩)
  have hst : Spec.NoStaleMarks env (runIn mounts st acts) := by
    intro x mp sub n hd hne hg hw
    obtain ⟨m, hmm, rfl, rfl, _⟩ := hist_mount hdec h hd hg
    exact hb m hmm sub n hne hg hw
  obtain ⟨dev, hdev⟩ := hone
  have hdevs := devs_run hm acts (hist_new hnew (fun _ => True)).2 hdev (fun a ha => ⟨hacts a ha, trivial⟩)
  obtain ⟨hok, hn, hrest⟩ := reject_everything h.regular.host hpl ⟨dev, hdevs⟩ hall hst
  have hsub : ∀ q n, (reject env (runIn mounts st acts)).1.upper.get q = some n → (runIn mounts st acts).upper.get q = some n := by
    intro q n hg
    rcases (C17_reject_keeps_host env _).2 hpl.wf q with h | ⟨h, _⟩
    · exact h.symm.trans hg
    · cases h.symm.trans hg
  have hl : (reject env (runIn mounts st acts)).1.lower = st.lower := h.lower
  refine ⟨hok, hl, ⟨hnew.points, hnew.names, by rw [hl]; exact hnew.host, by rw [hl]; exact hnew.plain, by rw [hl]; exact hnew.dirs,
    by rw [← rejectUpTo_all]; exact rejectUpTo_wf hpl.wf _, fun m hmm => ?_, fun q n hg => ?_⟩, dev, fun q n hg => hdevs q n (hsub q n hg)⟩
  · obtain ⟨t, ht, htd⟩ := FS.isDirAt_iff.1 (h.tops m hmm).2
    exact FS.isDirAt_iff.2 ⟨t, by rw [hrest [m.hash] (fun m' mp' sub' _ hne' he => hne' (List.cons.inj he).2.symm)]; exact ht, htd⟩
  · have hg' := hsub q n hg
    have h1 : q = [] ∨ ∃ m ∈ mounts, q = [m.hash] := by
      rcases h.keys q n hg' with h1 | ⟨m, hmm, sub, rfl, _⟩
      · exact Or.inl h1
      · by_cases hs : sub = []
        · subst hs; exact Or.inr ⟨m, hmm, rfl⟩
        · rw [hn m.hash m.dir sub (hdec m hmm) hs] at hg; cases hg
    refine ⟨h1, h.regular.redirect q n hg', h.regular.whiteout q n hg', ?_⟩
    rcases h1 with rfl | ⟨m, hmm, rfl⟩
    · obtain ⟨k, hk, hkd⟩ := FS.isDirAt_iff.1 h.regular.upper.root
      rw [hk] at hg'; cases hg'; exact hkd
    · obtain ⟨t, ht, htd⟩ := FS.isDirAt_iff.1 (h.tops m hmm).2
      rw [ht] at hg'; cases hg'; exact htd

/-! ### A sandbox used again and again, sometimes accepting, sometimes rejecting -/

/-- The conditions for a round that ends with rejecting everything. -/
structure Spec.UndoOk (env : Env) (mounts : List MountHash) (st : State) (acts : List Act) : Prop where
  inside : ∀ a ∈ acts, ActOk mounts a
  names : ∀ m ∈ mounts, env.decode m.hash = some m.dir
  way : ∀ a ∈ acts, Spec.ClearWay st.lower a.path
  all : Spec.AllSelected env (runIn mounts st acts)

/-- A sandbox in use: while nothing is pending things may be done on the host directly; things are done in the sandbox and accepted, or rejected; any number of times.  The list tells what was done on
the host or accepted, in this order; what was rejected is not in it. -/
inductive Spec.Uses (mounts : List MountHash) (st0 : State) : List Act → State → Prop where
  | start : Spec.Uses mounts st0 [] st0
  | host {acts : List Act} {st : State} (a : Act) : Spec.Uses mounts st0 acts st → ActOk mounts a → Spec.Uses mounts st0 (acts ++ [a]) { st with lower := actOn mounts st.lower a }
  | accepted {acts : List Act} {st : State} (env : Env) (w : List Act) : Spec.Uses mounts st0 acts st → Spec.RoundOk env mounts st w →
      Spec.Uses mounts st0 (acts ++ w) (accept env (runIn mounts st w)).state
  | rejected {acts : List Act} {st : State} (env : Env) (w : List Act) : Spec.Uses mounts st0 acts st → Spec.UndoOk env mounts st w →
      Spec.Uses mounts st0 acts (reject env (runIn mounts st w)).1

/-- **C109 (partial)**: after any number of rounds of working in a sandbox and then accepting or rejecting everything, with changes made on the host in between, the sandbox is like a new one, and the
host is as if exactly what was accepted (and done there directly) had been done on it, in this order: what was rejected leaves no trace.
Missing: directories moved, links of the host in the way, what accept cannot carry out; changes on the host while something is pending; rejecting only a part. -/
theorem C109_rounds_partial (mounts : List MountHash) (st0 st : State) (acts : List Act) (hnew : Spec.NewSandbox mounts st0) (hone : Spec.OneDevice st0.upper) (h : Spec.Uses mounts st0 acts st) :
    Spec.NewSandbox mounts st ∧ Spec.SameHost st.lower (runOn mounts st0.lower acts) := by
  suffices hs : Spec.NewSandbox mounts st ∧ Spec.SameHost st.lower (runOn mounts st0.lower acts) ∧ Spec.OneDevice st.upper from ⟨hs.1, hs.2.1⟩
  induction h with
  | start => exact ⟨hnew, (fun p => ⟨Iff.rfl, fun n k h1 h2 => by cases h1.symm.trans h2; exact ⟨rfl, rfl, rfl, Or.inr rfl⟩⟩), hone⟩
  | @host acts st a _ ha ih =>
    obtain ⟨hn, hs, hd⟩ := ih
    obtain ⟨h1, h2⟩ := C108_rounds_partial mounts st _ _ hn (.host a .start ha)
    refine ⟨h1, ?_, hd⟩
    unfold runOn
    rw [List.foldl_append]
    exact actOn_same hs a
  | @accepted acts st env w _ hr ih =>
    obtain ⟨hn, hs, dev, hd⟩ := ih
    obtain ⟨h1, h2⟩ := C108_rounds_partial mounts st _ _ hn (.sandbox env w .start hr)
    have hsplit : runOn mounts st0.lower (acts ++ w) = runOn mounts (runOn mounts st0.lower acts) w := by unfold runOn; rw [List.foldl_append]
    refine ⟨h1, fun p => ?_, dev, fun q n hg => ?_⟩
    · rw [hsplit]
      have hsw := runOn_same (mounts := mounts) w hs
      have h2' : Spec.SameHost (accept env (runIn mounts st w)).state.lower (runOn mounts st.lower w) := h2
      refine ⟨(h2' p).1.trans (hsw p).1, fun n k ha hb => ?_⟩
      rcases hsw.cases p with ⟨g1, g2⟩ | ⟨n', k', g1, g2, g3⟩
      · rw [hb] at g2; cases g2
      · rw [hb] at g2; cases g2
        exact sameNode_trans ((h2' p).2 n n' ha g1) g3
    · obtain ⟨hm, hh⟩ := hist_run hn hr.inside
      have hpl := hist_plain hm hr.names hh (by rintro p ⟨a, ha, rfl⟩; exact hr.way a ha)
      have hdevs := devs_run hm w (hist_new hn (fun _ => True)).2 hd (fun a ha => ⟨hr.inside a ha, trivial⟩)
      refine hdevs q n ?_
      classical
      rw [C06_storage_after env _ hpl.wf hr.ok] at hg
      split at hg
      · cases hg
      · exact hg
  | @rejected acts st env w _ hr ih =>
    obtain ⟨hn, hs, hd⟩ := ih
    obtain ⟨_, h2, h3, h4⟩ := C109_new_partial env mounts st w hn hd hr.inside hr.names hr.way hr.all
    exact ⟨h3, by rw [h2]; exact hs, h4⟩

/-! ### Refutations -/

/-- **C109 refuted** for moved directories (`mv d e`): rejecting everything succeeds, but removes only the new name; the mark that `/d` is deleted stays.  The sandbox then sees the directory under neither
name, status lists the removal of `/d`, and a later accept deletes it with everything in it on the host. -/
theorem C109_refuted_moved : exMoveDir.lower.WF ∧ exMoveDir.upper.WF ∧ Spec.OneDevice exMoveDir.upper ∧ Spec.AllSelected exViewEnv exMoveDir ∧ (reject exViewEnv exMoveDir).2 = none ∧
    (exMoveDir.lower.get [str "d", str "x"]).map (·.kind) = some (.reg (str "precious")) ∧ (Spec.view exMoveDir (str "F4") [] [str "e", str "x"]).map (·.kind) = some (.reg (str "precious")) ∧
    Spec.view (reject exViewEnv exMoveDir).1 (str "F4") [] [str "d", str "x"] = none ∧ Spec.view (reject exViewEnv exMoveDir).1 (str "F4") [] [str "e", str "x"] = none ∧
    (changes (exAgain exViewEnv) (reject exViewEnv exMoveDir).1).map (fun e => (e.op, e.dest)) = [(.remove, [str "d"]), (.remove, [str "d", str "x"])] ∧
    (accept (exAgain exViewEnv) (reject exViewEnv exMoveDir).1).error = none ∧ (accept (exAgain exViewEnv) (reject exViewEnv exMoveDir).1).state.lower.get [str "d", str "x"] = none := by
  refine ⟨by decide +kernel, by decide +kernel, oneDevice_of_check 0 (by decide +kernel), ?_, by decide +kernel, by decide +kernel, by decide +kernel, by decide +kernel, by decide +kernel,
    by decide +kernel, by decide +kernel, by decide +kernel⟩
  have : selected exViewEnv exMoveDir = changes exViewEnv exMoveDir := by decide +kernel
  intro e he
  rw [this]
  exact he

/-- **C109 refuted** for files deleted both in the sandbox and on the host: the mark stays in the storage when everything is rejected (status does not show it); a file that is created on the host under
this name afterwards is invisible in the sandbox and deleted by the next accept. -/
theorem C109_refuted_deleted_twice : Spec.PlainStorage exViewEnv exTwice ∧ Spec.AllSelected exViewEnv exTwice ∧ (reject exViewEnv exTwice).2 = none ∧
    changes (exAgain exViewEnv) (reject exViewEnv exTwice).1 = [] ∧
    ∃ st, st.upper = (reject exViewEnv exTwice).1.upper ∧ st.lower = (reject exViewEnv exTwice).1.lower.set [str "g"] { kind := .reg (str "new") } ∧
      Spec.view st (str "F4") [] [str "g"] = none ∧ (changes (exAgain exViewEnv) st).map (fun e => (e.op, e.dest)) = [(.remove, [str "g"])] ∧
      (accept (exAgain exViewEnv) st).error = none ∧ (accept (exAgain exViewEnv) st).state.lower.get [str "g"] = none := by
  refine ⟨plainStorage_of_check (by decide +kernel) (by decide +kernel), ?_, by decide +kernel, by decide +kernel,
    ⟨(reject exViewEnv exTwice).1.lower.set [str "g"] { kind := .reg (str "new") }, (reject exViewEnv exTwice).1.upper⟩, rfl, rfl, by decide +kernel, by decide +kernel, by decide +kernel, by decide +kernel⟩
  have : selected exViewEnv exTwice = changes exViewEnv exTwice := by decide +kernel
  intro e he
  rw [this]
  exact he

/-- In the sandbox `d/f` was deleted and `d/g` written; then `d/f` was deleted on the host, too. -/
def exStuck : State := ⟨[([], { kind := .dir }), ([str "d"], { kind := .dir })],
  [([], { kind := .dir }), ([str "F4"], { kind := .dir }), ([str "F4", str "d"], { kind := .dir }), ([str "F4", str "d", str "f"], { kind := .chr 0 }),
   ([str "F4", str "d", str "g"], { kind := .reg (str "g") })]⟩

/-- **C109 refuted** for such a file in a directory: rejecting everything fails, because the directory in the storage is not empty, now and every time it is tried again; the directory stays listed. -/
theorem C109_refuted_stuck : Spec.PlainStorage exViewEnv exStuck ∧ Spec.AllSelected exViewEnv exStuck ∧ (reject exViewEnv exStuck).2 = some .ENOTEMPTY ∧
    (changes exViewEnv (reject exViewEnv exStuck).1).map (·.dest) = [[str "d"]] ∧ (reject exViewEnv (reject exViewEnv exStuck).1).2 = some .ENOTEMPTY ∧
    (reject exViewEnv (reject exViewEnv exStuck).1).1 = (reject exViewEnv exStuck).1 := by
  refine ⟨plainStorage_of_check (by decide +kernel) (by decide +kernel), ?_, by decide +kernel, by decide +kernel, by decide +kernel, by decide +kernel⟩
  have : selected exViewEnv exStuck = changes exViewEnv exStuck := by decide +kernel
  intro e he
  rw [this]
  exact he

/-! ### Concrete cases -/

/-- The state of C106; only `/f` is rejected. -/
def exOnlyF : Env := { exViewEnv with glob := fun _ s => s == str "/f" }

/-- `/f` is the host's again, what is in `/d` is as before. -/
example : exDuring.lower.WF ∧ Spec.PlainStorage exOnlyF exDuring ∧ Spec.MountAt exOnlyF exDuring (str "F4") [] ∧ (selected exOnlyF exDuring).map (·.dest) = [[str "f"]] ∧
    (∀ e ∈ selected exOnlyF exDuring, ¬ e.dest <+: [] ++ [str "d", str "g"]) ∧
    (∀ e ∈ changes { exOnlyF with includeIgnored := true } exDuring, e.dest <+: [] ++ [str "f"] → e ∈ selected exOnlyF exDuring) ∧ (reject exOnlyF exDuring).2 = none ∧
    Spec.view exDuring (str "F4") [] [str "f"] = some { kind := .reg (str "new") } ∧ Spec.view (reject exOnlyF exDuring).1 (str "F4") [] [str "f"] = some { kind := .reg (str "f") } ∧
    Spec.view (reject exOnlyF exDuring).1 (str "F4") [] [str "d", str "g"] = some { kind := .reg (str "y"), uid := 7 } ∧ Spec.view (reject exOnlyF exDuring).1 (str "F4") [] [str "d", str "x"] = none :=
  ⟨exDuring_ordinary.wf, plainStorage_of_check (by decide +kernel) (by decide +kernel), ⟨by decide +kernel, by decide +kernel⟩, by decide +kernel, by decide +kernel, by decide +kernel, by decide +kernel,
    by decide +kernel, by decide +kernel, by decide +kernel, by decide +kernel⟩

/-- Host with `/d/x`; in the sandbox: `rm -r d; mkdir d; echo new > d/x`. -/
def exRenewed : State := ⟨[([], { kind := .dir }), ([str "d"], { kind := .dir }), ([str "d", str "x"], { kind := .reg (str "old") })],
  [([], { kind := .dir }), ([str "F4"], { kind := .dir }), ([str "F4", str "d"], { kind := .dir, opq := true }), ([str "F4", str "d", str "x"], { kind := .reg (str "new") })]⟩

/-- While it is rejected, `d/x` is not there for a moment. -/
example : Spec.PlainStorage exViewEnv exRenewed ∧ [0, 1, 2, 3, 4].map (fun k => (Spec.view (rejectUpTo exViewEnv exRenewed k) (str "F4") [] [str "d", str "x"]).map (·.kind)) =
    [some (.reg (str "new")), some (.reg (str "new")), none, some (.reg (str "old")), some (.reg (str "old"))] :=
  ⟨plainStorage_of_check (by decide +kernel) (by decide +kernel), by decide +kernel⟩

theorem exRound0_undo : Spec.UndoOk exViewEnv exRoundMounts exRound0 exRoundActs := ⟨exRound0_ok.inside, exRound0_ok.names, exRound0_ok.way, exRound0_ok.all⟩

/-- Rejected first, then done again and accepted. -/
example : Spec.OneDevice exRound0.upper ∧ Spec.Uses exRoundMounts exRound0 ([] ++ exRoundActs) exRound1 := by
  refine ⟨oneDevice_of_check 0 (by decide +kernel), ?_⟩
  have h1 : (accept exViewEnv (runIn exRoundMounts exRound0 exRoundActs)).state = exRound1 := by decide +kernel
  have h0 : (reject exViewEnv (runIn exRoundMounts exRound0 exRoundActs)).1 = exRound0 := by decide +kernel
  have h2 : Spec.Uses exRoundMounts exRound0 [] exRound0 := h0 ▸ .rejected exViewEnv exRoundActs .start exRound0_undo
  exact h1 ▸ .accepted exViewEnv exRoundActs h2 exRound0_ok

end SB
