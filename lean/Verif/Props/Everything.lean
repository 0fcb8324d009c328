import Verif.Props.Feasible
import Verif.Props.SelectDir

/-!
# C85: accepting everything succeeds
-/

namespace SB

open scoped List

/-- Everything stored in the sandbox can be put on the host, and everything it hides can be deleted there:
* what is stored is files, directories, links and whiteouts;
* what it hides on the host is files, links and directories that are not mount points;
* where a stored node that hides something lies below another one, the host has nothing, or a plain entry that a stored plain entry replaces (otherwise it would be listed twice for
  removal, `C08_refuted_duplicate`);
* a stored directory is in a place where the host has nothing, a directory, or something it or a stored node above it hides. -/
structure Spec.AcceptReady (env : Env) (st : State) : Prop where
  stored : ∀ m mp sub n, env.decode m = some mp → sub ≠ [] → st.upper.get (m :: sub) = some n → Spec.isWhiteout n = false →
    Spec.ftype n.kind = .file ∨ Spec.ftype n.kind = .directory ∨ Spec.ftype n.kind = .symlink
  hidden : ∀ m mp sub n q k, env.decode m = some mp → sub ≠ [] → st.upper.get (m :: sub) = some n → Spec.Hiding n → mp ++ sub <+: q → st.lower.get q = some k →
    (Spec.ftype k.kind = .file ∨ Spec.ftype k.kind = .directory ∨ Spec.ftype k.kind = .symlink) ∧
    (Spec.ftype k.kind = .directory → ∀ k', st.lower.get q.dropLast = some k' → k'.dev = k.dev)
  once : ∀ m mp sub n m' mp' sub' n' k, env.decode m = some mp → sub ≠ [] → st.upper.get (m :: sub) = some n → Spec.Hiding n →
    env.decode m' = some mp' → sub' ≠ [] → st.upper.get (m' :: sub') = some n' → Spec.Hiding n' → Below (mp ++ sub) (mp' ++ sub') → st.lower.get (mp' ++ sub') = some k →
    Spec.isWhiteout n' = false ∧ n'.opq = false ∧ Spec.ftype k.kind ≠ .directory ∧ Spec.ftype k.kind ≠ .symlink
  dirs : ∀ m mp sub n k, env.decode m = some mp → sub ≠ [] → st.upper.get (m :: sub) = some n → Spec.ftype n.kind = .directory → st.lower.get (mp ++ sub) = some k →
    Spec.ftype k.kind = .directory ∨ (n.opq = true ∧ st.lower.pexists (mp ++ sub) = true) ∨
    ∃ sub0 n0, sub0 ≠ [] ∧ Below sub0 sub ∧ st.upper.get (m :: sub0) = some n0 ∧ Spec.Hiding n0

section
variable {env : Env} {st : State}

/-- A host path whose own stored node asks for its removal is removed. -/
theorem self_removes (hw : st.lower.WF) (hp : Spec.PlainStorage env st) (hall : Spec.AllSelected env st) {m : Name} {mp sub : Path} {n k : Node} (hdec : env.decode m = some mp)
    (hne : sub ≠ []) (hg : st.upper.get (m :: sub) = some n) (hq : st.lower.get (mp ++ sub) = some k) (hex : st.lower.pexists (mp ++ sub) = true)
    (hcond : n.opq = true ∨ n.isDir = false ∧ st.lower.pisDir (mp ++ sub) = true) : Spec.Removes (selected env st) (mp ++ sub) := by
  have hlstat : details st.lower (mp ++ sub) = some ⟨mp ++ sub, k⟩ := by
    unfold details
    rw [FS.lstat_chain (hw.normal_of_get hq) (hw.chain hq), hq]
  obtain ⟨ue, hue, hi, hn⟩ := upperEntries_of_kept (kept_all (FS.mem_keys.2 ⟨n, hg⟩) hdec hne) hg
  have key : ∃ e ∈ removesOf st (renamedPaths (upperEntries { env with includeIgnored := true } st)) ue, e.op = .remove ∧ e.source = some ⟨mp ++ sub, k⟩ := by
    have hsp : ue.sourcePath = some (mp ++ sub) := by
      rw [hi.source, plain_source hp hg]
      simp [ifExists, hex]
    have hc : (ue.node.opq || ue.node.isRemoved || (!ue.node.isDir && st.lower.pisDir (mp ++ sub))) = true := by
      rw [hn]
      rcases hcond with h | ⟨h1, h2⟩
      · simp [h]
      · simp [h1, h2]
    unfold removesOf
    rw [hsp, plain_renamed hp]
    simp only
    rw [if_pos hc, if_neg List.not_mem_nil]
    by_cases hd : st.lower.pisDir (mp ++ sub) = true
    · rw [if_pos hd]
      refine ⟨_, List.mem_map.2 ⟨mp ++ sub, ?_, rfl⟩, rfl, hlstat⟩
      have hst := hex
      unfold FS.pexists FS.stat at hst
      unfold FS.walkDir
      cases hrp : st.lower.realpath (mp ++ sub) with
      | error e => rw [hrp] at hst; cases hst
      | ok c =>
        rw [hrp] at hst
        simp only at hst ⊢
        cases hgc : st.lower.get c with
        | none => rw [hgc] at hst; cases hst
        | some x =>
          refine List.mem_filterMap.2 ⟨(c, x), FS.mem_of_get hgc, ?_⟩
          simp
    · rw [if_neg hd]
      refine ⟨_, List.mem_singleton.2 rfl, rfl, ?_⟩
      simp only
      rw [hi.details, hsp, Option.bind_some, hlstat]
  obtain ⟨e, he, ho, hs⟩ := key
  exact ⟨e, hall e (mem_changes.2 ⟨ue, hue, Or.inl he⟩), ho, ⟨mp ++ sub, k⟩, hs, rfl⟩

/-- A stored path that is not a whiteout is created or modified by the selection. -/
theorem stored_isSet (hp : Spec.PlainStorage env st) (ha : Spec.AcceptReady env st) (hall : Spec.AllSelected env st) {m : Name} {mp sub : Path} {n : Node}
    (hdec : env.decode m = some mp) (hne : sub ≠ []) (hg : st.upper.get (m :: sub) = some n) (hw : Spec.isWhiteout n = false) :
    ∃ e ∈ selected env st, Spec.IsSet e ∧ e.dest = mp ++ sub ∧ e.staged = some ⟨m :: sub, n⟩ := by
  obtain ⟨ue, hue, hi, hn⟩ := upperEntries_of_kept (kept_all (FS.mem_keys.2 ⟨n, hg⟩) hdec hne) hg
  have hrm : ue.node.isRemoved = false := by
    cases hx : ue.node.isRemoved with
    | false => rfl
    | true => rw [hn, isRemoved_iff_whiteout hp hg, hw] at hx; cases hx
  obtain ⟨e, he⟩ := setsOf_singleton (st := st) hrm
  have hmem : e ∈ setsOf st ue := by rw [he]; simp
  have hsel := hall e (mem_changes.2 ⟨ue, hue, Or.inr hmem⟩)
  obtain ⟨_, h2, h3, _, _, hx⟩ := mem_setsOf hmem
  refine ⟨e, hsel, ?_, h2.trans hi.lowerPath, by rw [h3, hi.upperPath, hn]⟩
  have hr := hp.noRedirects _ _ hi.node
  rcases hx with ⟨h1, _⟩ | ⟨h1, _⟩ | ⟨_, hx, _⟩ | ⟨_, _, hx⟩
  · rw [hr] at h1; cases h1
  · rw [hr] at h1; cases h1
  · rw [hn, supported_of_ftype (ha.stored m mp sub n hdec hne hg hw)] at hx; cases hx
  · exact ⟨_, hx⟩

/-- Nothing that exists is listed twice for removal. -/
theorem removals_once (ho : Spec.Ordinary env st) (hp : Spec.PlainStorage env st) (ha : Spec.AcceptReady env st) :
    (changes env st).Pairwise (fun e e' => (∃ n, st.lower.get e.dest = some n) → e.op = .remove → e'.op = .remove → e.dest ≠ e'.dest) := by
  have key : ∀ ue ∈ upperEntries env st, ∀ e ∈ removesOf st (renamedPaths (upperEntries env st)) ue, (∃ n, st.lower.get e.dest = some n) → ∃ m mp sub, IsUpper env st ue m mp sub ∧
      Spec.Hiding ue.node ∧ mp ++ sub <+: e.dest ∧ ∃ n, st.lower.get (mp ++ sub) = some n ∧
        (ue.node.opq = true ∨ Spec.isWhiteout ue.node = true ∨ Spec.ftype n.kind = .directory ∨ Spec.ftype n.kind = .symlink) := by
    rintro ue hue e he ⟨x, hx⟩
    obtain ⟨m, mp, sub, _, hi⟩ := mem_upperEntries hue
    obtain ⟨sp, hsp, _, hcond, _, h, _⟩ := mem_removesOf he
    have hspe : sp = mp ++ sub := by
      rw [hi.source, plain_source hp hi.node] at hsp
      unfold ifExists at hsp
      split at hsp
      · cases hsp; rfl
      · cases hsp
    subst hspe
    have hpre : mp ++ sub <+: e.dest := by
      rcases h with ⟨_, hw, _⟩ | ⟨_, hde, _⟩
      · exact mem_walkDir_prefix hw
      · rw [hde]
    refine ⟨m, mp, sub, hi, ?_, hpre, ?_⟩
    · rcases hcond with hc | hc | ⟨hc, _⟩
      · exact Or.inr (Or.inl hc)
      · exact Or.inl ((isRemoved_iff_whiteout hp hi.node).1 hc)
      · refine Or.inr (Or.inr (fun hx => ?_))
        rw [isDir_of_ftype hx] at hc; cases hc
    · obtain ⟨n, hg⟩ : ∃ n, st.lower.get (mp ++ sub) = some n := by
        by_cases hse : mp ++ sub = e.dest
        · exact ⟨x, by rw [hse]; exact hx⟩
        · obtain ⟨n, hn, _⟩ := FS.isDirAt_iff.1 (ho.wf.ancestor hx (below_iff.2 ⟨hpre, hse⟩))
          exact ⟨n, hn⟩
      refine ⟨n, hg, ?_⟩
      rcases hcond with hc | hc | ⟨_, hd⟩
      · exact Or.inl hc
      · exact Or.inr (Or.inl ((isRemoved_iff_whiteout hp hi.node).1 hc))
      · right; right
        by_cases hl : Spec.ftype n.kind = .symlink
        · exact Or.inr hl
        · left
          unfold FS.pisDir at hd
          rw [FS.stat_chain (ho.wf.normal_of_get hg) ho.wf.root (ho.wf.chain hg) (fun x hx => by rw [hg] at hx; cases hx; exact isLnk_of_ftype hl), hg] at hd
          exact ftype_dir_of hd
  unfold changes
  simp only
  rw [List.pairwise_flatMap]
  refine ⟨fun ue hue => ?_, ?_⟩
  · rw [List.pairwise_append]
    refine ⟨?_, ?_, ?_⟩
    · unfold removesOf
      split
      · exact List.Pairwise.nil
      · next sp _ =>
        split
        · split
          · exact List.Pairwise.nil
          · split
            · rw [List.pairwise_map]
              exact (walkDir_nodup ho.wf sp).imp (fun h _ _ _ => h)
            · exact List.pairwise_singleton _ _
        · exact List.Pairwise.nil
    · by_cases hr : ue.node.isRemoved = true
      · unfold setsOf; rw [if_pos hr]; exact List.Pairwise.nil
      · obtain ⟨e, he⟩ := setsOf_singleton (st := st) (by simpa using hr : ue.node.isRemoved = false)
        rw [he]; exact List.pairwise_singleton _ _
    · intro e _ e' he' _ _ ho
      obtain ⟨_, _, _, _, _, h⟩ := mem_setsOf he'
      rw [ho] at h; simp at h
  · have hn : (upperEntries env st).Pairwise (fun a b => a.upperPath ≠ b.upperPath) := by
      have := (upperEntries_paths env st).nodup hp.wf.nodup
      rw [List.Nodup, List.pairwise_map] at this
      exact this
    refine hn.imp_of_mem ?_
    intro a b ha' hb hab e he e' he' hex hop hop' hd
    have h1 : e ∈ removesOf st (renamedPaths (upperEntries env st)) a := by
      rcases List.mem_append.1 he with h | h
      · exact h
      · obtain ⟨_, _, _, _, _, h⟩ := mem_setsOf h; rw [hop] at h; simp at h
    have h2 : e' ∈ removesOf st (renamedPaths (upperEntries env st)) b := by
      rcases List.mem_append.1 he' with h | h
      · exact h
      · obtain ⟨_, _, _, _, _, h⟩ := mem_setsOf h; rw [hop'] at h; simp at h
    obtain ⟨m, mp, sub, hi, hh, hpre, n, hgn, hcn⟩ := key a ha' e h1 hex
    obtain ⟨m', mp', sub', hi', hh', hpre', n', hgn', hcn'⟩ := key b hb e' h2 (by rw [← hd]; exact hex)
    have fin : ∀ {a b : UpperEntry} {m m' : Name} {mp sub mp' sub' : Path} {k : Node}, IsUpper env st a m mp sub → IsUpper env st b m' mp' sub' →
        Spec.Hiding a.node → Spec.Hiding b.node → a.upperPath ≠ b.upperPath → st.lower.get (mp' ++ sub') = some k →
        (b.node.opq = true ∨ Spec.isWhiteout b.node = true ∨ Spec.ftype k.kind = .directory ∨ Spec.ftype k.kind = .symlink) → ¬ mp ++ sub <+: mp' ++ sub' := by
      intro a b m m' mp sub mp' sub' k hi hi' hha hhb hab hgk hck hpp
      by_cases he : mp ++ sub = mp' ++ sub'
      · have hm := ho.mounts m m' sub sub' mp mp' (FS.mem_keys.2 ⟨_, hi.node⟩) (FS.mem_keys.2 ⟨_, hi'.node⟩) hi.decode hi'.decode hi.sub_ne hi'.sub_ne he
        subst hm
        have hmp : mp = mp' := Option.some.inj (hi.decode.symm.trans hi'.decode)
        subst hmp
        exact hab (by rw [hi.upperPath, hi'.upperPath, List.append_cancel_left he])
      · obtain ⟨q1, q2, q3, q4⟩ := ha.once m mp sub _ m' mp' sub' _ k hi.decode hi.sub_ne hi.node hha hi'.decode hi'.sub_ne hi'.node hhb (below_iff.2 ⟨hpp, he⟩) hgk
        rcases hck with h | h | h | h
        · rw [q2] at h; cases h
        · rw [q1] at h; cases h
        · exact q3 h
        · exact q4 h
    rw [hd] at hpre
    rcases prefix_total hpre hpre' with h | h
    · exact fin hi hi' hh hh' hab hgn' hcn' h
    · exact fin hi' hi hh' hh (Ne.symm hab) hgn hcn h

/-- The mount point of a stored mount is a directory of the host which the selection leaves alone. -/
theorem mount_kept (hp : Spec.PlainStorage env st) {m : Name} {mp : Path} (hm : [m] ∈ st.upper.keys) (hdec : env.decode m = some mp) :
    ¬ Spec.Removes (selected env st) mp ∧ ∀ e ∈ selected env st, Spec.IsSet e → e.dest ≠ mp := by
  refine ⟨fun h => ?_, fun e he hset hd => ?_⟩
  · obtain ⟨m', mp', sub', n', hdec', hne', hg', hh', hpre'⟩ := removes_hiding hp h
    by_cases hmm : m' = m
    · subst hmm
      rw [hdec] at hdec'; cases hdec'
      have := hpre'.length_le
      rw [List.length_append] at this
      exact hne' (List.length_eq_zero_iff.1 (by omega))
    · exact (hp.nested m mp m' mp' sub' n' hm hdec hmm hdec' ((List.prefix_append _ _).trans hpre') hne' hg').2 hh' hpre'
  · obtain ⟨m', mp', sub', n', hdec', hne', hg', _, hd', _⟩ := set_stored he hset
    rw [hd] at hd'
    by_cases hmm : m' = m
    · subst hmm
      rw [hdec] at hdec'; cases hdec'
      have := congrArg List.length hd'
      rw [List.length_append] at this
      exact hne' (List.length_eq_zero_iff.1 (by omega))
    · exact (hp.nested m mp m' mp' sub' n' hm hdec hmm hdec' (by rw [hd']; exact List.prefix_append _ _) hne' hg').1 (by rw [← hd'])

theorem everything_feasible (ho : Spec.Ordinary env st) (hp : Spec.PlainStorage env st) (ha : Spec.AcceptReady env st) (hall : Spec.AllSelected env st) :
    Spec.Feasible st.lower (selected env st) := by
  have hw := ho.wf
  refine ⟨fun e he => ?_, fun q q' hq hq' hpre => ?_, fun q n hq hn => ?_, fun q n k hq hn hd hk => ?_, ?_, fun e he hset => ?_, fun e he hset s k hs hk hrm => ?_⟩
  · cases hop : e.op with
    | remove => exact Or.inl rfl
    | rename =>
      exfalso
      obtain ⟨ue, hue, h | h⟩ := mem_changes.1 (mem_selected he)
      · obtain ⟨_, _, _, _, h, _⟩ := mem_removesOf h
        rw [hop] at h; cases h
      · obtain ⟨m, mp, sub, _, hi⟩ := mem_upperEntries hue
        obtain ⟨_, _, _, _, _, hx⟩ := mem_setsOf h
        have hr := hp.noRedirects _ _ hi.node
        rcases hx with ⟨h1, _⟩ | ⟨h1, _⟩ | ⟨_, _, hx⟩ | ⟨_, _, hx⟩
        · rw [hr] at h1; cases h1
        · rw [hr] at h1; cases h1
        · rw [hop] at hx; cases hx
        · rw [hop] at hx; cases hx
    | set t => exact Or.inr ⟨t, hop⟩
    | error x =>
      exfalso
      obtain ⟨ue, hue, h | h⟩ := mem_changes.1 (mem_selected he)
      · obtain ⟨_, _, _, _, h, _⟩ := mem_removesOf h
        rw [hop] at h; cases h
      · obtain ⟨m, mp, sub, _, hi⟩ := mem_upperEntries hue
        obtain ⟨hrm, _, _, _, _, hx⟩ := mem_setsOf h
        have hr := hp.noRedirects _ _ hi.node
        have hwn : Spec.isWhiteout ue.node = false := by
          cases hwx : Spec.isWhiteout ue.node with
          | false => rfl
          | true => rw [(isRemoved_iff_whiteout hp hi.node).2 hwx] at hrm; cases hrm
        rcases hx with ⟨h1, _⟩ | ⟨h1, _⟩ | ⟨_, hx, _⟩ | ⟨_, _, hx⟩
        · rw [hr] at h1; cases h1
        · rw [hr] at h1; cases h1
        · rw [supported_of_ftype (ha.stored m mp sub _ hi.decode hi.sub_ne hi.node hwn)] at hx; cases hx
        · rw [hop] at hx; cases hx
  · obtain ⟨m, mp, sub, n, hdec, hne, hg, hh, hpre'⟩ := removes_hiding hp hq
    obtain ⟨k, hk⟩ := FS.mem_keys.1 hq'
    by_cases hself : q' = mp ++ sub
    · have : q = q' := by
        refine hpre.eq_of_length_le ?_
        rw [hself]; exact hpre'.length_le
      rw [← this]; exact hq
    · exact hiding_removes hw hp hall hdec hne hg hh hk (hpre'.trans hpre) (fun h => absurd h hself)
  · obtain ⟨m, mp, sub, n', hdec, hne, hg, hh, hpre'⟩ := removes_hiding hp hq
    exact (ha.hidden m mp sub n' q n hdec hne hg hh hpre' hn).1
  · obtain ⟨m, mp, sub, n', hdec, hne, hg, hh, hpre'⟩ := removes_hiding hp hq
    exact (ha.hidden m mp sub n' q n hdec hne hg hh hpre' hn).2 hd k hk
  · have := (removals_once ho hp ha).sublist (show (selected env st).Sublist (changes env st) from List.filter_sublist)
    refine this.imp_of_mem (fun {a b} hma _ h hop hop' => ?_)
    obtain ⟨n, _, hg, _⟩ := remove_entry ho hma hop
    exact h ⟨n, hg⟩ hop hop'
  · obtain ⟨m, mp, sub, n, hdec, hne, hg, _, hd, _⟩ := set_stored he hset
    rw [hd, List.dropLast_append_of_ne_nil hne]
    have hroot := stored_root hp hg
    by_cases hs1 : sub.dropLast = []
    · right
      rw [hs1, List.append_nil]
      exact ⟨(hp.mounts m mp hroot hdec).1, mount_kept hp hroot hdec⟩
    · left
      obtain ⟨n', hn', hd'⟩ := FS.isDirAt_iff.1 (hp.wf.ancestor hg (q := m :: sub.dropLast) (by
        obtain ⟨r, hr, he⟩ := dropLast_below hne
        exact ⟨r, hr, by rw [List.cons_append, ← he]⟩))
      have hft := ftype_dir_of hd'
      have hwn : Spec.isWhiteout n' = false := by
        have h1 : n'.whiteout = false := by
          cases hx : n'.whiteout with
          | false => rfl
          | true => rw [hp.whiteouts _ _ hn' hx] at hft; cases hft
        unfold Spec.isWhiteout
        cases hk : n'.kind <;> simp_all [Spec.ftype]
      obtain ⟨e', he', hset', hd2, hs2⟩ := stored_isSet hp ha hall hdec hs1 hn' hwn
      exact ⟨e', he', hset', hd2, _, hs2, hft⟩
  · obtain ⟨m, mp, sub, n, hdec, hne, hg, hrmn, hd, hst⟩ := set_stored he hset
    rw [hst] at hs; cases hs
    rw [hd] at hk hrm
    simp only
    have hNk := hw.normal_of_get hk
    constructor
    · intro hkd
      by_contra hnd
      refine hrm (self_removes hw hp hall hdec hne hg hk ?_ (Or.inr ⟨?_, ?_⟩))
      all_goals have hst' : st.lower.stat (mp ++ sub) = .ok k := by
                  rw [FS.stat_chain hNk hw.root (hw.chain hk) (fun x hx => by rw [hk] at hx; cases hx; exact isLnk_of_ftype (by rw [hkd]; decide)), hk]
      · unfold FS.pexists; rw [hst']
      · cases hx : n.isDir with
        | false => rfl
        | true => exact absurd (ftype_dir_of hx) hnd
      · unfold FS.pisDir; rw [hst']; exact isDir_of_ftype hkd
    · intro hnd
      rcases ha.dirs m mp sub n k hdec hne hg hnd hk with h | ⟨h1, h2⟩ | ⟨sub0, n0, hne0, hb, hg0, hh0⟩
      · exact h
      · exact absurd (self_removes hw hp hall hdec hne hg hk h2 (Or.inl h1)) hrm
      · refine absurd (hiding_removes hw hp hall hdec hne0 hg0 hh0 hk ?_ (fun h => ?_)) hrm
        · exact (List.prefix_append_right_inj mp).2 hb.prefix
        · exact absurd (List.append_cancel_left h) (fun h => hb.ne h.symm)

end

/-- **C85 (partial)**: accepting everything a sandbox contains succeeds, if what is stored can be put on the host and what it hides can be deleted there.
Missing: renamed directories, symbolic links of the host in the way. -/
theorem C85_everything_partial (env : Env) (st : State) (ho : Spec.Ordinary env st) (hp : Spec.PlainStorage env st) (ha : Spec.AcceptReady env st)
    (hall : Spec.AllSelected env st) (hd : Spec.OneDevice st.upper) : (accept env st).error = none :=
  feasible_ok ho hp.wf hd (everything_feasible ho hp ha hall)

instance (n : Node) : Decidable (Spec.Hiding n) := by unfold Spec.Hiding; infer_instance

/-- The host path a stored entry stands for. -/
def hostPlace (env : Env) : Path → Option Path
  | [] => none
  | m :: sub => if sub = [] then none else (env.decode m).map (· ++ sub)

/-- `Spec.AcceptReady`, checked on the stored entries and those of the host. -/
theorem acceptable_of_check {env : Env} {st : State}
    (h1 : ∀ e ∈ st.upper, Spec.isWhiteout e.2 = true ∨ Spec.ftype e.2.kind = .file ∨ Spec.ftype e.2.kind = .directory ∨ Spec.ftype e.2.kind = .symlink)
    (h2 : ∀ e ∈ st.upper, Spec.Hiding e.2 → ∀ k ∈ st.lower, ∀ p ∈ hostPlace env e.1, p <+: k.1 →
      (Spec.ftype k.2.kind = .file ∨ Spec.ftype k.2.kind = .directory ∨ Spec.ftype k.2.kind = .symlink) ∧
      (Spec.ftype k.2.kind = .directory → ∀ k' ∈ st.lower.get k.1.dropLast, k'.dev = k.2.dev))
    (h3 : ∀ e ∈ st.upper, Spec.Hiding e.2 → ∀ e' ∈ st.upper, Spec.Hiding e'.2 → ∀ p ∈ hostPlace env e.1, ∀ p' ∈ hostPlace env e'.1, p <+: p' → p = p' ∨
      ∀ k ∈ st.lower.get p', Spec.isWhiteout e'.2 = false ∧ e'.2.opq = false ∧ Spec.ftype k.kind ≠ .directory ∧ Spec.ftype k.kind ≠ .symlink)
    (h4 : ∀ e ∈ st.upper, Spec.ftype e.2.kind = .directory → ∀ p ∈ hostPlace env e.1, ∀ k ∈ st.lower.get p, Spec.ftype k.kind = .directory ∨ (e.2.opq = true ∧ st.lower.pexists p = true) ∨
      ∃ e0 ∈ st.upper, 2 ≤ e0.1.length ∧ e0.1 <+: e.1 ∧ e0.1 ≠ e.1 ∧ Spec.Hiding e0.2) (hw : st.upper.WF) : Spec.AcceptReady env st := by
  have hpl : ∀ {m mp sub}, env.decode m = some mp → sub ≠ [] → hostPlace env (m :: sub) = some (mp ++ sub) := by
    intro m mp sub hd hne
    simp [hostPlace, hd, hne]
  refine ⟨fun m mp sub n hd hne hg hwh => ?_, fun m mp sub n q k hd hne hg hn hpre hk => ?_, fun m mp sub n m' mp' sub' n' k hd hne hg hn hd' hne' hg' hn' hb hk => ?_,
    fun m mp sub n k hd hne hg hf hk => ?_⟩
  · rcases h1 _ (FS.mem_of_get hg) with h | h
    · rw [hwh] at h; cases h
    · exact h
  · obtain ⟨a, b⟩ := h2 _ (FS.mem_of_get hg) hn _ (FS.mem_of_get hk) _ (hpl hd hne) hpre
    exact ⟨a, fun hdir k' hk' => b hdir k' hk'⟩
  · rcases h3 _ (FS.mem_of_get hg) hn _ (FS.mem_of_get hg') hn' _ (hpl hd hne) _ (hpl hd' hne') hb.prefix with h | h
    · exact absurd h hb.ne
    · exact h k hk
  · rcases h4 _ (FS.mem_of_get hg) hf _ (hpl hd hne) k hk with h | h | ⟨⟨q0, n0⟩, hm, hlen, hpre, hq, hhid⟩
    · exact Or.inl h
    · exact Or.inr (Or.inl h)
    · cases q0 with
      | nil => simp at hlen
      | cons m0 sub0 =>
        obtain ⟨rfl, hpre2⟩ := List.cons_prefix_cons.1 hpre
        refine Or.inr (Or.inr ⟨sub0, n0, ?_, below_iff.2 ⟨hpre2, fun e => hq (by rw [e])⟩, FS.get_of_mem hw.nodup hm, hhid⟩)
        rintro rfl
        simp at hlen

theorem oneDevice_of_check {fs : FS} (d : Nat) (h : ∀ e ∈ fs, e.2.dev = d) : Spec.OneDevice fs := ⟨d, fun _ _ hg => h _ (FS.mem_of_get hg)⟩

set_option synthInstance.maxSize 1000 in
set_option synthInstance.maxHeartbeats 200000 in
/-- Everything the sandbox of `exView` contains can be accepted. -/
theorem exView_acceptable : Spec.AcceptReady exViewEnv exView :=
  acceptable_of_check (by decide +kernel) (by decide +kernel) (by decide +kernel) (by decide +kernel) (by decide +kernel)
theorem exView_all : Spec.AllSelected exViewEnv exView := by
  have : selected exViewEnv exView = changes exViewEnv exView := by decide +kernel
  intro e he
  rw [this]
  exact he
-- a file is modified, one removed, a directory replaced by an opaque one, another by a file, a link removed, in two mounts: the conditions of both theorems hold
example : (accept exViewEnv exView).error = none :=
  C85_everything_partial _ _ exView_ordinary exView_plain exView_acceptable exView_all (oneDevice_of_check 0 (by decide +kernel))
example : Spec.Feasible exView.lower (selected exViewEnv exView) := everything_feasible exView_ordinary exView_plain exView_acceptable exView_all
example : (∃ e ∈ selected exViewEnv exView, e.op = .remove) ∧ (∃ e ∈ selected exViewEnv exView, e.op = .set .create) ∧ (∃ e ∈ selected exViewEnv exView, e.op = .set .modify) := by decide +kernel

/-- **C85, a directory by its name**: if a directory was created in the sandbox with something in it, and accept is given its name, accept fails: the name stands for what is below the
directory, not for the directory itself, so there is no directory to put it into. -/
theorem C85_new_directory {env : Env} {st : State} (hg : GlobLaws env.glob) (ho : Spec.Ordinary env st) (hnr : ∀ e ∈ changes env st, e.op ≠ .rename)
    {D : Path} {pat : Str} (hcwd : NormalPath env.cwd) (hpat : env.patterns = [pat]) (hneg : pat.head? ≠ some '!') (hD : Spec.Denotes env.cwd pat D) (hlit : ∀ n ∈ D, Literal n)
    (hcs : ∀ e ∈ changes env st, NormalPath e.dest ∧ e.dest ≠ [])
    (hnew : st.lower.get D = none) {x : Name} (hin : ∃ e ∈ changes env st, Spec.IsSet e ∧ e.dest = D ++ [x]) : (accept env st).error ≠ none := by
  intro hok
  have hf := feasible_of_ok ho (fun e he => hnr e (mem_selected he)) hok
  obtain ⟨e, he, hset, hd⟩ := hin
  have hb : Below D e.dest := ⟨[x], by simp, hd⟩
  have hsel : ∀ e', e' ∈ selected env st ↔ e' ∈ changes env st ∧ Below D e'.dest := by
    intro e'
    have := C21_directory_pattern hg hcwd hcs hneg hD hlit ⟨e, he, hb⟩ e'
    rw [← hpat] at this
    exact this
  have hdl : e.dest.dropLast = D := by rw [hd, List.dropLast_concat]
  rcases hf.parent e ((hsel e).2 ⟨he, hb⟩) hset with ⟨e', he', _, hd', _⟩ | ⟨⟨n, hn, _⟩, _⟩
  · have := ((hsel e').1 he').2
    rw [hd', hdl] at this
    exact not_below_self _ this
  · rw [hdl, hnew] at hn; cases hn

/-- In the sandbox: `chmod 700 d; rm -r d/x; mkdir n; touch n/f`. -/
def exFeas : State := ⟨exViewHost,
  [([], { kind := .dir }), ([str "F4"], { kind := .dir }), ([str "F4", str "d"], { kind := .dir, perm := 0o700 }), ([str "F4", str "d", str "x"], { kind := .chr 0 }),
   ([str "F4", str "n"], { kind := .dir }), ([str "F4", str "n", str "f"], { kind := .reg [] })]⟩
def exFeasEnv (pats : List Str) : Env := { exViewEnv with glob := globRef, patterns := pats }

-- everything can be accepted, as can the new directory with its content (the pattern `/n*` and the name), the content of the deleted directory alone, and nothing
example : ∀ pats ∈ [[str "/**"], [str "/n*", str "/n"], [str "/d/x"], [str "/q"]], (accept (exFeasEnv pats) exFeas).error = none := by decide +kernel
-- what cannot be carried out fails: a deleted directory without its content
example : (accept (exFeasEnv [str "/d/?"]) exFeas).error = some (.os .ENOTEMPTY) := by decide +kernel

/-- **C85 refuted** for a new directory: `sandbox accept n` after `mkdir n; touch n/f` fails. -/
theorem C85_refuted_new_directory : Spec.Ordinary (exFeasEnv [str "n"]) exFeas ∧ (changes (exFeasEnv [str "n"]) exFeas).map (fun e => (e.op, e.dest)) =
      [(.set .modify, [str "d"]), (.remove, [str "d", str "x"]), (.remove, [str "d", str "x", str "y"]), (.set .create, [str "n"]), (.set .create, [str "n", str "f"])] ∧
    (accept (exFeasEnv [str "n"]) exFeas).error = some (.os .ENOENT) ∧ (accept (exFeasEnv [str "n"]) exFeas).state.lower.get [str "n"] = none :=
  ⟨ordinary_of_check (fun _ => rfl) (fun _ => rfl) (by decide +kernel) (by decide +kernel) (by decide +kernel), by decide +kernel, by decide +kernel, by decide +kernel⟩
-- the conditions of `C85_new_directory` hold for it
example : (accept (exFeasEnv [str "n"]) exFeas).error ≠ none :=
  C85_new_directory (D := [str "n"]) (x := str "f") globRef_laws C85_refuted_new_directory.1 (by decide +kernel) (by decide +kernel) rfl (by decide +kernel)
    (.down (by decide) (.done _)) (by decide +kernel) (by decide +kernel) (by decide +kernel) (by
      have h : ∃ e ∈ changes (exFeasEnv [str "n"]) exFeas, e.op = .set .create ∧ e.dest = [str "n"] ++ [str "f"] := by decide +kernel
      obtain ⟨e, he, ho, hd⟩ := h
      exact ⟨e, he, ⟨_, ho⟩, hd⟩)

end SB
