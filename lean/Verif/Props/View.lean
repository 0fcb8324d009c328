import Verif.Lib.OverlayLemmas
import Verif.Props.AcceptKeeps
import Verif.Props.Origin

/-!
# C01: accepting everything reproduces the sandbox's view on the host
-/

namespace SB

/-- A stored node hides what the host has at and below its path: a whiteout, an opaque directory, or anything but a directory. -/
def Spec.Hiding (n : Node) : Prop := Spec.isWhiteout n = true ∨ n.opq = true ∨ Spec.ftype n.kind ≠ .directory

/-- A storage as overlayfs leaves it if no directory of the host was renamed: whiteouts are devices 0:0 or regular files with the whiteout attribute, other devices do
not resemble 0:0, no directory carries a redirect; every mount point is a directory; an outer mount has recorded nothing at or below the mount point of another mount and has
hidden nothing above it; no dangling link was deleted. -/
structure Spec.PlainStorage (env : Env) (st : State) : Prop where
  wf : st.upper.WF
  noRedirects : ∀ q n, st.upper.get q = some n → n.redirect = none
  whiteouts : ∀ q n, st.upper.get q = some n → n.whiteout = true → Spec.ftype n.kind = .file
  devices : ∀ q n r, st.upper.get q = some n → n.kind = .chr r → r % 65536 = 0 → r = 0
  mounts : ∀ m mp, [m] ∈ st.upper.keys → env.decode m = some mp →
    (∃ n, st.lower.get mp = some n ∧ Spec.ftype n.kind = .directory) ∧ ∃ n, st.upper.get [m] = some n ∧ Spec.ftype n.kind = .directory
  nested : ∀ m mp m' mp' sub n, [m] ∈ st.upper.keys → env.decode m = some mp → m' ≠ m → env.decode m' = some mp' → mp' <+: mp → sub ≠ [] →
    st.upper.get (m' :: sub) = some n → ¬ mp <+: mp' ++ sub ∧ (Spec.Hiding n → ¬ mp' ++ sub <+: mp)
  links : ∀ m mp sub n k, env.decode m = some mp → st.upper.get (m :: sub) = some n → Spec.isWhiteout n = true → st.lower.get (mp ++ sub) = some k →
    Spec.ftype k.kind = .symlink → st.lower.pexists (mp ++ sub) = true

/-- The mount stored in `m`, with mount point `mp`, is the one a process in the sandbox sees at host path `q`: `q` lies below `mp` and no other mount point is in between. -/
structure Spec.Seen (env : Env) (st : State) (m : Name) (mp q : Path) : Prop where
  stored : [m] ∈ st.upper.keys
  decode : env.decode m = some mp
  below : Below mp q
  deepest : ∀ m' mp', [m'] ∈ st.upper.keys → env.decode m' = some mp' → m' ≠ m → mp <+: mp' → ¬ mp' <+: q

/-- Every change of the sandbox, ignored or not, is selected. -/
def Spec.AllSelected (env : Env) (st : State) : Prop := ∀ e ∈ changes { env with includeIgnored := true } st, e ∈ selected env st

theorem kept_all {env : Env} {st : State} {m : Name} {mp sub : Path} (hs : m :: sub ∈ st.upper.keys) (hd : env.decode m = some mp) (hne : sub ≠ []) :
    (m, mp, sub) ∈ kept { env with includeIgnored := true } st := by
  unfold kept
  generalize st.upper.keys = ks at hs
  generalize ([] : IgnoreCache) = c
  induction ks generalizing c with
  | nil => cases hs
  | cons k ks ih =>
    cases k with
    | nil =>
      unfold keepLoop
      exact ih (by simpa using hs) c
    | cons m' sub' =>
      rcases List.mem_cons.1 hs with h | h
      · cases h
        unfold keepLoop
        rw [hd]
        simp [hne]
      · unfold keepLoop
        cases env.decode m' with
        | none => exact ih h c
        | some mp' =>
          simp only
          split
          · exact ih h c
          · exact List.mem_cons_of_mem _ (ih h c)

section
variable {env : Env} {st : State}

theorem isRemoved_iff_whiteout (hp : Spec.PlainStorage env st) {q : Path} {n : Node} (hg : st.upper.get q = some n) : n.isRemoved = true ↔ Spec.isWhiteout n = true := by
  unfold Node.isRemoved Spec.isWhiteout
  cases hk : n.kind with
  | chr r =>
    have h1 := hp.devices q n r hg hk
    have h2 : n.whiteout = false := by
      cases hw : n.whiteout with
      | false => rfl
      | true => have := hp.whiteouts q n hg hw; rw [hk] at this; cases this
    simp only [h2, Bool.or_false, beq_iff_eq, Kind.chr.injEq, Bool.and_eq_true]
    constructor
    · intro h; exact h1 (by omega)
    · rintro rfl; exact ⟨rfl, rfl⟩
  | _ => simp

theorem plain_source (hp : Spec.PlainStorage env st) {m : Name} {mp sub : Path} {n : Node} (hg : st.upper.get (m :: sub) = some n) :
    sourcePath st m mp sub = ifExists st.lower (mp ++ sub) :=
  sourcePath_plain hp.wf hg (fun q k _ hk => hp.noRedirects q k hk)

theorem plain_renamed (hp : Spec.PlainStorage env st) (env' : Env) : renamedPaths (upperEntries env' st) = [] := by
  unfold renamedPaths
  rw [List.filterMap_eq_nil_iff]
  intro ue hue
  obtain ⟨m, mp, sub, _, hi⟩ := mem_upperEntries hue
  rw [hp.noRedirects _ _ hi.node]
  rfl

theorem details_path {fs : FS} {p : Path} {s : Details} (h : details fs p = some s) : s.path = p ∧ fs.lstat p = .ok s.node := by
  unfold details at h
  split at h
  · cases h; exact ⟨rfl, by assumption⟩
  · cases h

/-- What a removal comes from. -/
theorem removes_hiding (hp : Spec.PlainStorage env st) {q : Path} (h : Spec.Removes (selected env st) q) :
    ∃ m mp sub n, env.decode m = some mp ∧ sub ≠ [] ∧ st.upper.get (m :: sub) = some n ∧ Spec.Hiding n ∧ mp ++ sub <+: q := by
  obtain ⟨e, he, ho, s, hs, rfl⟩ := h
  obtain ⟨ue, hue, h | h⟩ := mem_changes.1 (mem_selected he)
  · obtain ⟨m, mp, sub, _, hi⟩ := mem_upperEntries hue
    obtain ⟨sp, hsp, _, hc, _, hd, _⟩ := mem_removesOf h
    have hspe : sp = mp ++ sub := by
      rw [hi.source, plain_source hp hi.node] at hsp
      unfold ifExists at hsp
      split at hsp
      · cases hsp; rfl
      · cases hsp
    subst hspe
    refine ⟨m, mp, sub, ue.node, hi.decode, hi.sub_ne, hi.node, ?_, ?_⟩
    · rcases hc with hc | hc | ⟨hc, _⟩
      · exact Or.inr (Or.inl hc)
      · exact Or.inl ((isRemoved_iff_whiteout hp hi.node).1 hc)
      · refine Or.inr (Or.inr (fun hx => ?_))
        rw [isDir_of_ftype hx] at hc; cases hc
    · rcases hd with ⟨_, hw, hsrc, _⟩ | ⟨_, hde, hsrc, _⟩
      · rw [hsrc] at hs
        rw [(details_path hs).1]
        exact mem_walkDir_prefix hw
      · rw [hsrc, hi.details, hsp, Option.bind_some] at hs
        rw [(details_path hs).1]
  · obtain ⟨_, _, _, _, _, hx⟩ := mem_setsOf h
    rcases hx with ⟨_, _, hx⟩ | ⟨_, _, hx⟩ | ⟨_, _, hx⟩ | ⟨_, _, hx⟩ <;> rw [ho] at hx <;> cases hx

theorem no_renames (hp : Spec.PlainStorage env st) {s d : Path} : ¬ Spec.Renames (selected env st) s d := by
  rintro ⟨e, he, ho, _⟩
  obtain ⟨ue, hue, h | h⟩ := mem_changes.1 (mem_selected he)
  · obtain ⟨_, _, _, _, h, _⟩ := mem_removesOf h
    rw [ho] at h; cases h
  · obtain ⟨m, mp, sub, _, hi⟩ := mem_upperEntries hue
    obtain ⟨_, _, _, _, _, hx⟩ := mem_setsOf h
    have hr := hp.noRedirects _ _ hi.node
    rcases hx with ⟨h1, _⟩ | ⟨h1, _⟩ | ⟨_, _, hx⟩ | ⟨_, _, hx⟩
    · rw [hr] at h1; cases h1
    · rw [hr] at h1; cases h1
    · rw [ho] at hx; cases hx
    · rw [ho] at hx; cases hx

/-- A removal is recorded for everything on the host that a stored node hides. -/
theorem hiding_removes (hw : st.lower.WF) (hp : Spec.PlainStorage env st) (hall : Spec.AllSelected env st) {m : Name} {mp sub q : Path} {n k : Node} (hdec : env.decode m = some mp)
    (hne : sub ≠ []) (hg : st.upper.get (m :: sub) = some n) (hh : Spec.Hiding n) (hq : st.lower.get q = some k) (hpre : mp ++ sub <+: q)
    (hself : q = mp ++ sub → Spec.isWhiteout n = true) : Spec.Removes (selected env st) q := by
  have hlstat : details st.lower q = some ⟨q, k⟩ := by
    unfold details
    rw [FS.lstat_chain (hw.normal_of_get hq) (hw.chain hq), hq]
  obtain ⟨ue, hue, hi, hn⟩ := upperEntries_of_kept (kept_all (FS.mem_keys.2 ⟨n, hg⟩) hdec hne) hg
  have key : ∃ e ∈ removesOf st (renamedPaths (upperEntries { env with includeIgnored := true } st)) ue, e.op = .remove ∧ e.source = some ⟨q, k⟩ := by
    by_cases hself' : q = mp ++ sub
    · -- the path itself
      have hwn := hself hself'
      have hex : st.lower.pexists (mp ++ sub) = true := by
        by_cases hl : Spec.ftype k.kind = .symlink
        · exact hp.links m mp sub n k hdec hg hwn (hself' ▸ hq) hl
        · have hl' := isLnk_of_ftype hl
          unfold FS.pexists
          rw [← hself', FS.stat_chain (hw.normal_of_get hq) hw.root (hw.chain hq) (fun x hx => by rw [hq] at hx; cases hx; exact hl'), hq]
      have hsp : ue.sourcePath = some (mp ++ sub) := by
        rw [hi.source, plain_source hp hg]
        simp [ifExists, hex]
      have hrm : ue.node.isRemoved = true := by rw [hn]; exact (isRemoved_iff_whiteout hp hg).2 hwn
      unfold removesOf
      rw [hsp, plain_renamed hp]
      simp only [hrm, Bool.or_true, Bool.true_or, if_true, List.not_mem_nil, if_false]
      by_cases hd : st.lower.pisDir (mp ++ sub) = true
      · rw [if_pos hd]
        refine ⟨_, List.mem_map.2 ⟨mp ++ sub, ?_, rfl⟩, rfl, by rw [← hself']; exact hlstat⟩
        have hst := hex
        unfold FS.pexists FS.stat at hst
        unfold FS.walkDir
        cases hrp : st.lower.realpath (mp ++ sub) with
        | error e => rw [hrp] at hst; cases hst
        | ok c =>
          rw [hrp] at hst
          simp only at hst ⊢
          cases hgc : st.lower.get c with
          | none => rw [hgc] at hst; cases hst
          | some x =>
            refine List.mem_filterMap.2 ⟨(c, x), FS.mem_of_get hgc, ?_⟩
            simp
      · rw [if_neg hd]
        refine ⟨_, List.mem_singleton.2 rfl, rfl, ?_⟩
        simp only
        rw [hi.details, hsp, Option.bind_some, ← hself', hlstat]
    · -- something below
      have hb : Below (mp ++ sub) q := below_iff.2 ⟨hpre, fun h => hself' h.symm⟩
      obtain ⟨d, hd1, hd2⟩ := FS.isDirAt_iff.1 (hw.ancestor hq hb)
      have hnl : d.isLnk = false := by
        unfold Node.isDir at hd2; unfold Node.isLnk
        cases hk : d.kind <;> simp_all [Kind.isLnk]
      have hN := hw.normal_of_get hd1
      have hst : st.lower.stat (mp ++ sub) = .ok d := by
        rw [FS.stat_chain hN hw.root (hw.chain hd1) (fun x hx => by rw [hd1] at hx; cases hx; exact hnl), hd1]
      have hex : st.lower.pexists (mp ++ sub) = true := by unfold FS.pexists; rw [hst]
      have hpd : st.lower.pisDir (mp ++ sub) = true := by unfold FS.pisDir; rw [hst]; exact hd2
      have hsp : ue.sourcePath = some (mp ++ sub) := by
        rw [hi.source, plain_source hp hg]
        simp [ifExists, hex]
      have hcond : (ue.node.opq || ue.node.isRemoved || (!ue.node.isDir && st.lower.pisDir (mp ++ sub))) = true := by
        rw [hn, hpd]
        rcases hh with h | h | h
        · rw [(isRemoved_iff_whiteout hp hg).2 h]; simp
        · rw [h]; rfl
        · have : n.isDir = false := by
            cases hx : n.isDir with
            | false => rfl
            | true => unfold Node.isDir at hx; simp at hx; rw [hx] at h; exact absurd rfl h
          rw [this]; simp
      unfold removesOf
      rw [hsp, plain_renamed hp]
      simp only
      rw [if_pos hcond, if_neg List.not_mem_nil, if_pos hpd]
      refine ⟨_, List.mem_map.2 ⟨q, ?_, rfl⟩, rfl, hlstat⟩
      unfold FS.walkDir
      rw [FS.realpath_chain hN hw.root (hw.chain hd1) (fun x hx => by rw [hd1] at hx; cases hx; exact hnl), hd1]
      simp only
      refine List.mem_filterMap.2 ⟨(q, k), FS.mem_of_get hq, ?_⟩
      obtain ⟨r, rfl⟩ := hpre
      simp
  obtain ⟨e, he, ho, hs⟩ := key
  exact ⟨e, hall e (mem_changes.2 ⟨ue, hue, Or.inl he⟩), ho, ⟨q, k⟩, hs, rfl⟩

/-- What the destination of a creation or modification is. -/
theorem set_stored {e : Entry} (he : e ∈ selected env st) (hs : Spec.IsSet e) :
    ∃ m mp sub n, env.decode m = some mp ∧ sub ≠ [] ∧ st.upper.get (m :: sub) = some n ∧ n.isRemoved = false ∧ e.dest = mp ++ sub ∧ e.staged = some ⟨m :: sub, n⟩ := by
  obtain ⟨t, ht⟩ := hs
  obtain ⟨ue, hue, h | h⟩ := mem_changes.1 (mem_selected he)
  · obtain ⟨_, _, _, _, h, _⟩ := mem_removesOf h
    rw [ht] at h; cases h
  · obtain ⟨m, mp, sub, _, hi⟩ := mem_upperEntries hue
    obtain ⟨h1, h2, h3, _⟩ := mem_setsOf h
    exact ⟨m, mp, sub, ue.node, hi.decode, hi.sub_ne, hi.node, h1, h2.trans hi.lowerPath, by rw [h3, hi.upperPath]⟩

/-- A stored path that is not a whiteout has been created or modified on the host. -/
theorem stored_set (ho : Spec.Ordinary env st) (hp : Spec.PlainStorage env st) (hall : Spec.AllSelected env st) (hok : (accept env st).error = none) {m : Name} {mp sub : Path} {n : Node}
    (hdec : env.decode m = some mp) (hne : sub ≠ []) (hg : st.upper.get (m :: sub) = some n) (hw : Spec.isWhiteout n = false) :
    ∃ n', (accept env st).state.lower.get (mp ++ sub) = some n' ∧ Spec.SameNode n' n := by
  obtain ⟨ue, hue, hi, hn⟩ := upperEntries_of_kept (kept_all (FS.mem_keys.2 ⟨n, hg⟩) hdec hne) hg
  have hrm : ue.node.isRemoved = false := by
    cases hx : ue.node.isRemoved with
    | false => rfl
    | true => rw [hn, isRemoved_iff_whiteout hp hg, hw] at hx; cases hx
  obtain ⟨e, he⟩ := setsOf_singleton (st := st) hrm
  have hmem : e ∈ setsOf st ue := by rw [he]; simp
  have hsel := hall e (mem_changes.2 ⟨ue, hue, Or.inr hmem⟩)
  obtain ⟨_, h2, h3, _, _, hx⟩ := mem_setsOf hmem
  have hset : Spec.IsSet e := by
    have hr := hp.noRedirects _ _ hi.node
    rcases hx with ⟨h1, _⟩ | ⟨h1, _⟩ | ⟨_, _, hx⟩ | ⟨_, _, hx⟩
    · rw [hr] at h1; cases h1
    · rw [hr] at h1; cases h1
    · exact absurd hx (no_error_selected hok hsel _)
    · exact ⟨_, hx⟩
  obtain ⟨n', h4, h5, _⟩ := C09_owner_and_mode_partial env st ho hok e _ hsel hset h3
  rw [h2, hi.lowerPath] at h4
  exact ⟨n', h4, by rw [← hn]; exact h5⟩

/-- The effect of a successful accept in terms of removals and sets. -/
theorem plain_effect (ho : Spec.Ordinary env st) (hp : Spec.PlainStorage env st) (hok : (accept env st).error = none) {q : Path}
    (hns : ∀ e ∈ selected env st, Spec.IsSet e → e.dest ≠ q) :
    (Spec.Removes (selected env st) q → (accept env st).state.lower.get q = none) ∧
    (¬ Spec.Removes (selected env st) q → (accept env st).state.lower.get q = st.lower.get q) := by
  by_cases hne : selected env st = []
  · have hne' : matching env.glob env.cwd env.patterns (changes env st) = [] := hne
    have h1 : (accept env st).state = st := by simp [accept, hne']
    rw [h1]
    refine ⟨fun ⟨e, he, _⟩ => ?_, fun _ => rfl⟩
    rw [hne] at he; cases he
  · obtain ⟨_, st1, h1, h2, _⟩ := accept_ok hok hne
    obtain ⟨hA, _⟩ := applied_of_run ho.ready ho.distinct h1
    rw [h2]
    exact ⟨fun h => hA.gone q hns (fun s d h' => absurd h' (no_renames hp)) (Or.inl h),
      fun h => hA.kept q hns (fun s d h' => absurd h' (no_renames hp)) h⟩

theorem stored_root (hp : Spec.PlainStorage env st) {m : Name} {sub : Path} {n : Node} (hg : st.upper.get (m :: sub) = some n) : [m] ∈ st.upper.keys := by
  by_cases h : sub = []
  · subst h; exact FS.mem_keys.2 ⟨n, hg⟩
  · obtain ⟨k, hk, _⟩ := FS.isDirAt_iff.1 (hp.wf.ancestor (q := [m]) hg ⟨sub, h, by simp⟩)
    exact FS.mem_keys.2 ⟨k, hk⟩

/-- Two mounts: a stored path of another mount is not at the seen path, and not above it if it hides something. -/
theorem seen_other (hp : Spec.PlainStorage env st) {m m' : Name} {mp mp' q sub' : Path} {n : Node} (hs : Spec.Seen env st m mp q) (hmm : m' ≠ m) (hdec : env.decode m' = some mp')
    (hne : sub' ≠ []) (hg : st.upper.get (m' :: sub') = some n) (hpre : mp' ++ sub' <+: q) : mp' ++ sub' ≠ q ∧ ¬ Spec.Hiding n := by
  have hroot := stored_root hp hg
  have hmp' : mp' <+: q := (List.prefix_append _ _).trans hpre
  rcases prefix_total hmp' hs.below.prefix with h | h
  · obtain ⟨h1, h2⟩ := hp.nested m mp m' mp' sub' n hs.stored hs.decode hmm hdec h hne hg
    refine ⟨fun he => h1 (by rw [he]; exact hs.below.prefix), fun hh => ?_⟩
    rcases prefix_total hpre hs.below.prefix with h3 | h3
    · exact h2 hh h3
    · exact h1 h3
  · exact absurd hmp' (hs.deepest m' mp' hroot hdec hmm h)

end

/-- **C01 (partial)**: if every change is selected and accept succeeds, every host path seen through a mount of the sandbox is afterwards as the sandbox saw it before (same
type, content, owner, group and mode; missing if it was missing), and host paths outside the mounts are unchanged.
Missing: renamed directories (`C01_refuted_rename_mode`, `C01_refuted_moved_out`), mount points themselves (`C01_refuted_mount_root`), deleted dangling links
(`C01_refuted_dangling`), and hosts with symbolic links in the way (`C03_refuted_symlink`). -/
theorem C01_view_partial (env : Env) (st : State) (ho : Spec.Ordinary env st) (hp : Spec.PlainStorage env st) (hall : Spec.AllSelected env st)
    (hok : (accept env st).error = none) :
    (∀ m mp sub, Spec.Seen env st m mp (mp ++ sub) →
      (Spec.view st m mp sub = none → (accept env st).state.lower.get (mp ++ sub) = none) ∧
      (∀ n, Spec.view st m mp sub = some n → ∃ n', (accept env st).state.lower.get (mp ++ sub) = some n' ∧ Spec.SameNode n' n)) ∧
    (∀ q, (∀ m mp, [m] ∈ st.upper.keys → env.decode m = some mp → ¬ Below mp q) → (accept env st).state.lower.get q = st.lower.get q) := by
  refine ⟨fun m mp sub hs => ?_, fun q hq => ?_⟩
  · have hw := ho.wf
    obtain ⟨⟨h1, h2, h3⟩, ⟨h4, h5, h6⟩⟩ := hp.mounts m mp hs.stored hs.decode
    have hne : sub ≠ [] := by
      rintro rfl
      have := hs.below
      rw [List.append_nil] at this
      exact not_below_self _ this
    obtain ⟨v1, v2⟩ := view_closed (mp := mp) hw hp.wf (FS.isDirAt_iff.2 ⟨h1, h2, isDir_of_ftype h3⟩) (FS.isDirAt_iff.2 ⟨h4, h5, isDir_of_ftype h6⟩) hp.noRedirects
      (fun q n hg hx => by rw [hp.whiteouts q n hg hx]; decide) sub
    have hsame : ∀ {n : Node}, Spec.SameNode n n := ⟨rfl, rfl, rfl, Or.inr rfl⟩
    cases hg : st.upper.get (m :: sub) with
    | some n =>
      obtain ⟨v3, v4⟩ := v1 n hg
      cases hwn : Spec.isWhiteout n with
      | false =>
        obtain ⟨n', h7, h8⟩ := stored_set ho hp hall hok hs.decode hne hg hwn
        rw [v4 hwn]
        exact ⟨(fun h => by cases h), (fun k hk => by cases hk; exact ⟨n', h7, h8⟩)⟩
      | true =>
        rw [v3 hwn]
        refine ⟨fun _ => ?_, (fun k hk => by cases hk)⟩
        have hns : ∀ e ∈ selected env st, Spec.IsSet e → e.dest ≠ mp ++ sub := by
          intro e he hse hd
          obtain ⟨m', mp', sub', n', g1, g2, g3, g4, g5, _⟩ := set_stored he hse
          have hmm : m' = m := ho.mounts m' m sub' sub mp' mp (FS.mem_keys.2 ⟨n', g3⟩) (FS.mem_keys.2 ⟨n, hg⟩) g1 hs.decode g2 hne (by rw [← g5, hd])
          subst hmm
          rw [hs.decode] at g1; cases g1
          rw [g5] at hd
          have := List.append_cancel_left hd
          subst this
          rw [hg] at g3; cases g3
          rw [(isRemoved_iff_whiteout hp hg).2 hwn] at g4; cases g4
        obtain ⟨e1, e2⟩ := plain_effect ho hp hok hns
        cases hq : st.lower.get (mp ++ sub) with
        | none =>
          by_cases hr : Spec.Removes (selected env st) (mp ++ sub)
          · exact e1 hr
          · rw [e2 hr, hq]
        | some k => exact e1 (hiding_removes hw hp hall hs.decode hne hg (Or.inl hwn) hq (List.prefix_refl _) (fun _ => hwn))
    | none =>
      obtain ⟨v3, v4⟩ := v2 hg
      have hns : ∀ e ∈ selected env st, Spec.IsSet e → e.dest ≠ mp ++ sub := by
        intro e he hse hd
        obtain ⟨m', mp', sub', n', g1, g2, g3, g4, g5, _⟩ := set_stored he hse
        rw [g5] at hd
        by_cases hmm : m' = m
        · subst hmm
          rw [hs.decode] at g1; cases g1
          have := List.append_cancel_left hd
          subst this
          rw [hg] at g3; cases g3
        · exact (seen_other hp hs hmm g1 g2 g3 (by rw [hd])).1 hd
      obtain ⟨e1, e2⟩ := plain_effect ho hp hok hns
      by_cases hhid : HiddenAt st m sub.reverse
      · rw [v3 hhid]
        refine ⟨fun _ => ?_, (fun k hk => by cases hk)⟩
        obtain ⟨y, n, hy, hyp, hyg, hyh⟩ := hhid
        rw [List.reverse_reverse] at hyp
        cases hq : st.lower.get (mp ++ sub) with
        | none =>
          by_cases hr : Spec.Removes (selected env st) (mp ++ sub)
          · exact e1 hr
          · rw [e2 hr, hq]
        | some k =>
          refine e1 (hiding_removes hw hp hall hs.decode hy hyg hyh hq ((List.prefix_append_right_inj mp).2 hyp) (fun he => ?_))
          have := List.append_cancel_left he
          subst this
          rw [hg] at hyg; cases hyg
      · rw [v4 hhid]
        have hnr : ¬ Spec.Removes (selected env st) (mp ++ sub) := by
          intro hr
          obtain ⟨m', mp', sub', n', g1, g2, g3, g4, g5⟩ := removes_hiding hp hr
          by_cases hmm : m' = m
          · subst hmm
            rw [hs.decode] at g1; cases g1
            exact hhid ⟨sub', n', g2, by rw [List.reverse_reverse]; exact (List.prefix_append_right_inj mp).1 g5, g3, g4⟩
          · exact (seen_other hp hs hmm g1 g2 g3 g5).2 g4
        rw [e2 hnr]
        exact ⟨fun h => h, fun k hk => ⟨k, hk, hsame⟩⟩
  · have hns : ∀ e ∈ selected env st, Spec.IsSet e → e.dest ≠ q := by
      intro e he hse hd
      obtain ⟨m', mp', sub', n', g1, g2, g3, g4, g5, _⟩ := set_stored he hse
      exact hq m' mp' (stored_root hp g3) g1 ⟨sub', g2, by rw [← hd, g5]⟩
    refine (plain_effect ho hp hok hns).2 (fun hr => ?_)
    obtain ⟨m', mp', sub', n', g1, g2, g3, g4, g5⟩ := removes_hiding hp hr
    exact hq m' mp' (stored_root hp g3) g1 (below_of_below_prefix ⟨sub', g2, rfl⟩ g5)

/-! ### Concrete cases -/

instance (n : Node) : Decidable (Spec.Hiding n) := by unfold Spec.Hiding; infer_instance

/-- Decidable form of `Spec.PlainStorage`, for examples. -/
def storageCheck (env : Env) (st : State) : Bool :=
  st.upper.all (fun e => e.2.redirect.isNone && (!e.2.whiteout || decide (Spec.ftype e.2.kind = .file)) &&
    (match e.2.kind with | .chr r => r % 65536 != 0 || r == 0 | _ => true)) &&
  st.upper.all (fun e => match e.1 with
    | [] => true
    | m :: sub => match env.decode m with
      | none => true
      | some mp =>
        (sub != [] || (st.lower.isDirAt mp && e.2.isDir)) &&
        (!Spec.isWhiteout e.2 || match st.lower.get (mp ++ sub) with | some k => decide (Spec.ftype k.kind ≠ .symlink) || st.lower.pexists (mp ++ sub) | none => true) &&
        (sub == [] || st.upper.all (fun o => match o.1 with
          | [m'] => match env.decode m' with
            | some mp' => m' == m || !mp.isPrefixOf mp' || (!mp'.isPrefixOf (mp ++ sub) && (!decide (Spec.Hiding e.2) || !(mp ++ sub).isPrefixOf mp'))
            | none => true
          | _ => true)))

theorem plainStorage_of_check {env : Env} {st : State} (hw : st.upper.WF) (h : storageCheck env st = true) : Spec.PlainStorage env st := by
  unfold storageCheck at h
  rw [Bool.and_eq_true, List.all_eq_true, List.all_eq_true] at h
  obtain ⟨ha, hb⟩ := h
  have hda : ∀ {n : Node}, n.isDir = true → Spec.ftype n.kind = .directory := by
    intro n hx; unfold Node.isDir at hx; simp at hx; rw [hx]; rfl
  refine ⟨hw, fun q n hg => ?_, fun q n hg hx => ?_, fun q n r hg hk hr => ?_, fun m mp hm hd => ?_, fun m mp m' mp' sub n hm hd hne hd' hpre hs hg => ?_,
    fun m mp sub n k hd hg hx hk hl => ?_⟩
  · have := ha _ (FS.mem_of_get hg)
    simp only [Bool.and_eq_true] at this
    simpa using this.1.1
  · have := ha _ (FS.mem_of_get hg)
    simp only [Bool.and_eq_true, hx] at this
    simpa using this.1.2
  · have := ha _ (FS.mem_of_get hg)
    simp only [Bool.and_eq_true, hk] at this
    have h2 := this.2
    simp only [hr] at h2
    simpa using h2
  · obtain ⟨n, hn⟩ := FS.mem_keys.1 hm
    have := hb _ (FS.mem_of_get hn)
    simp only [hd, Bool.and_eq_true] at this
    have h1 := this.1.1
    simp only [bne_self_eq_false, Bool.false_or, Bool.and_eq_true] at h1
    obtain ⟨k, hk1, hk2⟩ := FS.isDirAt_iff.1 h1.1
    exact ⟨⟨k, hk1, hda hk2⟩, ⟨n, hn, hda h1.2⟩⟩
  · have := hb _ (FS.mem_of_get hg)
    simp only [hd', Bool.and_eq_true] at this
    have h1 := this.2
    have hsb : (sub == []) = false := by simpa using hs
    rw [hsb, Bool.false_or, List.all_eq_true] at h1
    obtain ⟨k, hk⟩ := FS.mem_keys.1 hm
    have h2 := h1 _ (FS.mem_of_get hk)
    simp only [hd] at h2
    have hmb : (m == m') = false := by simpa using Ne.symm hne
    have hpb : mp'.isPrefixOf mp = true := List.isPrefixOf_iff_prefix.2 hpre
    rw [hmb, hpb] at h2
    simp only [Bool.false_or, Bool.not_true, Bool.and_eq_true, Bool.or_eq_true, Bool.not_eq_true', decide_eq_false_iff_not] at h2
    refine ⟨fun hx => ?_, fun hh hx => ?_⟩
    · have := List.isPrefixOf_iff_prefix.2 hx
      rw [h2.1] at this; cases this
    · rcases h2.2 with h3 | h3
      · exact h3 hh
      · have := List.isPrefixOf_iff_prefix.2 hx
        rw [h3] at this; cases this
  · have := hb _ (FS.mem_of_get hg)
    simp only [hd, Bool.and_eq_true] at this
    have h1 := this.1.2
    rw [hx, hk] at h1
    simpa [hl] using h1

/-- Host for the examples: `d` with files and a directory, `o` a directory with a file, `l` a link to `d/f`; `u` is another mount with a file. -/
def exViewHost : FS :=
  [([], { kind := .dir, perm := 0o755, dev := 1 }), ([str "d"], { kind := .dir, perm := 0o755, dev := 1 }), ([str "d", str "f"], { kind := .reg (str "1"), dev := 1 }),
   ([str "d", str "g"], { kind := .reg (str "2"), dev := 1 }), ([str "d", str "x"], { kind := .dir, dev := 1 }), ([str "d", str "x", str "y"], { kind := .reg (str "3"), dev := 1 }),
   ([str "o"], { kind := .dir, dev := 1 }), ([str "o", str "p"], { kind := .reg (str "4"), dev := 1 }), ([str "l"], { kind := .lnk (str "d/f"), dev := 1 }),
   ([str "u"], { kind := .dir, dev := 2 }), ([str "u", str "v"], { kind := .reg (str "5"), dev := 2 })]

/-- In the sandbox: `chmod 700 d; echo new >d/f; rm d/g; rm -r d/x; mkdir d/x; echo >d/x/z; rm -r o; echo >o; rm l; rm u/v`. -/
def exView : State := ⟨exViewHost,
  [([], { kind := .dir }), ([str "F4"], { kind := .dir }), ([str "F4", str "d"], { kind := .dir, perm := 0o700 }), ([str "F4", str "d", str "f"], { kind := .reg (str "new"), uid := 7 }),
   ([str "F4", str "d", str "g"], { kind := .chr 0 }), ([str "F4", str "d", str "x"], { kind := .dir, opq := true }), ([str "F4", str "d", str "x", str "z"], { kind := .reg [] }),
   ([str "F4", str "o"], { kind := .reg (str "file") }), ([str "F4", str "l"], { kind := .chr 0 }),
   ([str "U"], { kind := .dir }), ([str "U", str "v"], { kind := .reg [], whiteout := true })]⟩

def exViewEnv : Env := { exEnv with decode := fun m => if m = str "F4" then some [] else if m = str "U" then some [str "u"] else none, cwd := [], patterns := [str "/**"] }

theorem exView_ordinary : Spec.Ordinary exViewEnv exView := ordinary_of_check (fun _ => rfl) (fun _ => rfl) (by decide +kernel) (by decide +kernel) (by decide +kernel)
theorem exView_plain : Spec.PlainStorage exViewEnv exView := plainStorage_of_check (by decide +kernel) (by decide +kernel)

-- the conditions of `C01_view_partial` hold, and it says what became of the host
example : (accept exViewEnv exView).error = none ∧ Spec.AllSelected exViewEnv exView := by
  refine ⟨by decide +kernel, ?_⟩
  have : selected exViewEnv exView = changes exViewEnv exView := by decide +kernel
  intro e he
  rw [this]
  exact he
example : [[str "d", str "f"], [str "d", str "g"], [str "d", str "x", str "y"], [str "d", str "x", str "z"], [str "o"], [str "o", str "p"], [str "l"]].map
      (fun q => (Spec.view exView (str "F4") [] q).map (·.kind)) =
    [some (.reg (str "new")), none, none, some (.reg []), some (.reg (str "file")), none, none] ∧
  [[str "d", str "f"], [str "d", str "g"], [str "d", str "x", str "y"], [str "d", str "x", str "z"], [str "o"], [str "o", str "p"], [str "l"]].map
      (fun q => ((accept exViewEnv exView).state.lower.get q).map (·.kind)) =
    [some (.reg (str "new")), none, none, some (.reg []), some (.reg (str "file")), none, none] ∧
  (accept exViewEnv exView).state.lower.get [str "u", str "v"] = none := by decide +kernel
example : Spec.Seen exViewEnv exView (str "U") [str "u"] ([str "u"] ++ [str "v"]) :=
  ⟨by decide +kernel, by decide +kernel, ⟨[str "v"], by decide, rfl⟩, fun m' mp' h1 h2 h3 h4 => by
    unfold exViewEnv at h2
    simp only at h2
    split at h2
    · cases h2; revert h4; decide
    · simp at h2⟩

/-- In the sandbox: `mv d e; chmod 700 e`. -/
def exViewMoved : State := ⟨exViewHost,
  [([], { kind := .dir }), ([str "F4"], { kind := .dir }), ([str "F4", str "d"], { kind := .chr 0 }), ([str "F4", str "e"], { kind := .dir, perm := 0o700, redirect := some (str "d") })]⟩

/-- **C01 refuted** for renames: the mode given to a renamed directory is lost. -/
theorem C01_refuted_rename_mode :
    Spec.Ordinary exViewEnv exViewMoved ∧ (accept exViewEnv exViewMoved).error = none ∧ selected exViewEnv exViewMoved = changes exViewEnv exViewMoved ∧
    (Spec.view exViewMoved (str "F4") [] [str "e"]).map (·.perm) = some 0o700 ∧
    ((accept exViewEnv exViewMoved).state.lower.get [str "e"]).map (·.perm) = some 0o755 :=
  ⟨ordinary_of_check (fun _ => rfl) (fun _ => rfl) (by decide +kernel) (by decide +kernel) (by decide +kernel), by decide +kernel, by decide +kernel, by decide +kernel,
    by decide +kernel⟩

/-- In the sandbox: `mv d/x e; rm -r d`. -/
def exViewOut : State := ⟨exViewHost,
  [([], { kind := .dir }), ([str "F4"], { kind := .dir }), ([str "F4", str "d"], { kind := .chr 0 }), ([str "F4", str "e"], { kind := .dir, redirect := some (str "/d/x") })]⟩

/-- **C01 and C13 refuted**: a directory was moved out of a directory that was then deleted.  The accept passes its checks, deletes everything below the deleted directory,
including the moved directory with its content, and only then fails; the file `d/x/y`, which the sandbox sees as `e/y`, is lost. -/
theorem C01_refuted_moved_out :
    Spec.view exViewOut (str "F4") [] [str "e", str "y"] = some { kind := .reg (str "3"), dev := 1 } ∧
    exViewOut.lower.get [str "d", str "x", str "y"] = some { kind := .reg (str "3"), dev := 1 } ∧
    pretendCheck exViewEnv exViewOut (selected exViewEnv exViewOut) = none ∧
    (accept exViewEnv exViewOut).error = some (.os .ENOENT) ∧
    ∀ q ∈ (accept exViewEnv exViewOut).state.lower.keys, (accept exViewEnv exViewOut).state.lower.get q ≠ some { kind := .reg (str "3"), dev := 1 } := by decide +kernel

/-- In the sandbox: `chmod 700 /`, the mount point itself. -/
def exViewRoot : State := ⟨exViewHost, [([], { kind := .dir }), ([str "F4"], { kind := .dir, perm := 0o700 })]⟩

/-- **C01 refuted** for mount points: a change of owner or mode of a mount point is not even reported. -/
theorem C01_refuted_mount_root :
    (Spec.view exViewRoot (str "F4") [] []).map (·.perm) = some 0o700 ∧ changes exViewEnv exViewRoot = [] ∧ (accept exViewEnv exViewRoot).error = none ∧
    ((accept exViewEnv exViewRoot).state.lower.get []).map (·.perm) = some 0o755 := by decide +kernel

/-- **C01 refuted** for dangling links: their deletion is not reported and not accepted. -/
theorem C01_refuted_dangling :
    Spec.view exOriginDangling (str "F4") [] [str "l"] = none ∧ changes exViewEnv exOriginDangling = [] ∧ (accept exViewEnv exOriginDangling).error = none ∧
    ((accept exViewEnv exOriginDangling).state.lower.get [str "l"]).isSome = true := by decide +kernel

end SB
