import Verif.Props.FeasibleMoves

/-!
# C85: accepting everything succeeds, with renamed directories
-/

namespace SB

open scoped List

/-- What the host has at `o` is a directory that has another name in the sandbox. -/
def Spec.MovedAway (st : State) (m : Name) (mp o : Path) : Prop := ∃ z k, st.upper.get (m :: z) = some k ∧ k.redirect.isSome = true ∧ Spec.named st m mp z = o

/-- The sandbox has renamed a directory of the host: `o` to `d`. -/
def Spec.HasMoved (env : Env) (st : State) (o d : Path) : Prop :=
  ∃ m mp z n, env.decode m = some mp ∧ z ≠ [] ∧ st.upper.get (m :: z) = some n ∧ n.redirect.isSome = true ∧ o = Spec.named st m mp z ∧ d = mp ++ z

/-- Everything stored in the sandbox can be put on the host, everything it deletes can be deleted there, and every directory it has renamed can be renamed there:
* what is stored is files, directories, links and whiteouts (`stored`), and the host still has the renamed directories (`origins`);
* what it deletes on the host is files, links and directories that are not mount points (`hidden`), and no two stored nodes delete the same (`once`, `C08_refuted_duplicate`);
* a stored directory is in a place where the host has nothing, a directory, or something it replaces (`dirs`);
* a renamed directory is in a place where the host has nothing, or another directory that has been renamed (`free`), and no link (`links`);
* if a directory has been renamed: the current directory exists, is not deleted and not in a renamed directory (`cwd`), and it, everything renamed with all content, and all new places
  are on one mount (`mount`). -/
structure Spec.MovesAcceptable (env : Env) (st : State) : Prop where
  stored : ∀ m mp sub n, env.decode m = some mp → sub ≠ [] → st.upper.get (m :: sub) = some n → Spec.isWhiteout n = false →
    Spec.ftype n.kind = .file ∨ Spec.ftype n.kind = .directory ∨ Spec.ftype n.kind = .symlink
  origins : ∀ o d, Spec.HasMoved env st o d → ∃ k, st.lower.get o = some k ∧ Spec.ftype k.kind = .directory
  hidden : ∀ m mp sub n q k, env.decode m = some mp → sub ≠ [] → st.upper.get (m :: sub) = some n → Spec.Deletes st n (Spec.named st m mp sub) →
    ¬ Spec.MovedAway st m mp (Spec.named st m mp sub) → Spec.named st m mp sub <+: q → st.lower.get q = some k →
    (Spec.ftype k.kind = .file ∨ Spec.ftype k.kind = .directory ∨ Spec.ftype k.kind = .symlink) ∧
    (Spec.ftype k.kind = .directory → ∀ k', st.lower.get q.dropLast = some k' → k'.dev = k.dev)
  once : ∀ m mp sub n sub' n' k, env.decode m = some mp → sub ≠ [] → st.upper.get (m :: sub) = some n → Spec.Deletes st n (Spec.named st m mp sub) →
    ¬ Spec.MovedAway st m mp (Spec.named st m mp sub) → sub' ≠ [] → st.upper.get (m :: sub') = some n' → Spec.Deletes st n' (Spec.named st m mp sub') →
    ¬ Spec.MovedAway st m mp (Spec.named st m mp sub') → st.lower.get (Spec.named st m mp sub') = some k → Spec.named st m mp sub <+: Spec.named st m mp sub' → sub = sub'
  dirs : ∀ m mp sub x n f l k, env.decode m = some mp → st.upper.get (m :: (sub ++ [x])) = some n → Spec.ftype n.kind = .directory → n.redirect = none →
    Spec.lookup st m mp sub = some f → f.lower = some l → st.lower.get (l ++ [x]) = some k →
    Spec.ftype k.kind = .directory ∨ (n.opq = true ∧ st.lower.pexists (l ++ [x]) = true)
  free : ∀ m mp sub x n f l k, env.decode m = some mp → st.upper.get (m :: (sub ++ [x])) = some n → n.redirect.isSome = true →
    Spec.lookup st m mp sub = some f → f.lower = some l → st.lower.get (l ++ [x]) = some k → Spec.MovedAway st m mp (l ++ [x])
  links : ∀ o d k, Spec.HasMoved env st o d → st.lower.get d = some k → Spec.ftype k.kind ≠ .symlink
  cwd : ∀ o d, Spec.HasMoved env st o d → (∃ k, st.lower.get env.cwd = some k ∧ Spec.ftype k.kind = .directory) ∧ ¬ o <+: env.cwd ∧
    ∀ m mp y n, env.decode m = some mp → y ≠ [] → st.upper.get (m :: y) = some n → Spec.Deletes st n (Spec.named st m mp y) → ¬ Spec.named st m mp y <+: env.cwd
  mount : (∃ o d, Spec.HasMoved env st o d) → ∃ M, Spec.OnMount st.lower M (fun p => p = env.cwd ∨ ∃ o d, Spec.HasMoved env st o d ∧ (o <+: p ∨ p = d)) ∧
    ∀ o d, Spec.HasMoved env st o d → o ≠ M ∧ d ≠ M

section
variable {env : Env} {st : State}

/-- Where a stored path is, and the host path it comes from, are seen through its mount. -/
theorem stored_seen (hp : Spec.RedirectStorage env st) {m : Name} {mp sub p : Path} {n : Node} (hd : env.decode m = some mp) (hne : sub ≠ []) (hg : st.upper.get (m :: sub) = some n)
    (hpp : p = mp ++ sub ∨ p = Spec.named st m mp sub) : Spec.Seen env st m mp p := by
  refine ⟨moved_root hp hg, hd, ?_, fun m' mp' h1 h2 h3 h4 => ?_⟩
  · rcases hpp with rfl | rfl
    · exact below_iff.2 ⟨List.prefix_append _ _, fun h => hne (by simpa using h)⟩
    · exact (named_below hp hd sub.reverse).2 (by simpa using hne)
  · exact (hp.nested m' mp' m mp sub n h1 h2 (Ne.symm h3) hd h4 hne hg p hpp).1

/-- A stored path that hides or moves something has nothing at or below its place and its origin that belongs to another mount. -/
theorem cross_moved (hp : Spec.RedirectStorage env st) {m m' : Name} {mp mp' sub sub' p p' : Path} {n n' : Node} (hd : env.decode m = some mp) (hne : sub ≠ [])
    (hg : st.upper.get (m :: sub) = some n) (hpp : p = mp ++ sub ∨ p = Spec.named st m mp sub) (hd' : env.decode m' = some mp') (hne' : sub' ≠ [])
    (hg' : st.upper.get (m' :: sub') = some n') (hpp' : p' = mp' ++ sub' ∨ p' = Spec.named st m' mp' sub') (hh : Spec.Hiding n' ∨ n'.redirect.isSome = true) (hpre : p' <+: p) :
    m' = m ∧ mp' = mp := by
  by_cases hmm : m' = m
  · subst hmm
    rw [hd] at hd'; cases hd'
    exact ⟨rfl, rfl⟩
  · exact absurd hh (seen_other_moved hp (stored_seen hp hd hne hg hpp) hmm hd' hne' hg' hpp' hpre).2

theorem hiding_of_deletes {n : Node} {o : Path} (h : Spec.Deletes st n o) : Spec.Hiding n := by
  rcases h with h | h | ⟨h, _⟩
  · exact Or.inl h
  · exact Or.inr (Or.inl h)
  · exact Or.inr (Or.inr h)

theorem pexists_of_get (hw : st.lower.WF) {p : Path} {k : Node} (hg : st.lower.get p = some k) (hl : Spec.ftype k.kind ≠ .symlink) :
    st.lower.pexists p = true ∧ (st.lower.pisDir p = true ↔ Spec.ftype k.kind = .directory) := by
  have hst : st.lower.stat p = .ok k := by
    rw [FS.stat_chain (hw.normal_of_get hg) hw.root (hw.chain hg) (fun x hx => by rw [hg] at hx; cases hx; exact isLnk_of_ftype hl), hg]
  unfold FS.pexists FS.pisDir
  rw [hst]
  exact ⟨rfl, ⟨ftype_dir_of, isDir_of_ftype⟩⟩

/-- The renamed directories are the renames of the selection. -/
theorem renames_hasMoved (hw : st.lower.WF) (hp : Spec.RedirectStorage env st) (ha : Spec.MovesAcceptable env st) (hall : Spec.AllSelected env st) {s d : Path} :
    Spec.Renames (selected env st) s d ↔ Spec.HasMoved env st s d := by
  constructor
  · intro h
    obtain ⟨m, mp, z, n, h1, h2, h3, h4, h5, h6⟩ := renames_moved hp h
    exact ⟨m, mp, z, n, h1, h2, h3, h4, h6, h5⟩
  · intro h
    obtain ⟨k, hk, hkd⟩ := ha.origins s d h
    obtain ⟨m, mp, z, n, h1, h2, h3, h4, rfl, rfl⟩ := h
    exact (moved_renames hw hp hall h1 h3 h4 (pexists_of_get hw hk (by rw [hkd]; decide)).1).1

/-- The host path of a stored node that itself asks for its removal is removed or moved. -/
theorem self_removes_moved (hw : st.lower.WF) (hp : Spec.RedirectStorage env st) (hall : Spec.AllSelected env st) {m : Name} {mp sub : Path} {n k : Node} (hdec : env.decode m = some mp)
    (hne : sub ≠ []) (hg : st.upper.get (m :: sub) = some n) (hq : st.lower.get (Spec.named st m mp sub) = some k) (hex : st.lower.pexists (Spec.named st m mp sub) = true)
    (hcond : n.opq = true ∨ n.isDir = false ∧ st.lower.pisDir (Spec.named st m mp sub) = true) :
    Spec.Removes (selected env st) (Spec.named st m mp sub) ∨ ∃ d, Spec.Renames (selected env st) (Spec.named st m mp sub) d := by
  generalize hP : Spec.named st m mp sub = P at hq hex hcond
  have hlstat : details st.lower P = some ⟨P, k⟩ := by
    unfold details
    rw [FS.lstat_chain (hw.normal_of_get hq) (hw.chain hq), hq]
  obtain ⟨ue, hue, hi, hn⟩ := moved_entry hg hdec hne
  by_cases hren : P ∈ renamedPaths (upperEntries { env with includeIgnored := true } st)
  · right
    unfold renamedPaths at hren
    obtain ⟨ue2, hue2, hx⟩ := List.mem_filterMap.1 hren
    obtain ⟨m2, mp2, sub2, _, hi2⟩ := mem_upperEntries hue2
    split at hx
    · next hr =>
      rw [hi2.source, moved_source hp hi2.decode hi2.node] at hx
      have : Spec.named st m2 mp2 sub2 = P ∧ st.lower.pexists (Spec.named st m2 mp2 sub2) = true := by
        unfold ifExists at hx
        split at hx
        · next hex => exact ⟨Option.some.inj hx, hex⟩
        · cases hx
      exact ⟨_, this.1 ▸ (moved_renames hw hp hall hi2.decode hi2.node hr this.2).1⟩
    · cases hx
  left
  have key : ∃ e ∈ removesOf st (renamedPaths (upperEntries { env with includeIgnored := true } st)) ue, e.op = .remove ∧ e.source = some ⟨P, k⟩ := by
    have hsp : ue.sourcePath = some P := by
      rw [hi.source, moved_source hp hdec hg, hP]
      simp [ifExists, hex]
    have hc : (ue.node.opq || ue.node.isRemoved || (!ue.node.isDir && st.lower.pisDir P)) = true := by
      rw [hn]
      rcases hcond with h | ⟨h1, h2⟩
      · simp [h]
      · simp [h1, h2]
    unfold removesOf
    rw [hsp]
    simp only
    rw [if_pos hc, if_neg hren]
    by_cases hd : st.lower.pisDir P = true
    · rw [if_pos hd]
      refine ⟨_, List.mem_map.2 ⟨P, ?_, rfl⟩, rfl, hlstat⟩
      have hst := hex
      unfold FS.pexists FS.stat at hst
      unfold FS.walkDir
      cases hrp : st.lower.realpath P with
      | error e => rw [hrp] at hst; cases hst
      | ok c =>
        rw [hrp] at hst
        simp only at hst ⊢
        cases hgc : st.lower.get c with
        | none => rw [hgc] at hst; cases hst
        | some x =>
          refine List.mem_filterMap.2 ⟨(c, x), FS.mem_of_get hgc, ?_⟩
          simp
    · rw [if_neg hd]
      refine ⟨_, List.mem_singleton.2 rfl, rfl, ?_⟩
      simp only
      rw [hi.details, hsp, Option.bind_some, hlstat]
  obtain ⟨e, he, ho, hs⟩ := key
  exact ⟨e, hall e (mem_changes.2 ⟨ue, hue, Or.inl he⟩), ho, ⟨P, k⟩, hs, rfl⟩

/-- A stored path that is neither a whiteout nor a renamed directory is created or modified by the selection. -/
theorem stored_isSet_moved (hp : Spec.RedirectStorage env st) (ha : Spec.MovesAcceptable env st) (hall : Spec.AllSelected env st) {m : Name} {mp sub : Path} {n : Node}
    (hdec : env.decode m = some mp) (hne : sub ≠ []) (hg : st.upper.get (m :: sub) = some n) (hw : Spec.isWhiteout n = false) (hr : n.redirect = none) :
    ∃ e ∈ selected env st, Spec.IsSet e ∧ e.dest = mp ++ sub ∧ e.staged = some ⟨m :: sub, n⟩ := by
  obtain ⟨ue, hue, hi, hn⟩ := moved_entry hg hdec hne
  have hrm : ue.node.isRemoved = false := by
    cases hx : ue.node.isRemoved with
    | false => rfl
    | true => rw [hn, moved_removed_iff hp hg, hw] at hx; cases hx
  obtain ⟨e, he⟩ := setsOf_singleton (st := st) hrm
  have hmem : e ∈ setsOf st ue := by rw [he]; simp
  have hsel := hall e (mem_changes.2 ⟨ue, hue, Or.inr hmem⟩)
  obtain ⟨_, h2, h3, _, _, hx⟩ := mem_setsOf hmem
  refine ⟨e, hsel, ?_, h2.trans hi.lowerPath, by rw [h3, hi.upperPath, hn]⟩
  rw [hn, hr] at hx
  rcases hx with ⟨h1, _⟩ | ⟨h1, _⟩ | ⟨_, hx, _⟩ | ⟨_, _, hx⟩
  · cases h1
  · cases h1
  · rw [supported_of_ftype (ha.stored m mp sub n hdec hne hg hw)] at hx; cases hx
  · exact ⟨_, hx⟩

/-- What a removal entry comes from. -/
theorem removal_moved (ho : Spec.Ordinary env st) (hp : Spec.RedirectStorage env st) (hall : Spec.AllSelected env st) {ue : UpperEntry} {e : Entry} (hue : ue ∈ upperEntries env st)
    (h : e ∈ removesOf st (renamedPaths (upperEntries env st)) ue) (he : e ∈ selected env st) :
    ∃ m mp sub, IsUpper env st ue m mp sub ∧ Spec.Deletes st ue.node (Spec.named st m mp sub) ∧ Spec.named st m mp sub <+: e.dest ∧
      ¬ Spec.MovedAway st m mp (Spec.named st m mp sub) := by
  obtain ⟨m, mp, sub, _, hi⟩ := mem_upperEntries hue
  obtain ⟨sp, hsp, hnr, hc, hop, hd, _⟩ := mem_removesOf h
  have hsrc := hsp
  rw [hi.source, moved_source hp hi.decode hi.node] at hsrc
  have hspe : sp = Spec.named st m mp sub ∧ st.lower.pexists sp = true := by
    unfold ifExists at hsrc
    split at hsrc
    · next hx => cases hsrc; exact ⟨rfl, hx⟩
    · cases hsrc
  obtain ⟨rfl, hex⟩ := hspe
  have hpre : Spec.named st m mp sub <+: e.dest := by
    rcases hd with ⟨_, hw, hsrc, _⟩ | ⟨_, hde, hsrc, _⟩
    · exact mem_walkDir_prefix hw
    · rw [hde]
  refine ⟨m, mp, sub, hi, ?_, hpre, ?_⟩
  · rcases hc with hc | hc | ⟨hc, hpd⟩
    · exact Or.inr (Or.inl hc)
    · exact Or.inl ((moved_removed_iff hp hi.node).1 hc)
    · refine Or.inr (Or.inr ⟨fun hx => ?_, ?_⟩)
      · rw [isDir_of_ftype hx] at hc; cases hc
      · obtain ⟨hN, _, hl⟩ := ho.plain.dest e he
        have hNn : NormalPath (Spec.named st m mp sub) := by
          intro x hx
          obtain ⟨t, ht⟩ := hpre
          exact hN x (by rw [← ht]; exact List.mem_append_left _ hx)
        have hla : ∀ y, Below y (Spec.named st m mp sub) → ∀ n, st.lower.get y = some n → Spec.ftype n.kind ≠ .symlink :=
          fun y hy => hl y (below_of_below_prefix hy hpre)
        have hst := hex
        unfold FS.pexists FS.stat at hst
        cases hrp : st.lower.realpath (Spec.named st m mp sub) with
        | error e => rw [hrp] at hst; cases hst
        | ok c =>
          obtain ⟨_, k, hk⟩ := FS.realpath_ok_get ho.wf.root hNn (noLinkAbove_of_ftype hla) hrp
          refine ⟨k, hk, ?_⟩
          by_cases hlk : Spec.ftype k.kind = .symlink
          · exact Or.inr hlk
          · exact Or.inl ((pexists_of_get ho.wf hk hlk).2.1 hpd)
  · rintro ⟨z, k, hk, hkr, heq⟩
    refine hnr ?_
    obtain ⟨_, h5⟩ := moved_renames ho.wf hp hall hi.decode hk hkr (by rw [heq]; exact hex)
    obtain ⟨ue2, hue2, hi2, hn2⟩ := upperEntries_of_kept h5 hk
    unfold renamedPaths
    refine List.mem_filterMap.2 ⟨ue2, hue2, ?_⟩
    rw [hn2, hkr, hi2.source, moved_source hp hi.decode hk]
    simp [ifExists, hex, heq]

/-- Nothing is listed twice for removal. -/
theorem removals_once_moved (ho : Spec.Ordinary env st) (hp : Spec.RedirectStorage env st) (ha : Spec.MovesAcceptable env st) (hall : Spec.AllSelected env st) :
    (selected env st).Pairwise (fun e e' => e.op = .remove → e'.op = .remove → e.dest ≠ e'.dest) := by
  have main : (changes env st).Pairwise (fun e e' => e ∈ selected env st → e' ∈ selected env st → e.op = .remove → e'.op = .remove → e.dest ≠ e'.dest) := by
    unfold changes
    simp only
    rw [List.pairwise_flatMap]
    refine ⟨fun ue hue => ?_, ?_⟩
    · rw [List.pairwise_append]
      refine ⟨?_, ?_, ?_⟩
      · unfold removesOf
        split
        · exact List.Pairwise.nil
        · next sp _ =>
          split
          · split
            · exact List.Pairwise.nil
            · split
              · rw [List.pairwise_map]
                exact (walkDir_nodup ho.wf sp).imp (fun h _ _ _ _ => h)
              · exact List.pairwise_singleton _ _
          · exact List.Pairwise.nil
      · by_cases hr : ue.node.isRemoved = true
        · unfold setsOf; rw [if_pos hr]; exact List.Pairwise.nil
        · obtain ⟨e, he⟩ := setsOf_singleton (st := st) (by simpa using hr : ue.node.isRemoved = false)
          rw [he]; exact List.pairwise_singleton _ _
      · intro e _ e' he' _ _ _ ho
        obtain ⟨_, _, _, _, _, h⟩ := mem_setsOf he'
        rw [ho] at h; simp at h
    · have hn : (upperEntries env st).Pairwise (fun a b => a.upperPath ≠ b.upperPath) := by
        have := (upperEntries_paths env st).nodup hp.wf.nodup
        rw [List.Nodup, List.pairwise_map] at this
        exact this
      refine hn.imp_of_mem ?_
      intro a b ha' hb hab e he e' he' hsel hsel' hop hop' hd
      have h1 : e ∈ removesOf st (renamedPaths (upperEntries env st)) a := by
        rcases List.mem_append.1 he with h | h
        · exact h
        · obtain ⟨_, _, _, _, _, h⟩ := mem_setsOf h; rw [hop] at h; simp at h
      have h2 : e' ∈ removesOf st (renamedPaths (upperEntries env st)) b := by
        rcases List.mem_append.1 he' with h | h
        · exact h
        · obtain ⟨_, _, _, _, _, h⟩ := mem_setsOf h; rw [hop'] at h; simp at h
      obtain ⟨m, mp, sub, hi, hdl, hpre, hnm⟩ := removal_moved ho hp hall ha' h1 hsel
      obtain ⟨m', mp', sub', hi', hdl', hpre', hnm'⟩ := removal_moved ho hp hall hb h2 hsel'
      obtain ⟨x, _, hx, _⟩ := remove_entry ho hsel hop
      have hget : ∀ {p : Path}, p <+: e.dest → ∃ k, st.lower.get p = some k := by
        intro p hpp
        by_cases heq : p = e.dest
        · exact ⟨x, by rw [heq]; exact hx⟩
        · obtain ⟨k, hk, _⟩ := FS.isDirAt_iff.1 (ho.wf.ancestor hx (below_iff.2 ⟨hpp, heq⟩))
          exact ⟨k, hk⟩
      rw [← hd] at hpre'
      obtain ⟨k, hk⟩ := hget hpre
      obtain ⟨k', hk'⟩ := hget hpre'
      rcases prefix_total hpre hpre' with h | h
      · obtain ⟨rfl, rfl⟩ := cross_moved hp hi'.decode hi'.sub_ne hi'.node (Or.inr rfl) hi.decode hi.sub_ne hi.node (Or.inr rfl) (Or.inl (hiding_of_deletes hdl)) h
        have := ha.once m mp sub _ sub' _ k' hi.decode hi.sub_ne hi.node hdl hnm hi'.sub_ne hi'.node hdl' hnm' hk' h
        exact hab (by rw [hi.upperPath, hi'.upperPath, this])
      · obtain ⟨rfl, rfl⟩ := cross_moved hp hi.decode hi.sub_ne hi.node (Or.inr rfl) hi'.decode hi'.sub_ne hi'.node (Or.inr rfl) (Or.inl (hiding_of_deletes hdl')) h
        have := ha.once m' mp' sub' _ sub _ k hi.decode hi'.sub_ne hi'.node hdl' hnm' hi.sub_ne hi.node hdl hnm hk h
        exact hab (by rw [hi.upperPath, hi'.upperPath, this])
  have := main.sublist (show (selected env st).Sublist (changes env st) from List.filter_sublist)
  exact this.imp_of_mem (fun ha hb h => h ha hb)

/-- A removal of the selection comes from a stored node that deletes a host path which was not moved. -/
theorem removes_moved' (ho : Spec.Ordinary env st) (hp : Spec.RedirectStorage env st) (hall : Spec.AllSelected env st) {q : Path} (h : Spec.Removes (selected env st) q) :
    ∃ m mp y n, env.decode m = some mp ∧ y ≠ [] ∧ st.upper.get (m :: y) = some n ∧ Spec.Deletes st n (Spec.named st m mp y) ∧ Spec.named st m mp y <+: q ∧
      ¬ Spec.MovedAway st m mp (Spec.named st m mp y) := by
  obtain ⟨m, mp, y, n, h1, h2, h3, h4, h5, h6⟩ := removes_moved hp hall h (fun e he => (ho.plain.dest e he).2.2) ho.wf (fun e he => (ho.plain.dest e he).1)
  exact ⟨m, mp, y, n, h1, h2, h3, h4, h5, fun ⟨z, k, a, b, c⟩ => h6 z k a b c⟩

/-- The host directory behind a renamed one. -/
theorem lookup_redirect (hw : st.lower.WF) (hp : Spec.RedirectStorage env st) {m : Name} {mp z : Path} {n k : Node} (hd : env.decode m = some mp) (hg : st.upper.get (m :: z) = some n)
    (hr : n.redirect.isSome = true) (hk : st.lower.get (Spec.named st m mp z) = some k) (hkd : Spec.ftype k.kind = .directory) :
    ∃ f, Spec.lookup st m mp z = some f ∧ f.lower = some (Spec.named st m mp z) := by
  obtain ⟨rd, hrd⟩ := Option.isSome_iff_exists.1 hr
  have hB : Based st m mp z [] := ⟨Or.inr ⟨n, rd, hg, hrd⟩, fun q n h1 h2 => absurd (by rw [List.append_nil] at h2; exact h2) h1.not_prefix⟩
  obtain ⟨u, _, hu, hl⟩ := hB.merged hw hp (moved_root hp hg) hd
  refine ⟨_, hl, ?_⟩
  simp only
  unfold Spec.presentDir
  rw [hk]
  simp [hkd]

theorem dir_not_whiteout (hp : Spec.RedirectStorage env st) {q : Path} {n : Node} (hg : st.upper.get q = some n) (hd : Spec.ftype n.kind = .directory) : Spec.isWhiteout n = false := by
  have h1 : n.whiteout = false := by
    cases hx : n.whiteout with
    | false => rfl
    | true => exact absurd hd (moved_whiteout_dir hp q n hg hx)
  unfold Spec.isWhiteout
  cases hk : n.kind <;> simp_all [Spec.ftype]

/-- The current content of the place of a stored path, when it is its turn. -/
theorem arrives_moved (ho : Spec.Ordinary env st) (hp : Spec.RedirectStorage env st) (ha : Spec.MovesAcceptable env st) (hall : Spec.AllSelected env st) {m : Name} {mp sub b r : Path} {x : Name}
    {n : Node} (hdec : env.decode m = some mp) (hg : st.upper.get (m :: (sub ++ [x])) = some n) (hsub : sub = b ++ r) (hB : Based st m mp b r) {y : Path} {k : Node}
    (h : Spec.Arrives st.lower (selected env st) (mp ++ sub) y k) :
    st.lower.get (Spec.named st m mp b ++ r ++ y) = some k ∧ ¬ Spec.Removes (selected env st) (Spec.named st m mp b ++ r ++ y) ∧
      ∀ s d, Spec.Renames (selected env st) s d → s <+: Spec.named st m mp b ++ r ++ y → s <+: Spec.named st m mp b := by
  have hne : sub ++ [x] ≠ [] := by simp
  cases h with
  | moved s d r' h1 h2 h3 h4 h5 h6 =>
    obtain ⟨m', mp', z, nz, k1, k2, k3, k4, rfl, rfl⟩ := renames_moved hp h1
    obtain ⟨rfl, rfl⟩ := cross_moved hp hdec hne hg (Or.inl rfl) k1 k2 k3 (Or.inl rfl) (Or.inr k4) (by
      rw [← List.append_assoc, h2, List.append_assoc]; exact List.prefix_append _ _)
    rw [List.append_assoc] at h2
    have hz : sub = z ++ r' := List.append_cancel_left h2
    obtain ⟨rz, hrz⟩ := Option.isSome_iff_exists.1 k4
    have hzb : z = b := by
      have hzp : z <+: b ++ r := by rw [← hsub, hz]; exact List.prefix_append _ _
      have hbp : b <+: b ++ r := List.prefix_append _ _
      have hnb : ¬ Below b z := fun hb => by
        have := hB.last z nz hb hzp k3
        rw [hrz] at this; cases this
      rcases hB.base with rfl | ⟨nb, rd, hgb, hrb⟩
      · exact absurd (below_iff.2 ⟨List.nil_prefix, fun h => k2 h.symm⟩) hnb
      · have hb0 : b ≠ [] := (hp.redirects m' mp' b nb rd hdec hgb hrb).1
        have := h3 _ _ ((renames_hasMoved ho.wf hp ha hall).2 ⟨m', mp', b, nb, hdec, hb0, hgb, by rw [hrb]; rfl, rfl, rfl⟩) (by
          rw [hsub]; exact (List.prefix_append_right_inj mp').2 hbp)
        have hbz : b <+: z := (List.prefix_append_right_inj mp').1 this
        by_contra hnz
        exact hnb (below_iff.2 ⟨hbz, fun h => hnz h.symm⟩)
    subst hzb
    have hr' : r' = r := List.append_cancel_left (hz.symm.trans hsub)
    subst hr'
    exact ⟨h4, h5, h6⟩
  | kept h1 h2 h3 h4 =>
    have hb0 : b = [] := by
      rcases hB.base with rfl | ⟨nb, rd, hgb, hrb⟩
      · rfl
      · have hb0 : b ≠ [] := (hp.redirects m mp b nb rd hdec hgb hrb).1
        refine absurd ?_ (h1 _ _ ((renames_hasMoved ho.wf hp ha hall).2 ⟨m, mp, b, nb, hdec, hb0, hgb, by rw [hrb]; rfl, rfl, rfl⟩))
        rw [hsub]; exact (List.prefix_append_right_inj mp).2 (List.prefix_append _ _)
    subst hb0
    have hnm : Spec.named st m mp [] = mp := by simp [Spec.named, Spec.namedRev]
    rw [List.nil_append] at hsub
    subst hsub
    rw [hnm]
    exact ⟨h2, h3, fun s d h hpre => absurd hpre (h4 s d h)⟩

/-- If something arrives at the place of a stored path, it comes from the host directory that the directory above is merged with. -/
theorem arrives_lower (ho : Spec.Ordinary env st) (hp : Spec.RedirectStorage env st) (ha : Spec.MovesAcceptable env st) (hall : Spec.AllSelected env st) {m : Name} {mp sub b r : Path} {x : Name}
    {n : Node} (hdec : env.decode m = some mp) (hg : st.upper.get (m :: (sub ++ [x])) = some n) (hsub : sub = b ++ r) (hB : Based st m mp b r) {k : Node}
    (h : Spec.Arrives st.lower (selected env st) (mp ++ sub) [x] k) :
    ∃ f, Spec.lookup st m mp sub = some f ∧ f.lower = some (Spec.named st m mp b ++ r) := by
  obtain ⟨h1, h2, h3⟩ := arrives_moved ho hp ha hall hdec hg hsub hB h
  have hroot := moved_root hp hg
  obtain ⟨u, hu⟩ := stored_above hp hg (y := sub) (List.prefix_append _ _)
  have hud : Spec.ftype u.kind = .directory := by
    obtain ⟨u', hu', hd⟩ := FS.isDirAt_iff.1 (hp.wf.ancestor hg (q := m :: sub) ⟨[x], by simp, by simp⟩)
    rw [hu] at hu'; cases hu'
    exact ftype_dir_of hd
  have hnh : ¬ HiddenFrom st m b.reverse r.reverse := by
    rintro ⟨q, nq, hb, hq, hgq, hh⟩
    rw [List.reverse_reverse] at hb
    rw [← List.reverse_append, List.reverse_reverse] at hq
    obtain ⟨r0, hr0, rfl⟩ := hb
    have hr0r : r0 <+: r := (List.prefix_append_right_inj b).1 hq
    have hnq := (hB.prefix hr0r).named
    have hpre : Spec.named st m mp (b ++ r0) <+: Spec.named st m mp b ++ r ++ [x] := by
      rw [hnq, List.append_assoc]
      exact (List.prefix_append_right_inj _).2 (hr0r.trans (List.prefix_append _ _))
    rcases hiding_removes_moved ho.wf hp hall hdec (by simp [hr0]) hgq hh h1 hpre (fun heq => by
        have := congrArg List.length heq
        have hl := hr0r.length_le
        rw [hnq] at this
        simp only [List.length_append, List.length_singleton] at this
        omega) with hx | ⟨d, hx⟩
    · exact h2 hx
    · have := (h3 _ _ hx hpre).length_le
      rw [hnq, List.length_append] at this
      exact hr0 (List.length_eq_zero_iff.1 (by omega))
  have hl := (hB.lookup ho.wf hp hroot hdec).1 u (by rw [← hsub]; exact hu)
  obtain ⟨L, hL, _, hLn⟩ := hl.2 (dir_not_whiteout hp hu hud)
  refine ⟨_, by rw [hsub]; exact hL, ?_⟩
  simp only
  rw [hLn hnh]
  obtain ⟨w, hw, hwd⟩ := FS.isDirAt_iff.1 (ho.wf.ancestor h1 (q := Spec.named st m mp b ++ r) ⟨[x], by simp, rfl⟩)
  unfold Spec.presentDir
  rw [hw]
  simp [ftype_dir_of hwd]

theorem everything_feasible_moves (ho : Spec.Ordinary env st) (hm : Spec.MovedStorage env st) (ha : Spec.MovesAcceptable env st) (hall : Spec.AllSelected env st) :
    Spec.FeasibleMoves env st.lower (selected env st) := by
  have hp := hm.toRedirectStorage
  have hw := ho.wf
  have hren : ∀ {s d : Path}, Spec.Renames (selected env st) s d ↔ Spec.HasMoved env st s d := renames_hasMoved hw hp ha hall
  have hstays : ∀ s d, Spec.Renames (selected env st) s d → ¬ Spec.Removes (selected env st) s := by
    intro s d h hrm
    obtain ⟨k, hk, hkd⟩ := ha.origins s d (hren.1 h)
    obtain ⟨m, mp, z, n, h1, h2, h3, h4, rfl, rfl⟩ := hren.1 h
    obtain ⟨m', mp', y, n', g1, g2, g3, g4, g5, g6⟩ := removes_moved' ho hp hall hrm
    obtain ⟨rfl, rfl⟩ := cross_moved hp h1 h2 h3 (Or.inr rfl) g1 g2 g3 (Or.inr rfl) (Or.inl (hiding_of_deletes g4)) g5
    obtain ⟨f, hf, hfl⟩ := lookup_redirect hw hp h1 h3 h4 hk hkd
    exact g6 (hm.notLost m' mp' z f _ y n' (moved_root hp h3) h1 hf hfl g2 g3 g4 g5)
  refine ⟨fun e he x hop => ?_, fun q q' hq hq' hpre => ?_, fun q n hq hn => ?_, fun q n k hq hn hd hk => ?_, removals_once_moved ho hp ha hall, fun s d d' h h' => ?_, hstays,
    fun s d n h hn => ?_, fun s d h => ?_, fun hx => ?_, fun e he hset => ?_, fun e he hset s x k hs hx hk => ?_, fun e he hop x k hx hk => ?_⟩
  · obtain ⟨ue, hue, h | h⟩ := mem_changes.1 (mem_selected he)
    · obtain ⟨_, _, _, _, h, _⟩ := mem_removesOf h
      rw [hop] at h; cases h
    · obtain ⟨m, mp, sub, _, hi⟩ := mem_upperEntries hue
      obtain ⟨hrm, _, _, _, _, hx⟩ := mem_setsOf h
      have hwn : Spec.isWhiteout ue.node = false := by
        cases hwx : Spec.isWhiteout ue.node with
        | false => rfl
        | true => rw [(moved_removed_iff hp hi.node).2 hwx] at hrm; cases hrm
      rcases hx with ⟨hr, hx, _⟩ | ⟨_, _, hx⟩ | ⟨_, hx, _⟩ | ⟨_, _, hx⟩
      · obtain ⟨k, hk, hkd⟩ := ha.origins _ _ ⟨m, mp, sub, _, hi.decode, hi.sub_ne, hi.node, hr, rfl, rfl⟩
        have hlst : st.lower.lstat (Spec.named st m mp sub) = .ok k := by
          rw [FS.lstat_chain (hw.normal_of_get hk) (hw.chain hk), hk]
        rw [hi.details, hi.source, moved_source hp hi.decode hi.node] at hx
        simp [ifExists, (pexists_of_get hw hk (by rw [hkd]; decide)).1, details, hlst] at hx
      · rw [hop] at hx; cases hx
      · rw [supported_of_ftype (ha.stored m mp sub _ hi.decode hi.sub_ne hi.node hwn)] at hx; cases hx
      · rw [hop] at hx; cases hx
  · obtain ⟨m, mp, sub, n, hdec, hne, hg, hdl, hpre', hnm⟩ := removes_moved' ho hp hall hq
    obtain ⟨k, hk⟩ := FS.mem_keys.1 hq'
    by_cases hself : q' = Spec.named st m mp sub
    · have : q = q' := by
        refine hpre.eq_of_length_le ?_
        rw [hself]; exact hpre'.length_le
      rw [← this]; exact hq
    · rcases hiding_removes_moved hw hp hall hdec hne hg (hiding_of_deletes hdl) hk (hpre'.trans hpre) (fun h => absurd h hself) with h | ⟨d, h⟩
      · exact h
      · obtain ⟨m', mp', z, nz, k1, k2, k3, k4, k5, k6⟩ := hren.1 h
        obtain ⟨rfl, rfl⟩ := cross_moved hp k1 k2 k3 (Or.inr rfl) hdec hne hg (Or.inr rfl) (Or.inl (hiding_of_deletes hdl)) (by rw [k5])
        exact absurd ⟨z, nz, k3, k4, k5.symm⟩ hnm
  · obtain ⟨m, mp, sub, n', hdec, hne, hg, hdl, hpre', hnm⟩ := removes_moved' ho hp hall hq
    exact (ha.hidden m mp sub n' q n hdec hne hg hdl hnm hpre' hn).1
  · obtain ⟨m, mp, sub, n', hdec, hne, hg, hdl, hpre', hnm⟩ := removes_moved' ho hp hall hq
    exact (ha.hidden m mp sub n' q n hdec hne hg hdl hnm hpre' hn).2 hd k hk
  · obtain ⟨k, hk, hkd⟩ := ha.origins s d (hren.1 h)
    obtain ⟨m, mp, z, n, h1, h2, h3, h4, rfl, rfl⟩ := hren.1 h
    obtain ⟨m', mp', z', n', g1, g2, g3, g4, g5, rfl⟩ := hren.1 h'
    obtain ⟨rfl, rfl⟩ := cross_moved hp h1 h2 h3 (Or.inr rfl) g1 g2 g3 (Or.inr rfl) (Or.inr g4) (by rw [g5])
    obtain ⟨f, hf, hfl⟩ := lookup_redirect hw hp h1 h3 h4 hk hkd
    obtain ⟨f', hf', hfl'⟩ := lookup_redirect hw hp h1 g3 g4 (by rw [← g5]; exact hk) hkd
    rw [hm.once m' mp' z z' f f' _ (moved_root hp h3) h1 hf hfl hf' (by rw [g5]; exact hfl')]
  · obtain ⟨k, hk, hkd⟩ := ha.origins s d (hren.1 h)
    rcases hn with hn | hn
    · rw [hk] at hn; cases hn
      rw [hkd]; decide
    · exact ha.links s d n (hren.1 h) hn
  · obtain ⟨h1, h2, h3⟩ := ha.cwd s d (hren.1 h)
    refine ⟨h1, fun hrm => ?_, h2⟩
    obtain ⟨m', mp', y, n', g1, g2, g3, g4, g5, g6⟩ := removes_moved' ho hp hall hrm
    exact h3 m' mp' y n' g1 g2 g3 g4 g5
  · obtain ⟨s, d, h⟩ := hx
    obtain ⟨M, ⟨k, hk, hM, hP⟩, hne⟩ := ha.mount ⟨s, d, hren.1 h⟩
    refine ⟨M, ⟨k, hk, hM, fun p hpp => hP p ?_⟩, fun s d h => hne s d (hren.1 h)⟩
    rcases hpp with h | ⟨s, d, h, h'⟩
    · exact Or.inl h
    · exact Or.inr ⟨s, d, hren.1 h, h'⟩
  · -- the directory above
    obtain ⟨m, mp, sub, n, hdec, hne, hg, hd⟩ : ∃ m mp sub n, env.decode m = some mp ∧ sub ≠ [] ∧ st.upper.get (m :: sub) = some n ∧ e.dest = mp ++ sub := by
      rcases hset with hset | hop
      · obtain ⟨m, mp, sub, n, h1, h2, h3, _, _, h4⟩ := set_not_redirect he hset
        exact ⟨m, mp, sub, n, h1, h2, h3, h4⟩
      · obtain ⟨s, hs, hr, _⟩ := rename_fact ho he hop
        obtain ⟨m, mp, z, n, h1, h2, h3, _, _, h4⟩ := hren.1 hr
        exact ⟨m, mp, z, n, h1, h2, h3, h4⟩
    rw [hd, List.dropLast_append_of_ne_nil hne]
    have hroot := moved_root hp hg
    have hpre0 : ∀ {p : Path}, p <+: mp ++ sub.dropLast → p <+: mp ++ sub := fun h => h.trans ((List.prefix_append_right_inj mp).2 (List.dropLast_prefix _))
    by_cases hs1 : sub.dropLast = []
    · right
      rw [hs1, List.append_nil] at hpre0 ⊢
      obtain ⟨⟨k, hk, hkd⟩, _⟩ := hp.mounts m mp hroot hdec
      refine ⟨⟨k, .kept (fun s d h hpre => ?_) (by rw [List.append_nil]; exact hk) (fun hrm => ?_) (fun s d h hpre => ?_), hkd⟩, fun e' he' hset' hd' => ?_⟩
      · obtain ⟨m', mp', z, nz, k1, k2, k3, k4, _, rfl⟩ := hren.1 h
        obtain ⟨rfl, rfl⟩ := cross_moved hp hdec hne hg (Or.inl rfl) k1 k2 k3 (Or.inl rfl) (Or.inr k4) (hpre0 hpre)
        have := hpre.length_le
        rw [List.length_append] at this
        exact k2 (List.length_eq_zero_iff.1 (by omega))
      · rw [List.append_nil] at hrm
        obtain ⟨m', mp', y, n', g1, g2, g3, g4, g5, g6⟩ := removes_moved' ho hp hall hrm
        obtain ⟨rfl, rfl⟩ := cross_moved hp hdec hne hg (Or.inl rfl) g1 g2 g3 (Or.inr rfl) (Or.inl (hiding_of_deletes g4)) (hpre0 g5)
        exact ((named_below hp g1 y.reverse).2 (by simpa using g2)).not_prefix g5
      · rw [List.append_nil] at hpre
        obtain ⟨m', mp', z, nz, k1, k2, k3, k4, rfl, _⟩ := hren.1 h
        obtain ⟨rfl, rfl⟩ := cross_moved hp hdec hne hg (Or.inl rfl) k1 k2 k3 (Or.inr rfl) (Or.inr k4) (hpre0 hpre)
        exact ((named_below hp k1 z.reverse).2 (by simpa using k2)).not_prefix hpre
      · obtain ⟨m', mp', sub', n', g1, g2, g3, _, _, g4⟩ := set_not_redirect he' hset'
        have hpm : mp' ++ sub' <+: mp ++ sub := by rw [← g4, hd']; exact List.prefix_append _ _
        by_cases hmm : m' = m
        · subst hmm
          rw [hdec] at g1; cases g1
          rw [hd'] at g4
          have := congrArg List.length g4
          rw [List.length_append] at this
          exact g2 (List.length_eq_zero_iff.1 (by omega))
        · rw [hd'] at g4
          exact (hp.nested m mp m' mp' sub' n' hroot hdec hmm g1 (by rw [g4]; exact List.prefix_append _ _) g2 g3 _ (Or.inl rfl)).1 (by rw [g4])
    · obtain ⟨n', hn', hd'⟩ := FS.isDirAt_iff.1 (hp.wf.ancestor hg (q := m :: sub.dropLast) (by
        obtain ⟨r, hr, he⟩ := dropLast_below hne
        exact ⟨r, hr, by rw [List.cons_append, ← he]⟩))
      have hft := ftype_dir_of hd'
      have hwn : Spec.isWhiteout n' = false := dir_not_whiteout hp hn' hft
      by_cases hr : n'.redirect = none
      · left
        obtain ⟨e', he', hset', hd2, hs2⟩ := stored_isSet_moved hp ha hall hdec hs1 hn' hwn hr
        exact ⟨e', he', hset', hd2, _, hs2, hft⟩
      · right
        have hr' : n'.redirect.isSome = true := Option.isSome_iff_ne_none.2 hr
        have hmv : Spec.HasMoved env st (Spec.named st m mp sub.dropLast) (mp ++ sub.dropLast) := ⟨m, mp, sub.dropLast, n', hdec, hs1, hn', hr', rfl, rfl⟩
        obtain ⟨k, hk, hkd⟩ := ha.origins _ _ hmv
        refine ⟨⟨k, .moved _ _ [] (hren.2 hmv) (by rw [List.append_nil]) (fun _ _ _ h => h) (by simpa using hk) (by simpa using hstays _ _ (hren.2 hmv)) (fun s' d' _ h => by simpa using h), hkd⟩,
          fun e' he' hset' hd2 => ?_⟩
        obtain ⟨m', mp', sub', n2, g1, g2, g3, _, g5, g4⟩ := set_not_redirect he' hset'
        rw [hd2] at g4
        have hmm := ho.mounts m m' _ _ mp mp' (FS.mem_keys.2 ⟨_, hn'⟩) (FS.mem_keys.2 ⟨_, g3⟩) hdec g1 hs1 g2 g4
        subst hmm
        rw [hdec] at g1; cases g1
        have := List.append_cancel_left g4
        subst this
        rw [hn'] at g3; cases g3
        exact hr g5
  · obtain ⟨m, mp, sub', n, hdec, hne, hg, hrm, hr, hd⟩ := set_not_redirect he hset
    obtain ⟨sub, x', rfl⟩ : ∃ sub x, sub' = sub ++ [x] := ⟨_, _, (List.dropLast_append_getLast hne).symm⟩
    have hdl : e.dest.dropLast = mp ++ sub := by rw [hd, ← List.append_assoc, List.dropLast_concat]
    rw [hdl, hd, ← List.append_assoc] at hx
    have hxx : x' = x := by simpa using hx
    subst hxx
    rw [hdl] at hk
    have hst : s.node = n := by
      obtain ⟨ue, hue, h | h⟩ := mem_changes.1 (mem_selected he)
      · obtain ⟨_, _, _, _, h, _⟩ := mem_removesOf h
        obtain ⟨t, ht⟩ := hset
        rw [ht] at h; cases h
      · obtain ⟨m2, mp2, sub2, _, hi⟩ := mem_upperEntries hue
        obtain ⟨_, g2, g3, _⟩ := mem_setsOf h
        rw [g3] at hs; cases hs
        simp only
        have hdd : mp2 ++ sub2 = mp ++ (sub ++ [x']) := by rw [← hi.lowerPath, ← g2, hd]
        have hmm := ho.mounts m2 m _ _ mp2 mp (FS.mem_keys.2 ⟨_, hi.node⟩) (FS.mem_keys.2 ⟨_, hg⟩) hi.decode hdec hi.sub_ne hne hdd
        subst hmm
        have h3 := hi.decode
        rw [hdec] at h3; cases h3
        have h4 := List.append_cancel_left hdd
        have h5 := hi.node
        rw [h4, hg] at h5
        exact (Option.some.inj h5).symm
    obtain ⟨b, r, hsub, hB⟩ := exists_based st m mp sub
    obtain ⟨h1, h2, h3⟩ := arrives_moved ho hp ha hall hdec hg hsub hB hk
    obtain ⟨f, hf, hfl⟩ := arrives_lower ho hp ha hall hdec hg hsub hB hk
    have hB' : Based st m mp b (r ++ [x']) := by
      refine ⟨hB.base, fun q nq hb hq hgq => ?_⟩
      rw [← List.append_assoc] at hq
      rcases prefix_concat_cases hq with hq | hq
      · exact hB.last q nq hb hq hgq
      · rw [hq, ← hsub, hg] at hgq; cases hgq; exact hr
    have hnamed : Spec.named st m mp (sub ++ [x']) = Spec.named st m mp b ++ r ++ [x'] := by
      rw [hsub, List.append_assoc, hB'.named, List.append_assoc]
    have hno : ¬ (Spec.Removes (selected env st) (Spec.named st m mp (sub ++ [x'])) ∨ ∃ d, Spec.Renames (selected env st) (Spec.named st m mp (sub ++ [x'])) d) := by
      rw [hnamed]
      rintro (hx | ⟨d, hx⟩)
      · exact h2 hx
      · have := (h3 _ _ hx (List.prefix_refl _)).length_le
        simp only [List.length_append, List.length_singleton] at this
        omega
    rw [hst]
    constructor
    · intro hkd
      by_contra hnd
      obtain ⟨p1, p2⟩ := pexists_of_get hw h1 (by rw [hkd]; decide)
      refine hno (self_removes_moved hw hp hall hdec hne hg (by rw [hnamed]; exact h1) (by rw [hnamed]; exact p1) (Or.inr ⟨?_, by rw [hnamed]; exact p2.2 hkd⟩))
      cases hx : n.isDir with
      | false => rfl
      | true => exact absurd (ftype_dir_of hx) hnd
    · intro hnd
      rcases ha.dirs m mp sub x' n f _ k hdec hg hnd hr hf hfl h1 with h | ⟨h4, h5⟩
      · exact h
      · exact absurd (self_removes_moved hw hp hall hdec hne hg (by rw [hnamed]; exact h1) (by rw [hnamed]; exact h5) (Or.inl h4)) hno
  · obtain ⟨s, hs, hr, _⟩ := rename_fact ho he hop
    obtain ⟨m, mp, sub', n, hdec, hne, hg, hrd, _, hd⟩ := hren.1 hr
    obtain ⟨sub, x', rfl⟩ : ∃ sub x, sub' = sub ++ [x] := ⟨_, _, (List.dropLast_append_getLast hne).symm⟩
    have hdl : e.dest.dropLast = mp ++ sub := by rw [hd, ← List.append_assoc, List.dropLast_concat]
    rw [hdl, hd, ← List.append_assoc] at hx
    have hxx : x' = x := by simpa using hx
    subst hxx
    rw [hdl] at hk
    obtain ⟨b, r, hsub, hB⟩ := exists_based st m mp sub
    obtain ⟨h1, h2, h3⟩ := arrives_moved ho hp ha hall hdec hg hsub hB hk
    obtain ⟨f, hf, hfl⟩ := arrives_lower ho hp ha hall hdec hg hsub hB hk
    obtain ⟨z, kz, g1, g2, g3⟩ := ha.free m mp sub x' n f _ k hdec hg hrd hf hfl h1
    have hz0 : z ≠ [] := by
      obtain ⟨rd, hrd'⟩ := Option.isSome_iff_exists.1 g2
      exact (hp.redirects m mp z kz rd hdec g1 hrd').1
    have := (h3 _ _ (hren.2 ⟨m, mp, z, kz, hdec, hz0, g1, g2, rfl, rfl⟩) (by rw [g3])).length_le
    rw [g3] at this
    simp only [List.length_append, List.length_singleton] at this
    omega

end

/-- **C85 (partial)**: accepting everything a sandbox contains succeeds, also if directories of the host have been renamed in it, if what is stored can be put on the host and what it deletes or
renames can be deleted or renamed there.
Missing: the cases that `Spec.MovedStorage` and `Spec.MovesAcceptable` exclude (refuted by `C13_refuted_replaced`, `C14_refuted_cwd`, `C14_refuted_other_mount`, `C08_refuted_duplicate` and the
refutations of C01 and C15); symbolic links of the host in the way. -/
theorem C85_everything_moved_partial (env : Env) (st : State) (ho : Spec.Ordinary env st) (hm : Spec.MovedStorage env st) (ha : Spec.MovesAcceptable env st)
    (hall : Spec.AllSelected env st) (hd : Spec.OneDevice st.upper) : (accept env st).error = none :=
  feasibleMoves_ok ho hm.wf hd (everything_feasible_moves ho hm ha hall)

/-! ### Non-vacuity -/

/-- The renamed directories as a list. -/
def movedList (env : Env) (st : State) : List (Path × Path) :=
  st.upper.filterMap (fun x => match x.1 with
    | [] => none
    | m :: z => if z ≠ [] ∧ x.2.redirect.isSome = true then (env.decode m).map (fun mp => (Spec.named st m mp z, mp ++ z)) else none)

theorem mem_movedList {env : Env} {st : State} {o d : Path} (h : Spec.HasMoved env st o d) : (o, d) ∈ movedList env st := by
  obtain ⟨m, mp, z, n, h1, h2, h3, h4, rfl, rfl⟩ := h
  unfold movedList
  refine List.mem_filterMap.2 ⟨(m :: z, n), FS.mem_of_get h3, ?_⟩
  simp [h1, h2, h4]

def movedAwayB (st : State) (m : Name) (mp o : Path) : Bool :=
  st.upper.any (fun z => decide (z.1.head? = some m) && z.2.redirect.isSome && decide (Spec.named st m mp z.1.tail = o))

theorem movedAway_iff {st : State} (hu : st.upper.WF) {m : Name} {mp o : Path} : movedAwayB st m mp o = true ↔ Spec.MovedAway st m mp o := by
  unfold movedAwayB Spec.MovedAway
  rw [List.any_eq_true]
  constructor
  · rintro ⟨⟨zp, zn⟩, z1, hz⟩
    simp only [Bool.and_eq_true, decide_eq_true_eq] at hz
    obtain ⟨⟨z2, z3⟩, z4⟩ := hz
    cases zp with
    | nil => cases z2
    | cons a zp =>
      simp only [List.head?_cons, Option.some.injEq] at z2
      subst z2
      exact ⟨zp, zn, FS.get_of_mem hu.nodup z1, z3, z4⟩
  · rintro ⟨z, k, h1, h2, h3⟩
    exact ⟨(m :: z, k), FS.mem_of_get h1, by simp [h2, h3]⟩

/-- Decidable form of `Spec.MovesAcceptable`, for examples. -/
theorem movesAcceptable_of_check {env : Env} {st : State} (hu : st.upper.WF) (M : Path) (D : Nat)
    (h1 : ∀ x ∈ st.upper, x.1.tail ≠ [] → (∃ m ∈ x.1.head?, ∃ mp ∈ env.decode m, True) → Spec.isWhiteout x.2 = false →
      Spec.ftype x.2.kind = .file ∨ Spec.ftype x.2.kind = .directory ∨ Spec.ftype x.2.kind = .symlink)
    (h2 : ∀ x ∈ movedList env st, (∃ k ∈ st.lower.get x.1, Spec.ftype k.kind = .directory) ∧ (∀ k ∈ st.lower.get x.2, Spec.ftype k.kind ≠ .symlink) ∧ ¬ x.1 <+: env.cwd ∧
      M <+: x.1 ∧ M <+: x.2 ∧ x.1 ≠ M ∧ x.2 ≠ M)
    (h3 : ∀ x ∈ st.upper, x.1.tail ≠ [] → ∀ m ∈ x.1.head?, ∀ mp ∈ env.decode m, Spec.Deletes st x.2 (Spec.named st m mp x.1.tail) →
      ¬ Spec.named st m mp x.1.tail <+: env.cwd ∧
      (movedAwayB st m mp (Spec.named st m mp x.1.tail) = false →
        (∀ q ∈ st.lower.keys, Spec.named st m mp x.1.tail <+: q → ∀ k ∈ st.lower.get q,
          (Spec.ftype k.kind = .file ∨ Spec.ftype k.kind = .directory ∨ Spec.ftype k.kind = .symlink) ∧
          (Spec.ftype k.kind = .directory → ∀ k' ∈ st.lower.get q.dropLast, k'.dev = k.dev)) ∧
        ∀ o ∈ st.upper, o.1.tail ≠ [] → o.1.head? = some m → Spec.Deletes st o.2 (Spec.named st m mp o.1.tail) → movedAwayB st m mp (Spec.named st m mp o.1.tail) = false →
          (st.lower.get (Spec.named st m mp o.1.tail)).isSome = true → Spec.named st m mp x.1.tail <+: Spec.named st m mp o.1.tail → x.1.tail = o.1.tail))
    (h4 : ∀ x ∈ st.upper, x.1.tail ≠ [] → ∀ m ∈ x.1.head?, ∀ mp ∈ env.decode m, ∀ f ∈ Spec.lookup st m mp x.1.tail.dropLast, ∀ l ∈ f.lower,
      ∀ k ∈ st.lower.get (l ++ x.1.tail.drop (x.1.tail.length - 1)),
      (Spec.ftype x.2.kind = .directory → x.2.redirect = none → Spec.ftype k.kind = .directory ∨ (x.2.opq = true ∧ st.lower.pexists (l ++ x.1.tail.drop (x.1.tail.length - 1)) = true)) ∧
      (x.2.redirect.isSome = true → movedAwayB st m mp (l ++ x.1.tail.drop (x.1.tail.length - 1)) = true))
    (h5 : movedList env st ≠ [] → (∃ k ∈ st.lower.get env.cwd, Spec.ftype k.kind = .directory) ∧ M <+: env.cwd ∧ (∃ k ∈ st.lower.get M, k.dev = D) ∧
      (M = [] ∨ ∀ k ∈ st.lower.get M.dropLast, k.dev ≠ D))
    (h6 : ∀ y ∈ st.lower, M <+: y.1 → (y.1 <+: env.cwd ∨ ∃ x ∈ movedList env st, x.1 <+: y.1 ∨ y.1 <+: x.1 ∨ y.1 <+: x.2) → y.2.dev = D) : Spec.MovesAcceptable env st := by
  have hlast : ∀ (sub : Path) (x : Name), (sub ++ [x]).drop ((sub ++ [x]).length - 1) = [x] := by intro sub x; simp
  have hmb : ∀ {m mp o}, ¬ Spec.MovedAway st m mp o → movedAwayB st m mp o = false := by
    intro m mp o h
    cases hx : movedAwayB st m mp o with
    | false => rfl
    | true => exact absurd ((movedAway_iff hu).1 hx) h
  refine ⟨fun m mp sub n hd hne hg hw => h1 _ (FS.mem_of_get hg) hne ⟨m, rfl, mp, hd, trivial⟩ hw, fun o d h => ?_, fun m mp sub n q k hd hne hg hdl hnm hpre hk => ?_,
    fun m mp sub n sub' n' k hd hne hg hdl hnm hne' hg' hdl' hnm' hk hpre => ?_, fun m mp sub x n f l k hd hg hnd hr hf hl hk => ?_, fun m mp sub x n f l k hd hg hr hf hl hk => ?_,
    fun o d k h hk => ?_, fun o d h => ?_, fun ⟨o, d, h⟩ => ?_⟩
  · obtain ⟨k, a, b⟩ := (h2 _ (mem_movedList h)).1
    exact ⟨k, a, b⟩
  · exact ((h3 _ (FS.mem_of_get hg) hne m rfl mp hd hdl).2 (hmb hnm)).1 q (FS.mem_keys.2 ⟨k, hk⟩) hpre k hk
  · exact ((h3 _ (FS.mem_of_get hg) hne m rfl mp hd hdl).2 (hmb hnm)).2 _ (FS.mem_of_get hg') hne' rfl hdl' (hmb hnm') (by simp only [List.tail_cons]; rw [hk]; rfl) hpre
  · have := (h4 _ (FS.mem_of_get hg) (by simp) m rfl mp hd f (by simpa using hf) l hl k (by simpa using hk)).1 hnd hr
    simpa using this
  · have := (h4 _ (FS.mem_of_get hg) (by simp) m rfl mp hd f (by simpa using hf) l hl k (by simpa using hk)).2 hr
    exact (movedAway_iff hu).1 (by simpa using this)
  · exact (h2 _ (mem_movedList h)).2.1 k hk
  · obtain ⟨⟨k, a, b⟩, _⟩ := h5 (fun hx => by have := mem_movedList h; rw [hx] at this; cases this)
    exact ⟨⟨k, a, b⟩, (h2 _ (mem_movedList h)).2.2.1, fun m mp y n hd hne hg hdl => (h3 _ (FS.mem_of_get hg) hne m rfl mp hd hdl).1⟩
  · obtain ⟨_, c1, ⟨k, c2, c3⟩, c4⟩ := h5 (fun hx => by have := mem_movedList h; rw [hx] at this; cases this)
    refine ⟨M, ⟨k, c2, ?_, fun p hp => ?_⟩, fun o d h => (h2 _ (mem_movedList h)).2.2.2.2.2⟩
    · rcases c4 with c4 | c4
      · exact Or.inl c4
      · exact Or.inr (fun x hx => by rw [c3]; exact c4 x hx)
    · rcases hp with rfl | ⟨o, d, h, hp⟩
      · exact ⟨c1, fun q n hq hq' hn => by rw [c3]; exact h6 _ (FS.mem_of_get hn) hq (Or.inl hq')⟩
      · obtain ⟨_, _, _, e1, e2, _⟩ := h2 _ (mem_movedList h)
        rcases hp with hp | rfl
        · refine ⟨e1.trans hp, fun q n hq hq' hn => ?_⟩
          rw [c3]
          refine h6 _ (FS.mem_of_get hn) hq (Or.inr ⟨_, mem_movedList h, ?_⟩)
          rcases prefix_total hq' hp with h | h
          · exact Or.inr (Or.inl h)
          · exact Or.inl h
        · exact ⟨e2, fun q n hq hq' hn => by rw [c3]; exact h6 _ (FS.mem_of_get hn) hq (Or.inr ⟨_, mem_movedList h, Or.inr (Or.inr hq')⟩)⟩

set_option synthInstance.maxSize 1000 in
set_option synthInstance.maxHeartbeats 200000 in
theorem exMany_acceptable : Spec.MovesAcceptable exViewEnv exMany :=
  movesAcceptable_of_check (by decide +kernel) [] 1 (by decide +kernel) (by decide +kernel) (by decide +kernel) (by decide +kernel) (by decide +kernel) (by decide +kernel)

-- directories renamed, one out of the other, one of their old places taken by a new directory, files changed and removed in them, in two mounts
example : (accept exViewEnv exMany).error = none :=
  C85_everything_moved_partial exViewEnv exMany exMany_ordinary exMany_moved exMany_acceptable exMany_all (oneDevice_of_check 0 (by decide +kernel))
example : movedList exViewEnv exMany = [([str "d"], [str "e"]), ([str "d", str "x"], [str "o", str "y"])] := by decide +kernel

end SB
