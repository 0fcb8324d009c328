import Verif.Lib.RenamePass
import Verif.Props.Removal

/-!
# C14: sets of renames are applied simultaneously
-/

namespace SB

open scoped List

/-- All paths satisfying `P` lie on the mount at `M` (a directory whose parent, if any, is on another device), with no other mount point on the way to them. -/
def Spec.OnMount (host : FS) (M : Path) (P : Path → Prop) : Prop :=
  ∃ m, host.get M = some m ∧ (M = [] ∨ ∀ x, host.get M.dropLast = some x → x.dev ≠ m.dev) ∧
    ∀ p, P p → M <+: p ∧ ∀ q n, M <+: q → q <+: p → host.get q = some n → n.dev = m.dev

/-- The changes are renames that do not depend on each other: no source lies in another source, no destination in another destination or in a source; a destination is
free or is itself renamed away, its parent directory exists; and everything, including the current directory, which is outside the sources, is on one mount. -/
structure Spec.IndependentRenames (env : Env) (host : FS) (sel : List Entry) : Prop where
  renames : ∀ e ∈ sel, e.op = .rename
  sources : ∀ s d s' d', Spec.Renames sel s d → Spec.Renames sel s' d' → s <+: s' → d = d'
  kinds : ∀ s d n, Spec.Renames sel s d → host.get s = some n → ftype n.kind ≠ .symlink
  dests : ∀ s d s' d', Spec.Renames sel s d → Spec.Renames sel s' d' → d <+: d' → d = d'
  free : ∀ s d, Spec.Renames sel s d → host.get d = none ∨ ∃ d', Spec.Renames sel d d'
  parent : ∀ s d, Spec.Renames sel s d → ∃ n, host.get d.dropLast = some n ∧ ftype n.kind = .directory
  outside : ∀ s d s' d', Spec.Renames sel s d → Spec.Renames sel s' d' → ¬ Below s' d
  cwd : ∃ n, host.get env.cwd = some n ∧ ftype n.kind = .directory
  cwdOutside : ∀ s d, Spec.Renames sel s d → ¬ s <+: env.cwd
  mount : ∃ M, Spec.OnMount host M (fun p => p = env.cwd ∨ ∃ s d, Spec.Renames sel s d ∧ (p = s ∨ p = d)) ∧
    ∀ s d, Spec.Renames sel s d → s ≠ M ∧ d ≠ M

theorem isDir_of_ftype {n : Node} (h : Spec.ftype n.kind = .directory) : n.isDir = true := by
  unfold Node.isDir
  cases hk : n.kind <;> simp_all [Spec.ftype]

theorem isLnk_of_ftype {n : Node} (h : Spec.ftype n.kind ≠ .symlink) : n.isLnk = false := by
  unfold Node.isLnk
  cases hk : n.kind <;> simp_all [Spec.ftype, Kind.isLnk]

theorem prefix_concat_cases {q a : Path} {x : Name} (h : q <+: a ++ [x]) : q <+: a ∨ q = a ++ [x] := by
  rcases List.prefix_concat_iff.1 h with h | h
  · exact Or.inr (by simpa using h)
  · exact Or.inl h

/-- The source of a rename is what is at its path on the host. -/
theorem rename_source {env : Env} {st : State} {e : Entry} {s : Details} (he : e ∈ changes env st) (ho : e.op = .rename) (hs : e.source = some s) :
    st.lower.lstat s.path = .ok s.node := by
  obtain ⟨ue, hue, h | h⟩ := mem_changes.1 he
  · obtain ⟨_, _, _, _, h, _⟩ := mem_removesOf h
    rw [ho] at h; cases h
  · obtain ⟨_, _, _, hsrc, _⟩ := mem_setsOf h
    obtain ⟨m, mp, sub, _, hi⟩ := mem_upperEntries hue
    rw [hsrc, hi.details] at hs
    cases hsp : ue.sourcePath with
    | none => rw [hsp] at hs; cases hs
    | some sp =>
      rw [hsp] at hs
      simp only [Option.bind_some] at hs
      unfold details at hs
      split at hs
      · cases hs; assumption
      · cases hs

section
variable {env : Env} {st : State}

theorem renames_facts (ho : Spec.Ordinary env st) (hr : Spec.IndependentRenames env st.lower (selected env st)) :
    ∀ e ∈ selected env st, ∃ s : Details, e.source = some s ∧ Spec.Renames (selected env st) s.path e.dest ∧ st.lower.get s.path = some s.node := by
  intro e he
  obtain ⟨s, hs⟩ := changes_rename_source (mem_selected he) (hr.renames e he)
  refine ⟨s, hs, ⟨e, he, hr.renames e he, rfl, s, hs, rfl⟩, ?_⟩
  have h1 := rename_source (mem_selected he) (hr.renames e he) hs
  obtain ⟨hN, hl⟩ := ho.plain.source e he s hs
  unfold FS.lstat at h1
  cases hc : st.lower.canon s.path with
  | error x => rw [hc] at h1; cases h1
  | ok c =>
    rw [hc] at h1
    obtain ⟨rfl, hch⟩ := FS.canon_ok_chain ho.wf hN (noLinkAbove_of_ftype hl) hc
    simp only at h1
    cases hg : st.lower.get s.path with
    | none => rw [hg] at h1; cases h1
    | some n => rw [hg] at h1; cases h1; rfl

/-- The pairs (temporary, destination) of the second rename pass. -/
def finishPairs (l : List Entry) : List (Path × Path) := l.filterMap (fun e => e.tmp.map (fun t => (t, e.dest)))

theorem applyOps_renames (env : Env) : ∀ (l : List Entry) (i : Nat), (∀ e ∈ l, e.op = .rename) →
    applyOps env i l = (finishPairs l).map (fun p => .mv p.1 p.2) := by
  intro l
  induction l with
  | nil => intro i _; rfl
  | cons e r ih =>
    intro i h
    unfold applyOps
    rw [h e (by simp), ih _ (fun e he => h e (by simp [he]))]
    unfold finishPairs
    rw [List.filterMap_cons]
    cases e.tmp <;> cases e.staged <;> rfl

theorem renTmp_not_prefix {cwd s d s' d' : Path} {u u' : Str} (h : renameTmp cwd s d u ≠ renameTmp cwd s' d' u') :
    ¬ renameTmp cwd s d u <+: renameTmp cwd s' d' u' :=
  fun hp => h (hp.eq_of_length (by simp [renameTmp]))

/-- **C14 (partial)**: accepting independent renames (swaps, cycles and chains included) succeeds; each source subtree is afterwards at its destination with all its
content, the sources (unless they are destinations) are gone, and nothing else has changed.
Missing: current directory inside a source or on another mount, where the accept fails (`C14_refuted_cwd`), and host symbolic links above the paths. -/
theorem C14_renames_partial (env : Env) (st : State) (ho : Spec.Ordinary env st) (hu : st.upper.WF) (hd : Spec.OneDevice st.upper)
    (hr : Spec.IndependentRenames env st.lower (selected env st)) :
    (accept env st).error = none ∧
    (∀ s d r, Spec.Renames (selected env st) s d → (accept env st).state.lower.get (d ++ r) = st.lower.get (s ++ r)) ∧
    (∀ q, (∃ s d, Spec.Renames (selected env st) s d ∧ s <+: q) → (∀ s d, Spec.Renames (selected env st) s d → ¬ d <+: q) →
      (accept env st).state.lower.get q = none) ∧
    (∀ q, (∀ s d, Spec.Renames (selected env st) s d → ¬ s <+: q ∧ ¬ d <+: q) → (accept env st).state.lower.get q = st.lower.get q) := by
  by_cases hne : selected env st = []
  · have hne' : matching env.glob env.cwd env.patterns (changes env st) = [] := hne
    have h1 : accept env st = { state := st, error := none, accepted := 0, nonMatching := nonMatchingCount (changes env st) [] } := by
      simp [accept, hne']
    have hno : ∀ s d, ¬ Spec.Renames (selected env st) s d := by
      rintro s d ⟨e, he, _⟩
      rw [hne] at he; cases he
    rw [h1]
    exact ⟨rfl, fun s d r h => absurd h (hno s d), fun q ⟨s, d, h, _⟩ => absurd h (hno s d), fun q _ => rfl⟩
  have hfacts := renames_facts ho hr
  have hg := ho.ready.good
  obtain ⟨M, ⟨m, hm, hMt, hMp⟩, hMne⟩ := hr.mount
  -- entries of any order of the selection
  have hF : ∀ {l : List Entry}, (∀ e ∈ l, From (selected env st) e) → ∀ e ∈ l, e.op = .rename ∧ ∃ e0 ∈ selected env st, e.dest = e0.dest ∧
      ∃ s : Details, e0.source = some s ∧ e.source = some s ∧ Spec.Renames (selected env st) s.path e.dest ∧ st.lower.get s.path = some s.node := by
    intro l hl e he
    obtain ⟨e0, h0, hcore⟩ := hl e he
    obtain ⟨g1, g2, g3, g4⟩ := core_op hcore
    obtain ⟨s, h1, h2, h3⟩ := hfacts e0 h0
    exact ⟨g1.trans (hr.renames e0 h0), e0, h0, g2, s, h1, g3.trans h1, by rw [g2]; exact h2, h3⟩
  -- temporary names are new
  have hnew : ∀ {s d : Path} (j : Nat), Spec.Renames (selected env st) s d → Spec.NewName env st.lower (selected env st) (Spec.renName s d (env.uuidR j)) := by
    rintro s d j ⟨e, he, _, rfl, x, hx, rfl⟩
    exact ho.fresh.ren j e he x hx
  have hxs : ∀ {s d s' d' : Path} (j : Nat), Spec.Renames (selected env st) s d → Spec.Renames (selected env st) s' d' →
      Spec.renName s d (env.uuidR j) ∉ s' ∧ Spec.renName s d (env.uuidR j) ∉ d' := by
    rintro s d s' d' j h ⟨e', he', _, rfl, x', hx', rfl⟩
    exact ⟨(hnew j h).source e' he' x' hx', (hnew j h).dest e' he'⟩
  have hnt : ∀ {s d : Path} (j : Nat), Spec.Renames (selected env st) s d → ∀ q, renameTmp env.cwd s d (env.uuidR j) <+: q → Spec.renName s d (env.uuidR j) ∈ q := by
    intro s d j _ q hq
    exact hq.subset (by rw [renameTmp_eq]; simp)
  -- facts about sources, destinations, the current directory
  obtain ⟨nc, hnc, hncd⟩ := hr.cwd
  have hcwdDir : ∀ y, y <+: env.cwd → st.lower.isDirAt y = true := by
    intro y hy
    by_cases he : y = env.cwd
    · rw [he]; exact FS.isDirAt_iff.2 ⟨nc, hnc, isDir_of_ftype hncd⟩
    · exact ho.wf.ancestor hnc (below_iff.2 ⟨hy, he⟩)
  have hpar : ∀ {s d : Path}, Spec.Renames (selected env st) s d → st.lower.Chain d := by
    intro s d h y hy
    obtain ⟨n, hn, hnd⟩ := hr.parent s d h
    have h1 := prefix_dropLast_of_below hy
    by_cases he : y = d.dropLast
    · rw [he]; exact FS.isDirAt_iff.2 ⟨n, hn, isDir_of_ftype hnd⟩
    · exact ho.wf.ancestor hn (below_iff.2 ⟨h1, he⟩)
  have hMs : ∀ {s d : Path}, Spec.Renames (selected env st) s d → Below M s ∧ Below M d := by
    intro s d h
    exact ⟨below_iff.2 ⟨(hMp s (Or.inr ⟨s, d, h, Or.inl rfl⟩)).1, fun he => (hMne s d h).1 he.symm⟩,
      below_iff.2 ⟨(hMp d (Or.inr ⟨s, d, h, Or.inr rfl⟩)).1, fun he => (hMne s d h).2 he.symm⟩⟩
  have hMc : M <+: env.cwd := (hMp env.cwd (Or.inl rfl)).1
  have hne0 : ∀ {p : Path}, Below M p → p ≠ [] := by
    rintro p hb rfl
    exact hb.not_prefix List.nil_prefix
  have hdevOf : ∀ {q : Path} {n : Node}, (∃ p, (p = env.cwd ∨ ∃ s d, Spec.Renames (selected env st) s d ∧ (p = s ∨ p = d)) ∧ q <+: p) → M <+: q →
      st.lower.get q = some n → n.dev = m.dev := by
    rintro q n ⟨p, hp, hqp⟩ hMq hn
    exact (hMp p hp).2 q n hMq hqp hn
  have hdevPar : ∀ {p : Path}, (p = env.cwd ∨ ∃ s d, Spec.Renames (selected env st) s d ∧ (p = s ∨ p = d)) → Below M p → st.lower.isDirAt p.dropLast = true →
      st.lower.devOf p.dropLast = m.dev := by
    intro p hp hb hdir
    obtain ⟨n, hn, _⟩ := FS.isDirAt_iff.1 hdir
    unfold FS.devOf
    rw [hn]
    exact hdevOf ⟨p, hp, List.dropLast_prefix _⟩ (prefix_dropLast_of_below hb) hn
  have hdevCwd : st.lower.devOf env.cwd = m.dev := by
    unfold FS.devOf
    rw [hnc]
    exact hdevOf ⟨env.cwd, Or.inl rfl, List.prefix_refl _⟩ hMc hnc
  -- destinations are pairwise different in every order
  have hdists : ∀ {l : List Entry}, l.map Entry.core ~ (selected env st).map Entry.core → l.Pairwise (fun e e' => e.dest ≠ e'.dest) := by
    intro l hp
    have hdd : ((selected env st).map (·.dest)).Nodup := by
      rw [List.Nodup, List.pairwise_map]
      exact ho.distinct.imp_of_mem (fun ha hb h => h (Or.inr (hr.renames _ ha)) (Or.inr (hr.renames _ hb)))
    have hp' : l.map (·.dest) ~ (selected env st).map (·.dest) := by
      have := hp.map (·.dest)
      simpa [List.map_map, Function.comp_def, Entry.core] using this
    have := hp'.nodup_iff.2 hdd
    rw [List.Nodup, List.pairwise_map] at this
    exact this
  -- first pass
  have hpair1 : ∀ p ∈ movePairs (realOrders env (selected env st)).2.1, ∃ d j, Spec.Renames (selected env st) p.1 d ∧ p.2 = renameTmp env.cwd p.1 d (env.uuidR j) := by
    intro p hp
    obtain ⟨e, he, s, j, h1, h2, h3, h4⟩ := pairs_c4 hg hp
    exact ⟨e.dest, j, ⟨e, he, h1, rfl, s, h2, h3.symm⟩, by rw [h3]; exact h4⟩
  have htcwd : ∀ {s d : Path} (j : Nat) {y : Path}, Below y (renameTmp env.cwd s d (env.uuidR j)) → y <+: env.cwd := fun j y h => below_renTmp h
  have hM1 : Moves st.lower (movePairs (realOrders env (selected env st)).2.1) := by
    refine ⟨fun p hp => ?_, fun p hp => ?_, fun p hp => ?_, fun p hp p' hp' => ?_, ?_⟩
    · obtain ⟨d, j, h, _⟩ := hpair1 p hp
      have hb := (hMs h).1
      obtain ⟨e, he, _, _, x, hx, hxp⟩ := id h
      obtain ⟨s, hs, _, hget⟩ := hfacts e he
      rw [hx] at hs; cases hs
      rw [hxp] at hget
      refine ⟨hne0 hb, x.node, hget, fun _ => ?_⟩
      refine ho.wf.mountPoint_false hget (hne0 hb) (fun y hy => ?_)
      rw [hdevOf ⟨p.1, Or.inr ⟨p.1, d, h, Or.inl rfl⟩, List.prefix_refl _⟩ hb.prefix hget,
        hdevOf ⟨p.1, Or.inr ⟨p.1, d, h, Or.inl rfl⟩, List.dropLast_prefix _⟩ (prefix_dropLast_of_below hb) hy]
    · obtain ⟨d, j, h, h2⟩ := hpair1 p hp
      obtain ⟨e, he, _, hed, x, hx, hxp⟩ := id h
      refine ⟨?_, fun y hy => ?_, ?_⟩
      · rw [h2, ← hxp, ← hed]; exact normal_renTmp hg he hx j
      · rw [h2] at hy; exact hcwdDir y (htcwd j hy)
      · exact NewName_none (hnew j h) (hnt j h _ (by rw [h2]))
    · obtain ⟨d, j, h, h2⟩ := hpair1 p hp
      have hb := (hMs h).1
      obtain ⟨e, he, _, _, x, hx, hxp⟩ := id h
      obtain ⟨s, hs, _, hget⟩ := hfacts e he
      rw [hx] at hs; cases hs
      rw [hxp] at hget
      rw [hdevPar (Or.inr ⟨p.1, d, h, Or.inl rfl⟩) hb (ho.wf.ancestor hget (dropLast_below (hne0 hb))), h2, renameTmp_eq, List.dropLast_concat, hdevCwd]
    · obtain ⟨d, j, h, _⟩ := hpair1 p hp
      obtain ⟨d', j', h', h2'⟩ := hpair1 p' hp'
      refine ⟨fun hpre => ?_, fun hpre => ?_⟩
      · rw [h2', renameTmp_eq] at hpre
        rcases prefix_concat_cases hpre with hpre | hpre
        · exact hr.cwdOutside _ _ h hpre
        · exact (hxs j' h' h).1 (by rw [hpre]; simp)
      · rw [h2'] at hpre
        exact (hxs j' h' h).1 (hnt j' h' _ hpre)
    · refine movePairs_pairwise ?_
      refine ((tmps_c4 hg).and (hdists (core_c4 env (selected env st)))).imp_of_mem ?_
      intro e e' he he' hx s t s' t' h1 h1' h2 h3 h2' h3'
      obtain ⟨_, e0, h0, hd0, sd, _, hs, hren, _⟩ := hF from_c4 e he
      obtain ⟨_, e0', h0', hd0', sd', _, hs', hren', _⟩ := hF from_c4 e' he'
      rw [hs] at h2; cases h2
      rw [hs'] at h2'; cases h2'
      obtain ⟨j, hj⟩ := c4_tmp he h1 hs
      obtain ⟨j', hj'⟩ := c4_tmp he' h1' hs'
      have htt := hx.1 h1 h1'
      rw [hj, hj'] at htt
      have htt' : renameTmp env.cwd s.path e.dest (env.uuidR j) ≠ renameTmp env.cwd s'.path e'.dest (env.uuidR j') := fun h => htt (by rw [h])
      rw [hj] at h3; cases h3
      rw [hj'] at h3'; cases h3'
      exact ⟨fun h => hx.2 (hr.sources _ _ _ _ hren hren' h), fun h => hx.2 (hr.sources _ _ _ _ hren' hren h).symm,
        renTmp_not_prefix htt', renTmp_not_prefix (Ne.symm htt')⟩
  obtain ⟨st2, hrun1, hw2, hu2, a1, a2, a3⟩ := moves_run _ st ho.wf hM1
  -- the middle state
  have hmid : ∀ q, (∀ s d, Spec.Renames (selected env st) s d → ¬ s <+: q) → (∀ s d j, Spec.Renames (selected env st) s d → Spec.renName s d (env.uuidR j) ∉ q) →
      st2.lower.get q = st.lower.get q := by
    intro q h1 h2
    refine a3 q (fun p hp => ?_)
    obtain ⟨d, j, h, hp2⟩ := hpair1 p hp
    exact ⟨h1 _ _ h, fun hpre => h2 _ _ j h (hnt j h q (by rw [← hp2]; exact hpre))⟩
  have hsrcGone : ∀ s d q, Spec.Renames (selected env st) s d → s <+: q → st2.lower.get q = none := by
    intro s d q h hq
    obtain ⟨e, he, ho', hed, ⟨x, hx, hxs'⟩, t, ht, hpair⟩ := ren_c5 hg h
    exact a2 _ hpair q hq
  have hcwd2 : st2.lower.get env.cwd = st.lower.get env.cwd :=
    hmid _ (fun s d h => hr.cwdOutside s d h) (fun s d j h => (hnew j h).cwd)
  have hup2 : ∀ {s d : Path}, Spec.Renames (selected env st) s d → ∀ y, Below y d → st2.lower.get y = st.lower.get y := by
    intro s d h y hy
    refine hmid y (fun s' d' h' hpre => hr.outside s d s' d' h h' (below_of_prefix_below hpre hy)) (fun s' d' j h' hmem => (hxs j h' h).2 (hy.prefix.subset hmem))
  have hcwdUp2 : ∀ y, y <+: env.cwd → st2.lower.get y = st.lower.get y := by
    intro y hy
    exact hmid y (fun s d h hpre => hr.cwdOutside s d h (hpre.trans hy)) (fun s d j h hmem => (hnew j h).cwd (hy.subset hmem))
  -- second pass
  have hpair2 : ∀ p ∈ finishPairs (realOrders env (selected env st)).2.2, ∃ s j, Spec.Renames (selected env st) s p.2 ∧ p.1 = renameTmp env.cwd s p.2 (env.uuidR j) ∧
      (s, p.1) ∈ movePairs (realOrders env (selected env st)).2.1 := by
    intro p hp
    unfold finishPairs at hp
    obtain ⟨e, he, hep⟩ := List.mem_filterMap.1 hp
    obtain ⟨h1, e0, h0, hd0, sd, _, hs, hren, _⟩ := hF from_c5 e he
    obtain ⟨j, hj⟩ := c5_tmp he h1 hs
    rw [hj] at hep
    simp only [Option.map_some, Option.some.injEq] at hep
    subst hep
    exact ⟨sd.path, j, hren, rfl, movePairs_of (mem_stableSort.1 he) h1 hs hj⟩
  have hM2 : Moves st2.lower (finishPairs (realOrders env (selected env st)).2.2) := by
    refine ⟨fun p hp => ?_, fun p hp => ?_, fun p hp => ?_, fun p hp p' hp' => ?_, ?_⟩
    · obtain ⟨s, j, h, h1, hpm⟩ := hpair2 p hp
      have hgt := a1 _ hpm []
      simp only [List.append_nil] at hgt
      obtain ⟨e, he, _, _, x, hx, hxp⟩ := id h
      obtain ⟨s', hs', _, hget⟩ := hfacts e he
      rw [hx] at hs'; cases hs'
      rw [hxp] at hget
      rw [hget] at hgt
      have ht0 : p.1 ≠ [] := by rw [h1]; simp [renameTmp]
      refine ⟨ht0, x.node, hgt, fun _ => ?_⟩
      refine hw2.mountPoint_false hgt ht0 (fun y hy => ?_)
      rw [h1, renameTmp_eq, List.dropLast_concat, hcwd2] at hy
      rw [hdevOf ⟨env.cwd, Or.inl rfl, List.prefix_refl _⟩ hMc hy, hdevOf ⟨s, Or.inr ⟨s, p.2, h, Or.inl rfl⟩, List.prefix_refl _⟩ (hMs h).1.prefix hget]
    · obtain ⟨s, j, h, h1, hpm⟩ := hpair2 p hp
      obtain ⟨e, he, _, hed, x, hx, hxp⟩ := id h
      refine ⟨by rw [← hed]; exact (ho.plain.dest e he).1, fun y hy => ?_, ?_⟩
      · rw [FS.isDirAt_congr (hup2 h y hy)]
        exact hpar h y hy
      · rcases hr.free s p.2 h with hf | ⟨d', hf⟩
        · by_cases hx : ∃ s' d', Spec.Renames (selected env st) s' d' ∧ s' <+: p.2
          · obtain ⟨s', d', hx1, hx2⟩ := hx
            exact hsrcGone s' d' _ hx1 hx2
          · rw [hmid p.2 (fun s' d' h' hpre => hx ⟨s', d', h', hpre⟩) (fun s' d' j h' => (hxs j h' h).2), hf]
        · exact hsrcGone p.2 d' _ hf (List.prefix_refl _)
    · obtain ⟨s, j, h, h1, hpm⟩ := hpair2 p hp
      have hb := (hMs h).2
      have h2 : st2.lower.devOf p.1.dropLast = m.dev := by
        rw [h1, renameTmp_eq, List.dropLast_concat]
        unfold FS.devOf at hdevCwd ⊢
        rw [hcwd2]; exact hdevCwd
      have h3 : st2.lower.devOf p.2.dropLast = m.dev := by
        have := hdevPar (Or.inr ⟨s, p.2, h, Or.inr rfl⟩) hb (hpar h _ (dropLast_below (hne0 hb)))
        unfold FS.devOf at this ⊢
        rw [hup2 h _ (dropLast_below (hne0 hb))]; exact this
      rw [h2, h3]
    · obtain ⟨s, j, h, h1, _⟩ := hpair2 p hp
      obtain ⟨s', j', h', h1', _⟩ := hpair2 p' hp'
      refine ⟨fun hpre => ?_, fun hpre => ?_⟩
      · rw [h1] at hpre
        exact (hxs j h h').2 (hnt j h _ hpre)
      · rw [h1, renameTmp_eq] at hpre
        rcases prefix_concat_cases hpre with hpre | hpre
        · rcases hr.free s' p'.2 h' with hf | ⟨d', hf⟩
          · obtain ⟨n, hn, _⟩ := FS.isDirAt_iff.1 (hcwdDir _ hpre)
            rw [hf] at hn; cases hn
          · exact hr.cwdOutside _ _ hf hpre
        · exact (hxs j h h').2 (by rw [hpre]; simp)
    · unfold finishPairs
      rw [List.pairwise_filterMap]
      refine ((tmps_c5 hg).and (hdists (core_c5 env (selected env st)))).imp_of_mem ?_
      intro e e' he he' hx p hp p' hp'
      obtain ⟨h1, _, _, _, sd, _, hs, hren, _⟩ := hF from_c5 e he
      obtain ⟨h1', _, _, _, sd', _, hs', hren', _⟩ := hF from_c5 e' he'
      obtain ⟨j, hj⟩ := c5_tmp he h1 hs
      obtain ⟨j', hj'⟩ := c5_tmp he' h1' hs'
      have htt := hx.1 h1 h1'
      rw [hj, hj'] at htt
      have htt' : renameTmp env.cwd sd.path e.dest (env.uuidR j) ≠ renameTmp env.cwd sd'.path e'.dest (env.uuidR j') := fun h => htt (by rw [h])
      rw [hj] at hp; simp only [Option.map_some, Option.some.injEq] at hp; subst hp
      rw [hj'] at hp'; simp only [Option.map_some, Option.some.injEq] at hp'; subst hp'
      exact ⟨renTmp_not_prefix htt', renTmp_not_prefix (Ne.symm htt'), fun h => hx.2 (hr.dests _ _ _ _ hren hren' h), fun h => hx.2 (hr.dests _ _ _ _ hren' hren h).symm⟩
  obtain ⟨st3, hrun2, hw3, hu3, b1, b2, b3⟩ := moves_run _ st2 hw2 hM2
  have hplan : run (applyPlan env (selected env st)) st = (st3, none) := by
    have hR : removeOps (realOrders env (selected env st)).1 = [] := by
      unfold removeOps
      refine List.flatMap_eq_nil_iff.2 (fun e he => ?_)
      rw [(hF from_c3 e he).1]
    have h1 : applyPlan env (selected env st) = (movePairs (realOrders env (selected env st)).2.1).map (fun p => .mv p.1 p.2) ++
        (finishPairs (realOrders env (selected env st)).2.2).map (fun p => .mv p.1 p.2) := by
      show removeOps (realOrders env (selected env st)).1 ++ premoveOps (realOrders env (selected env st)).2.1 ++ applyOps env 0 (realOrders env (selected env st)).2.2 = _
      rw [hR, premoveOps_eq, applyOps_renames env _ 0 (fun e he => (hF from_c5 e he).1)]
      rfl
    rw [h1, run_append, hrun1]
    exact hrun2
  -- checks
  have hmp : ∀ {p : Path}, NormalPath p → (∀ q, q <+: p → ∀ n, st.lower.get q = some n → n.isLnk = false) → M <+: p →
      (∀ q n, M <+: q → q <+: p → st.lower.get q = some n → n.dev = m.dev) → findMountPoint st.lower p = M :=
    fun hN hl hp hdv => FS.findMountPoint_eq ho.wf hN hl ⟨m, hm⟩ hMt hp hdv
  have hpre : pretendCheck env st (selected env st) = none := by
    unfold pretendCheck
    have hF1 : ∀ e ∈ stableSort byReverseSource (selected env st), From (selected env st) e := From.sort (fun e he => From.of_mem he)
    have hF2 : ∀ e ∈ assignTmps env 0 (stableSort byReverseSource (stableSort byReverseSource (selected env st))), From (selected env st) e :=
      From.assign (From.sort hF1)
    have h1 : checkRemoves (stableSort byReverseSource (selected env st)) = none :=
      checkRemoves_none.2 (fun e he h => by rw [(hF hF1 e he).1] at h; cases h)
    have h2 : checkRenames st.lower (assignTmps env 0 (stableSort byReverseSource (stableSort byReverseSource (selected env st)))) = none := by
      refine checkRenames_none.2 (fun e he h s t hs ht => ?_)
      obtain ⟨_, e0, h0, hd0, sd, hs0, hs', hren, hget⟩ := hF hF2 e he
      rw [hs] at hs'; cases hs'
      obtain ⟨j, hj⟩ := assignTmps_rename he h hs
      rw [ht] at hj; cases hj
      have e1 : findMountPoint st.lower s.path = M := by
        obtain ⟨hN, hl⟩ := ho.plain.source e0 h0 s hs0
        refine hmp hN (fun q hq n hn => ?_) (hMs hren).1.prefix (fun q n hMq hq hn => hdevOf ⟨s.path, Or.inr ⟨_, _, hren, Or.inl rfl⟩, hq⟩ hMq hn)
        by_cases heq : q = s.path
        · subst heq; exact isLnk_of_ftype (hr.kinds _ _ n hren hn)
        · exact isLnk_of_ftype (hl q (below_iff.2 ⟨hq, heq⟩) n hn)
      have e3 : findMountPoint st.lower e.dest = M := by
        obtain ⟨hN, _, hl⟩ := ho.plain.dest e0 h0
        rw [← hd0] at hN hl
        refine hmp hN (fun q hq n hn => ?_) (hMs hren).2.prefix (fun q n hMq hq hn => hdevOf ⟨e.dest, Or.inr ⟨_, _, hren, Or.inr rfl⟩, hq⟩ hMq hn)
        by_cases heq : q = e.dest
        · subst heq
          rcases hr.free _ _ hren with hf | ⟨d', hf⟩
          · rw [hf] at hn; cases hn
          · exact isLnk_of_ftype (hr.kinds _ _ n hf hn)
        · exact isLnk_of_ftype (hl q (below_iff.2 ⟨hq, heq⟩) n hn)
      have e2 : findMountPoint st.lower (renameTmp env.cwd s.path e.dest (env.uuidR j)) = M := by
        have hin : ∀ q n, q <+: renameTmp env.cwd s.path e.dest (env.uuidR j) → st.lower.get q = some n → q <+: env.cwd := by
          intro q n hq hn
          rw [renameTmp_eq] at hq
          rcases prefix_concat_cases hq with hq | hq
          · exact hq
          · rw [NewName_none (hnew j hren) (q := q) (by rw [hq]; simp)] at hn; cases hn
        refine hmp ?_ (fun q hq n hn => ?_) ?_ (fun q n hMq hq hn => hdevOf ⟨env.cwd, Or.inl rfl, hin q n hq hn⟩ hMq hn)
        · rw [hd0]; exact normal_renTmp hg h0 hs0 j
        · exact isLnk_of_ftype (ho.plain.cwd.2 q (hin q n hq hn) n hn)
        · rw [renameTmp_eq]; exact hMc.trans (List.prefix_append _ _)
      rw [e1, e2, e3]; exact ⟨rfl, rfl⟩
    have h3 := checkApply_none.2 (fun e he => by
      have := (hF (From.sort (le := byDestination) hF2) e he).1
      exact ⟨(fun x h => by rw [this] at h; cases h), (fun t h => by rw [this] at h; cases h)⟩)
    simp only [h1, h2]
    exact h3
  have hclean : (run (cleanOps (realOrders env (selected env st)).2.2) st3).2 = none := by
    have hu' : st3.upper = st.upper := hu3.trans hu2
    refine (clean_run (cleanPaths (realOrders env (selected env st)).2.2) st3 (by rw [hu']; exact hu) (cleanPaths_strict _) (fun p hp => ?_)).2 ?_ (by rw [hu']; exact hd)
    · obtain ⟨e, he, _, s, hs, rfl⟩ := mem_cleanPaths_c5.1 hp
      exact (changes_staged (mem_selected he) hs).2
    · intro p hp
      obtain ⟨e, he, _, s, hs, rfl⟩ := mem_cleanPaths_c5.1 hp
      exact ⟨_, by rw [hu']; exact (changes_staged (mem_selected he) hs).1⟩
  have herr : (accept env st).error = none := by
    have hne' : matching env.glob env.cwd env.patterns (changes env st) ≠ [] := hne
    have hpre' : pretendCheck env st (matching env.glob env.cwd env.patterns (changes env st)) = none := hpre
    have hpl : (run (plan env (matching env.glob env.cwd env.patterns (changes env st))) st).2 = none := by
      unfold plan
      rw [run_append]
      have : run (applyPlan env (matching env.glob env.cwd env.patterns (changes env st))) st = (st3, none) := hplan
      rw [this]
      exact hclean
    simp only [accept, if_neg hne', hpre']
    exact hpl
  have hlow : (accept env st).state.lower = st3.lower := by
    obtain ⟨_, st', h1, h2, _⟩ := accept_ok herr hne
    rw [hplan] at h1
    cases h1
    exact h2
  have hmem2 : ∀ {s d : Path}, Spec.Renames (selected env st) s d → ∃ t, (s, t) ∈ movePairs (realOrders env (selected env st)).2.1 ∧
      (t, d) ∈ finishPairs (realOrders env (selected env st)).2.2 := by
    intro s d h
    obtain ⟨e, he, _, rfl, _, t, ht, hp⟩ := ren_c5 hg h
    exact ⟨t, hp, List.mem_filterMap.2 ⟨e, he, by rw [ht]; rfl⟩⟩
  rw [hlow]
  refine ⟨herr, fun s d r h => ?_, fun q hq hnd => ?_, fun q hq => ?_⟩
  · obtain ⟨t, h1, h2⟩ := hmem2 h
    rw [b1 _ h2 r, a1 _ h1 r]
  · obtain ⟨s, d, h, hsq⟩ := hq
    by_cases hx : ∃ p ∈ finishPairs (realOrders env (selected env st)).2.2, p.1 <+: q
    · obtain ⟨p, hp, hpq⟩ := hx
      exact b2 p hp q hpq
    · rw [b3 q (fun p hp => ⟨fun h => hx ⟨p, hp, h⟩, ?_⟩)]
      · exact hsrcGone s d q h hsq
      · obtain ⟨s', j, h', _⟩ := hpair2 p hp
        exact hnd _ _ h'
  · by_cases hx : ∃ p ∈ finishPairs (realOrders env (selected env st)).2.2, p.1 <+: q
    · obtain ⟨p, hp, hpq⟩ := hx
      rw [b2 p hp q hpq]
      obtain ⟨s', j, h', h1, _⟩ := hpair2 p hp
      exact (NewName_none (hnew j h') (hnt j h' q (by rw [← h1]; exact hpq))).symm
    · have hx' : ∀ p ∈ movePairs (realOrders env (selected env st)).2.1, ¬ p.1 <+: q ∧ ¬ p.2 <+: q := by
        intro p hp
        obtain ⟨d, j, h, h2⟩ := hpair1 p hp
        refine ⟨(hq _ _ h).1, fun hpre => ?_⟩
        obtain ⟨e, he, s, ho', hs, ht, hps⟩ := mem_movePairs hp
        exact hx ⟨(p.2, e.dest), List.mem_filterMap.2 ⟨e, mem_stableSort.2 he, by rw [ht]; rfl⟩, hpre⟩
      rw [b3 q (fun p hp => ⟨fun h => hx ⟨p, hp, h⟩, ?_⟩), a3 q hx']
      obtain ⟨s', j, h', _⟩ := hpair2 p hp
      exact (hq _ _ h').2

end

/-! ### Non-vacuity -/

/-- The renames of a selection as a list. -/
def renList (sel : List Entry) : List (Path × Path) :=
  sel.filterMap (fun e => if e.op = .rename then e.source.map (fun x => (x.path, e.dest)) else none)

theorem renames_iff {sel : List Entry} {s d : Path} : Spec.Renames sel s d ↔ (s, d) ∈ renList sel := by
  unfold renList
  rw [List.mem_filterMap]
  constructor
  · rintro ⟨e, he, ho, rfl, x, hx, rfl⟩; exact ⟨e, he, by rw [if_pos ho, hx]; rfl⟩
  · rintro ⟨e, he, h⟩
    split at h
    · next ho =>
      cases hx : e.source with
      | none => rw [hx] at h; cases h
      | some x =>
        rw [hx] at h
        simp only [Option.map_some, Option.some.injEq, Prod.mk.injEq] at h
        exact ⟨e, he, ho, h.2, x, hx, h.1⟩
    · cases h

/-- Host `/d/{a/x, b/{y, e/z}, c/z}`; in the sandbox `a` and `b` were swapped and `c` renamed to `n`. -/
def exSwapHost : FS :=
  [ ([], { kind := .dir }), ([str "d"], { kind := .dir }), ([str "d", str "b"], { kind := .dir }), ([str "d", str "a"], { kind := .dir }),
    ([str "d", str "a", str "x"], { kind := .reg (str "x") }), ([str "d", str "b", str "y"], { kind := .reg (str "y") }),
    ([str "d", str "b", str "e"], { kind := .dir }), ([str "d", str "b", str "e", str "z"], { kind := .reg (str "z") }),
    ([str "d", str "c"], { kind := .dir }), ([str "d", str "c", str "z"], { kind := .lnk (str "/nowhere") }), ([str "d", str "k"], { kind := .reg (str "k") }) ]
def exSwapUpper : FS :=
  [ ([], { kind := .dir }), ([str "F4"], { kind := .dir }), ([str "F4", str "d"], { kind := .dir }),
    ([str "F4", str "d", str "a"], { kind := .dir, redirect := some (str "b") }), ([str "F4", str "d", str "b"], { kind := .dir, redirect := some (str "/d/a") }),
    ([str "F4", str "d", str "n"], { kind := .dir, redirect := some (str "c") }), ([str "F4", str "d", str "c"], { kind := .chr 0 }) ]
def exSwapState : State := ⟨exSwapHost, exSwapUpper⟩

example : renList (selected exEnv exSwapState) =
    [ ([str "d", str "b"], [str "d", str "a"]), ([str "d", str "a"], [str "d", str "b"]), ([str "d", str "c"], [str "d", str "n"]) ] := by decide +kernel

theorem exSwap_ordinary : Spec.Ordinary exEnv exSwapState :=
  ordinary_of_check (fun _ => rfl) (fun _ => rfl) (by decide +kernel) (by decide +kernel) (by decide +kernel)

theorem exSwap_independent : Spec.IndependentRenames exEnv exSwapState.lower (selected exEnv exSwapState) := by
  constructor
  · decide +kernel
  · simp only [renames_iff]
    intro s d s' d' h h'
    have : ∀ p ∈ renList (selected exEnv exSwapState), ∀ p' ∈ renList (selected exEnv exSwapState), p.1 <+: p'.1 → p.2 = p'.2 := by decide +kernel
    exact this _ h _ h'
  · simp only [renames_iff]
    intro s d n h hn
    have : ∀ p ∈ renList (selected exEnv exSwapState), ∀ n ∈ exSwapHost.get p.1, Spec.ftype n.kind ≠ .symlink := by decide +kernel
    exact this _ h n hn
  · simp only [renames_iff]
    intro s d s' d' h h'
    have : ∀ p ∈ renList (selected exEnv exSwapState), ∀ p' ∈ renList (selected exEnv exSwapState), p.2 <+: p'.2 → p.2 = p'.2 := by decide +kernel
    exact this _ h _ h'
  · simp only [renames_iff]
    intro s d h
    have : ∀ p ∈ renList (selected exEnv exSwapState), exSwapHost.get p.2 = none ∨ ∃ p' ∈ renList (selected exEnv exSwapState), p'.1 = p.2 := by decide +kernel
    rcases this _ h with h | ⟨⟨a, b⟩, h1, h2⟩
    · exact Or.inl h
    · exact Or.inr ⟨b, by simp only at h2; rw [← h2]; exact h1⟩
  · simp only [renames_iff]
    intro s d h
    have : ∀ p ∈ renList (selected exEnv exSwapState), exSwapHost.get p.2.dropLast = some { kind := .dir } := by decide +kernel
    exact ⟨_, this _ h, rfl⟩
  · simp only [renames_iff]
    intro s d s' d' h h'
    have : ∀ p ∈ renList (selected exEnv exSwapState), ∀ p' ∈ renList (selected exEnv exSwapState), ¬ Below p'.1 p.2 := by decide +kernel
    exact this _ h _ h'
  · exact ⟨{ kind := .dir }, by decide +kernel, rfl⟩
  · simp only [renames_iff]
    intro s d h
    have : ∀ p ∈ renList (selected exEnv exSwapState), ¬ p.1 <+: exEnv.cwd := by decide +kernel
    exact this _ h
  · refine ⟨[], ⟨{ kind := .dir }, by decide +kernel, Or.inl rfl, fun p _ => ⟨List.nil_prefix, fun q n _ _ hn => ?_⟩⟩, ?_⟩
    · have h2 : ∀ e ∈ exSwapHost, e.2.dev = 0 := by decide
      exact h2 _ (FS.mem_of_get hn)
    · simp only [renames_iff]
      intro s d h
      have : ∀ p ∈ renList (selected exEnv exSwapState), p.1 ≠ [] ∧ p.2 ≠ [] := by decide +kernel
      exact this _ h

example : exSwapState.upper.WF ∧ (accept exEnv exSwapState).error = none ∧
    (accept exEnv exSwapState).state.lower.get [str "d", str "a", str "e", str "z"] = some { kind := .reg (str "z") } ∧
    (accept exEnv exSwapState).state.lower.get [str "d", str "b", str "x"] = some { kind := .reg (str "x") } ∧
    (accept exEnv exSwapState).state.lower.get [str "d", str "n", str "z"] = some { kind := .lnk (str "/nowhere") } ∧
    (accept exEnv exSwapState).state.lower.get [str "d", str "c"] = none := by decide +kernel

/-- **C14 refuted** when the current directory is inside a renamed directory: `sandbox accept '/d/*'` run in `/d/a` (being swapped with `/d/b`) fails with an
invalid-argument error, because the temporary would lie inside the directory itself; by then `/d/c` has been moved away, but not to its new name `/d/n`. -/
theorem C14_refuted_cwd :
    (accept { exEnv with cwd := [str "d", str "a"], patterns := [str "/d/*"], glob := globRef } exSwapState).error = some (.os .EINVAL) ∧
    (accept { exEnv with cwd := [str "d", str "a"], patterns := [str "/d/*"], glob := globRef } exSwapState).state.lower.get [str "d", str "c"] = none ∧
    (accept { exEnv with cwd := [str "d", str "a"], patterns := [str "/d/*"], glob := globRef } exSwapState).state.lower.get [str "d", str "n"] = none := by
  decide +kernel

/-- **C14 refuted** when the current directory is on another mount: a rename within `/d` is refused when accepted from there (nothing is changed). -/
theorem C14_refuted_other_mount :
    (accept { exEnv with cwd := [str "m"], patterns := [str "/d/*"], glob := globRef } ⟨exSwapHost ++ [([str "m"], { kind := .dir, dev := 7 })], exSwapUpper⟩).error =
      some (.crossesMount [str "d", str "c"]) := by decide +kernel

end SB
