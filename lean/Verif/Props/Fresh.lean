import Verif.Props.Repeat
import Verif.Props.HistoryAccept
import Verif.Lib.HistoryBacked
import Verif.Lib.HostPlain

/-! # C108: after everything was accepted the sandbox is like a new one -/

namespace SB

/-- No change of any file is stored: there are only the directories in which the changes of the mounts are kept. -/
def Spec.NoChangeStored (env : Env) (upper : FS) : Prop := ∀ m mp sub, env.decode m = some mp → sub ≠ [] → upper.get (m :: sub) = none

/-- What is marked as deleted exists on the host. -/
def Spec.NoStaleMarks (env : Env) (st : State) : Prop :=
  ∀ m mp sub n, env.decode m = some mp → sub ≠ [] → st.upper.get (m :: sub) = some n → Spec.isWhiteout n = true → ∃ k, st.lower.get (mp ++ sub) = some k

section
variable {env : Env} {st : State}

theorem staged_below {e : Entry} {s : Details} (he : e ∈ selected env st) (hst : e.staged = some s) : ∃ m mp sub, s.path = m :: sub ∧ env.decode m = some mp ∧ sub ≠ [] := by
  obtain ⟨ue, hue, h⟩ := mem_changes.1 (mem_selected he)
  obtain ⟨m, mp, sub, _, hi⟩ := mem_upperEntries hue
  have : s.path = ue.upperPath := by
    rcases h with h | h
    · obtain ⟨_, _, _, _, _, h, _⟩ := mem_removesOf h
      rcases h with ⟨_, _, _, h⟩ | ⟨_, _, _, h⟩
      · rw [hst] at h
        split at h
        · cases h; rfl
        · cases h
      · rw [hst] at h; cases h; rfl
    · have := (mem_setsOf h).2.2.1
      rw [hst] at this; cases this; rfl
  exact ⟨m, mp, sub, by rw [this, hi.upperPath], hi.decode, hi.sub_ne⟩

theorem upper_wf_after (hw : st.upper.WF) (hok : (accept env st).error = none) : (accept env st).state.upper.WF := by
  by_cases hne : selected env st = []
  · have hne' : matching env.glob env.cwd env.patterns (changes env st) = [] := hne
    simpa [accept, hne'] using hw
  · obtain ⟨_, st1, h1, _, h3⟩ := accept_ok hok hne
    have hu : st1.upper = st.upper := by
      have := crash_of_run (ops := applyPlan env (selected env st)) (st := st)
      rw [h1] at this
      exact crash_upper (applyPlan_noClean env _) this
    exact ((clean_run (cleanPaths (realOrders env (selected env st)).2.2) st1 (by rw [hu]; exact hw) (cleanPaths_strict _)
      (fun p hp => by
        obtain ⟨e, he, _, s, hs, rfl⟩ := mem_cleanPaths_c5.1 hp
        exact (changes_staged (mem_selected he) hs).2)).1 _ h3).2.1

theorem storage_cleared (ho : Spec.Ordinary env st) (hp : Spec.PlainStorage env st) (hall : Spec.AllSelected env st) (hst : Spec.NoStaleMarks env st) (hok : (accept env st).error = none) :
    Spec.NoChangeStored env (accept env st).state.upper ∧
    (∀ q, (∀ m mp sub, env.decode m = some mp → sub ≠ [] → q ≠ m :: sub) → (accept env st).state.upper.get q = st.upper.get q) := by
  classical
  have hafter := C06_storage_after env st hp.wf hok
  refine ⟨fun m mp sub hd hne => ?_, fun q hq => ?_⟩
  · rw [hafter]
    split
    · rfl
    · next h =>
      cases hg : st.upper.get (m :: sub) with
      | none => rfl
      | some n =>
        exfalso
        apply h
        cases hwn : Spec.isWhiteout n with
        | true =>
          obtain ⟨k, hk⟩ := hst m mp sub n hd hne hg hwn
          obtain ⟨e, he, _, hs⟩ := whiteout_staged ho.wf hp hall hd hne hg hwn hk
          exact ⟨_, ⟨e, he, _, hs, rfl⟩, List.prefix_refl _⟩
        | false =>
          obtain ⟨e, he, _, _, hs⟩ := node_staged hp hall (fun e he x => no_error_selected hok he x) hd hne hg hwn
          exact ⟨_, ⟨e, he, _, hs, rfl⟩, List.prefix_refl _⟩
  · rw [hafter, if_neg]
    rintro ⟨p, ⟨e, he, s, hs, rfl⟩, r, rfl⟩
    obtain ⟨m, mp, sub, h1, h2, h3⟩ := staged_below he hs
    exact hq m mp (sub ++ r) h2 (by simp [h3]) (by rw [h1]; rfl)

theorem nothing_listed {upper : FS} (h : Spec.NoChangeStored env upper) {env' : Env} (hd : env'.decode = env.decode) (host : FS) : changes env' ⟨host, upper⟩ = [] := by
  rw [List.eq_nil_iff_forall_not_mem]
  intro e he
  obtain ⟨ue, hue, _⟩ := mem_changes.1 he
  obtain ⟨m, mp, sub, _, hi⟩ := mem_upperEntries hue
  have h1 := hi.decode
  rw [hd] at h1
  have h2 : upper.get (m :: sub) = some ue.node := hi.node
  rw [h m mp sub h1 hi.sub_ne] at h2
  cases h2

theorem accept_nothing (h : changes env st = []) : (accept env st).state = st := by
  have : matching env.glob env.cwd env.patterns (changes env st) = [] := by
    rw [List.eq_nil_iff_forall_not_mem]
    intro e he
    have := mem_selected (env := env) (st := st) he
    rw [h] at this
    cases this
  unfold accept
  simp only [this, if_true]

end

/-- **C108 (partial)**: after everything was accepted, and whatever happens to the host afterwards: a process in the sandbox sees the host as it is then, no changes are listed, and a further accept
changes nothing.
Missing: renamed directories (`C108_refuted_moved`), files deleted in the sandbox that were deleted on the host as well (`C108_refuted_deleted_twice`), the mount points themselves. -/
theorem C108_follows_partial (env : Env) (st : State) (ho : Spec.Ordinary env st) (hp : Spec.PlainStorage env st) (hall : Spec.AllSelected env st) (hst : Spec.NoStaleMarks env st)
    (hok : (accept env st).error = none) (host : FS) (hw : host.WF) (env' : Env) (hd : env'.decode = env.decode) :
    (∀ m mp sub, [m] ∈ st.upper.keys → env.decode m = some mp → host.isDirAt mp = true → sub ≠ [] → Spec.view ⟨host, (accept env st).state.upper⟩ m mp sub = host.get (mp ++ sub)) ∧
    changes env' ⟨host, (accept env st).state.upper⟩ = [] ∧
    (accept env' ⟨host, (accept env st).state.upper⟩).state = ⟨host, (accept env st).state.upper⟩ := by
  obtain ⟨hn, hrest⟩ := storage_cleared ho hp hall hst hok
  have hnl := nothing_listed hn hd host
  refine ⟨fun m mp sub hm hdec hdir hne => ?_, hnl, ?_⟩
  · have hsub : ∀ q n, (accept env st).state.upper.get q = some n → st.upper.get q = some n := by
      classical
      intro q n hg
      rw [C06_storage_after env st hp.wf hok] at hg
      split at hg
      · cases hg
      · exact hg
    obtain ⟨_, ⟨n, h5, h6⟩⟩ := hp.mounts m mp hm hdec
    have htop : (accept env st).state.upper.get [m] = some n := by
      rw [hrest [m] (fun m' mp' sub' _ hne' he => hne' (List.cons.inj he).2.symm)]
      exact h5
    have hclosed := view_closed (st := ⟨host, (accept env st).state.upper⟩) (m := m) (mp := mp) hw (upper_wf_after hp.wf hok) hdir (FS.isDirAt_iff.2 ⟨n, htop, isDir_of_ftype h6⟩)
      (fun q k hg => hp.noRedirects q k (hsub q k hg)) (fun q k hg hx => by rw [hp.whiteouts q k (hsub q k hg) hx]; decide) sub
    refine (hclosed.2 (hn m mp sub hdec hne)).2 ?_
    rintro ⟨q, k, hq, _, hg, _⟩
    dsimp only at hg
    rw [hn m mp q hdec hq] at hg
    cases hg
  · exact accept_nothing hnl

/-! ### For histories -/

theorem backed_new {mounts : List MountHash} {st : State} (h : Spec.NewSandbox mounts st) : Backed mounts st := by
  intro m _ sub n hs hg
  rcases (h.empty _ n hg).1 with h1 | ⟨m', _, h1⟩
  · cases h1
  · exact absurd (List.cons.inj h1).2 hs

/-- **C108 (partial)** for every history: after anything was done in a new sandbox and everything was accepted, it is a new sandbox again, to which all that is said of new sandboxes applies
(C74, C81, C82, C84, C98), and it follows the host (`C108_follows_partial`).
Missing: directories moved (`C108_refuted_moved`), links of the host in the way. -/
theorem C108_new_partial (env : Env) (mounts : List MountHash) (st : State) (acts : List Act) (hnew : Spec.NewSandbox mounts st) (hacts : ∀ a ∈ acts, ActOk mounts a)
    (hdec : ∀ m ∈ mounts, env.decode m.hash = some m.dir) (hway : ∀ a ∈ acts, Spec.ClearWay st.lower a.path)
    (hcwd : NormalPath env.cwd ∧ ∀ y, y <+: env.cwd → ∀ n, st.lower.get y = some n → Spec.ftype n.kind ≠ .symlink)
    (hfresh : Spec.FreshTemps env st.lower (selected env (runIn mounts st acts))) (hall : Spec.AllSelected env (runIn mounts st acts))
    (hok : (accept env (runIn mounts st acts)).error = none) :
    Spec.NewSandbox mounts (accept env (runIn mounts st acts)).state ∧ Spec.NoStaleMarks env (runIn mounts st acts) := by
  obtain ⟨hm, h⟩ := hist_run hnew hacts
  have hT : ∀ p, (∃ a ∈ acts, a.path = p) → Spec.ClearWay st.lower p ∧ NormalPath p := by
    rintro p ⟨a, ha, rfl⟩
    exact ⟨hway a ha, (hacts a ha).normal⟩
  have hpl := hist_plain hm hdec h (fun p hp => (hT p hp).1)
  have hord := hist_ordinary hm hdec h hT hcwd (by rw [h.lower]; exact hfresh)
  have hb : Backed mounts (runIn mounts st acts) :=
    Backed.run hm acts (hist_new hnew (fun p => ∃ a ∈ acts, a.path = p)).2 (backed_new hnew) (fun a ha => ⟨hacts a ha, a, ha, rfl⟩)
  have hmount : ∀ x mp sub n, env.decode x = some mp → (runIn mounts st acts).upper.get (x :: sub) = some n → ∃ m ∈ mounts, x = m.hash ∧ mp = m.dir := by
    intro x mp sub n hd hg
    obtain ⟨m, hmm, h1, h2, _⟩ := hist_mount hdec h hd hg
    exact ⟨m, hmm, h1, h2⟩
  have hst : Spec.NoStaleMarks env (runIn mounts st acts) := by
    intro x mp sub n hd hne hg hw
    obtain ⟨m, hmm, rfl, rfl⟩ := hmount x mp sub n hd hg
    exact hb m hmm sub n hne hg hw
  refine ⟨?_, hst⟩
  obtain ⟨hn, hrest⟩ := storage_cleared hord hpl hall hst hok
  obtain ⟨st1, hc, hl⟩ := acceptState_lower (accept_final env (runIn mounts st acts))
  have hsub : ∀ q n, (accept env (runIn mounts st acts)).state.upper.get q = some n → (runIn mounts st acts).upper.get q = some n := by
    classical
    intro q n hg
    rw [C06_storage_after env _ hpl.wf hok] at hg
    split at hg
    · cases hg
    · exact hg
  have hkeep : ∀ m ∈ mounts, (accept env (runIn mounts st acts)).state.upper.get [m.hash] = (runIn mounts st acts).upper.get [m.hash] := fun m _ =>
    hrest [m.hash] (fun m' mp' sub' _ hne' he => hne' (List.cons.inj he).2.symm)
  have hplain : HostPlain (accept env (runIn mounts st acts)).state.lower := by
    rw [hl]
    refine crash_hostPlain hc ?_
    rw [h.lower]
    exact fun e he => hnew.plain e.1 e.2 (FS.get_of_mem hnew.host.nodup he)
  refine ⟨hnew.points, hnew.names, by rw [hl]; exact crash_wf hord.ready hc, fun q n hg => hplain.get hg, fun m hmm => ?_, upper_wf_after hpl.wf hok, fun m hmm => ?_, fun q n hg => ?_⟩
  · obtain ⟨t, ht, htd⟩ := FS.isDirAt_iff.1 (h.tops m hmm).2
    obtain ⟨k, hk, hkd⟩ := FS.isDirAt_iff.1 (h.tops m hmm).1
    have hun := (crash_host hord.ready hc).1 m.dir (mount_untouched hord hpl (FS.mem_keys.2 ⟨t, ht⟩) (hdec m hmm))
    exact FS.isDirAt_iff.2 ⟨k, by rw [hl, hun]; exact hk, hkd⟩
  · obtain ⟨t, ht, htd⟩ := FS.isDirAt_iff.1 (h.tops m hmm).2
    exact FS.isDirAt_iff.2 ⟨t, by rw [hkeep m hmm]; exact ht, htd⟩
  · have hg' := hsub q n hg
    have h1 : q = [] ∨ ∃ m ∈ mounts, q = [m.hash] := by
      rcases h.keys q n hg' with h1 | ⟨m, hmm, sub, rfl, _⟩
      · exact Or.inl h1
      · by_cases hs : sub = []
        · subst hs; exact Or.inr ⟨m, hmm, rfl⟩
        · rw [hn m.hash m.dir sub (hdec m hmm) hs] at hg; cases hg
    refine ⟨h1, h.regular.redirect q n hg', h.regular.whiteout q n hg', ?_⟩
    rcases h1 with rfl | ⟨m, hmm, rfl⟩
    · obtain ⟨k, hk, hkd⟩ := FS.isDirAt_iff.1 h.regular.upper.root
      rw [hk] at hg'; cases hg'; exact hkd
    · obtain ⟨t, ht, htd⟩ := FS.isDirAt_iff.1 (h.tops m hmm).2
      rw [ht] at hg'; cases hg'; exact htd

/-! ### A sandbox used again and again -/

/-- The same files: the same names, types, contents, owners, groups and (except for links) modes. -/
def Spec.SameHost (a b : FS) : Prop := ∀ p, (a.get p = none ↔ b.get p = none) ∧ ∀ n k, a.get p = some n → b.get p = some k → Spec.SameNode n k

/-- The conditions of C84 for a round: something is done in the sandbox, then everything is selected and accepted, successfully. -/
structure Spec.RoundOk (env : Env) (mounts : List MountHash) (st : State) (acts : List Act) : Prop where
  inside : ∀ a ∈ acts, ActOk mounts a
  names : ∀ m ∈ mounts, env.decode m.hash = some m.dir
  way : ∀ a ∈ acts, Spec.ClearWay st.lower a.path
  cwd : NormalPath env.cwd ∧ ∀ y, y <+: env.cwd → ∀ n, st.lower.get y = some n → Spec.ftype n.kind ≠ .symlink
  fresh : Spec.FreshTemps env st.lower (selected env (runIn mounts st acts))
  all : Spec.AllSelected env (runIn mounts st acts)
  ok : (accept env (runIn mounts st acts)).error = none

/-- A sandbox in use: while nothing is pending things may be done on the host directly, and things are done in the sandbox and accepted; any number of times.  The list tells what was done, in this
order, no matter where. -/
inductive Spec.Rounds (mounts : List MountHash) (st0 : State) : List Act → State → Prop where
  | start : Spec.Rounds mounts st0 [] st0
  | host {acts : List Act} {st : State} (a : Act) : Spec.Rounds mounts st0 acts st → ActOk mounts a → Spec.Rounds mounts st0 (acts ++ [a]) { st with lower := actOn mounts st.lower a }
  | sandbox {acts : List Act} {st : State} (env : Env) (w : List Act) : Spec.Rounds mounts st0 acts st → Spec.RoundOk env mounts st w →
      Spec.Rounds mounts st0 (acts ++ w) (accept env (runIn mounts st w)).state

theorem sameNode_trans {a b c : Node} (h1 : Spec.SameNode a b) (h2 : Spec.SameNode b c) : Spec.SameNode a c := by
  obtain ⟨a1, a2, a3, a4⟩ := h1
  obtain ⟨b1, b2, b3, b4⟩ := h2
  refine ⟨a1.trans b1, a2.trans b2, a3.trans b3, ?_⟩
  rcases a4 with h | h
  · exact Or.inl h
  · rcases b4 with h' | h'
    · exact Or.inl (by rw [a1]; exact h')
    · exact Or.inr (h.trans h')

section
variable {mounts : List MountHash} {fs gs : FS}

theorem Spec.SameHost.cases (h : Spec.SameHost fs gs) (p : Path) : (fs.get p = none ∧ gs.get p = none) ∨ ∃ n k, fs.get p = some n ∧ gs.get p = some k ∧ Spec.SameNode n k := by
  obtain ⟨h1, h2⟩ := h p
  cases hf : fs.get p with
  | none => exact Or.inl ⟨rfl, h1.1 hf⟩
  | some n =>
    cases hg : gs.get p with
    | none => rw [h1.2 hg] at hf; cases hf
    | some k => exact Or.inr ⟨n, k, rfl, rfl, h2 n k hf hg⟩

theorem sameNode_dir {n k : Node} (h : Spec.SameNode n k) : n.isDir = k.isDir := by unfold Node.isDir; rw [h.1]

theorem Spec.SameHost.isDirAt (h : Spec.SameHost fs gs) (p : Path) : fs.isDirAt p = gs.isDirAt p := by
  unfold FS.isDirAt
  rcases h.cases p with ⟨h1, h2⟩ | ⟨n, k, h1, h2, h3⟩
  · rw [h1, h2]
  · rw [h1, h2]; exact sameNode_dir h3

theorem Spec.SameHost.hasChild (h : Spec.SameHost fs gs) (p : Path) : fs.hasChild p = gs.hasChild p := by
  have key : ∀ {fs gs : FS}, Spec.SameHost fs gs → fs.hasChild p = true → gs.hasChild p = true := by
    intro fs gs h hc
    obtain ⟨q, n, hb, hg⟩ := FS.hasChild_iff.1 hc
    rcases h.cases q with ⟨h1, _⟩ | ⟨_, k, _, h2, _⟩
    · rw [hg] at h1; cases h1
    · exact FS.hasChild_iff.2 ⟨q, k, hb, h2⟩
  have hback : Spec.SameHost gs fs := fun q => ⟨(h q).1.symm, fun n k hn hk => by
    obtain ⟨a1, a2, a3, a4⟩ := (h q).2 k n hk hn
    exact ⟨a1.symm, a2.symm, a3.symm, by rcases a4 with a4 | a4; exact Or.inl (by rw [← a1]; exact a4); exact Or.inr a4.symm⟩⟩
  exact Bool.eq_iff_iff.2 ⟨key h, key hback⟩

theorem Spec.SameHost.set (h : Spec.SameHost fs gs) {p : Path} {n k : Node} (hn : Spec.SameNode n k) : Spec.SameHost (fs.set p n) (gs.set p k) := by
  intro q
  rw [FS.get_set, FS.get_set]
  split
  · exact ⟨⟨(fun e => by cases e), (fun e => by cases e)⟩, fun _ _ h1 h2 => by cases h1; cases h2; exact hn⟩
  · exact h q

theorem Spec.SameHost.del (h : Spec.SameHost fs gs) {p : Path} : Spec.SameHost (fs.del p) (gs.del p) := by
  intro q
  rw [FS.get_del, FS.get_del]
  split
  · exact ⟨Iff.rfl, fun _ _ h1 => by cases h1⟩
  · exact h q

theorem actOn_same (h : Spec.SameHost fs gs) (a : Act) : Spec.SameHost (actOn mounts fs a) (actOn mounts gs a) := by
  unfold actOn
  rw [h.isDirAt a.path.dropLast, h.isDirAt a.path, h.hasChild a.path]
  split
  · exact h
  · cases a.what with
    | put k uid gid perm =>
      dsimp only
      split
      · exact h
      · exact h.set ⟨rfl, rfl, rfl, Or.inr rfl⟩
    | mkdir uid gid perm opq =>
      dsimp only
      rcases h.cases a.path with ⟨h1, h2⟩ | ⟨n, k, h1, h2, h3⟩
      · rw [h1, h2]; exact h.set ⟨rfl, rfl, rfl, Or.inr rfl⟩
      · rw [h1, h2]; exact h
    | attr uid gid perm =>
      dsimp only
      rcases h.cases a.path with ⟨h1, h2⟩ | ⟨n, k, h1, h2, h3⟩
      · rw [h1, h2]; exact h
      · rw [h1, h2]
        dsimp only
        rw [sameNode_dir h3]
        split
        · exact h.set ⟨h3.1, rfl, rfl, Or.inr rfl⟩
        · exact h
    | remove =>
      dsimp only
      rcases h.cases a.path with ⟨h1, h2⟩ | ⟨n, k, h1, h2, h3⟩
      · rw [h1, h2]; exact h
      · rw [h1, h2]
        dsimp only
        rw [sameNode_dir h3]
        split
        · exact h
        · exact h.del

theorem runOn_same (acts : List Act) : ∀ {fs gs : FS}, Spec.SameHost fs gs → Spec.SameHost (runOn mounts fs acts) (runOn mounts gs acts) := by
  induction acts with
  | nil => exact id
  | cons a r ih => exact fun h => ih (actOn_same h a)

/-- Nothing changes at a mount point. -/
theorem actOn_mount {m : MountHash} (hm : m ∈ mounts) (a : Act) : (actOn mounts fs a).get m.dir = fs.get m.dir := by
  unfold actOn
  split
  · rfl
  · next hc =>
    have hne : a.path ≠ m.dir := by
      intro e
      apply hc
      rw [Bool.or_eq_true, List.any_eq_true]
      exact Or.inl ⟨m, hm, by simp [e]⟩
    have hs : ∀ n, (fs.set a.path n).get m.dir = fs.get m.dir := fun n => by rw [FS.get_set, if_neg hne]
    cases a.what with
    | put k uid gid perm => dsimp only; split; rfl; exact hs _
    | mkdir uid gid perm opq => dsimp only; split; rfl; exact hs _
    | attr uid gid perm =>
      dsimp only
      split
      · split
        · exact hs _
        · rfl
      · rfl
    | remove =>
      dsimp only
      split
      · split
        · rfl
        · rw [FS.get_del, if_neg hne]
      · rfl

theorem runOn_point {m : MountHash} (hm : m ∈ mounts) (acts : List Act) : ∀ {fs : FS}, (runOn mounts fs acts).get m.dir = fs.get m.dir := by
  induction acts with
  | nil => exact fun {_} => rfl
  | cons a r ih => exact fun {fs} => (ih (fs := actOn mounts fs a)).trans (actOn_mount hm a)

theorem actOn_hostPlain (h : HostPlain fs) (a : Act) : HostPlain (actOn mounts fs a) := by
  unfold actOn
  split
  · exact h
  · cases a.what with
    | put k uid gid perm => dsimp only; split; exact h; exact h.set ⟨rfl, rfl, rfl⟩
    | mkdir uid gid perm opq => dsimp only; split; exact h; exact h.set ⟨rfl, rfl, rfl⟩
    | attr uid gid perm =>
      dsimp only
      split
      · next n hn =>
        split
        · exact h.set ⟨(h.get hn).1, (h.get hn).2.1, (h.get hn).2.2⟩
        · exact h
      · exact h
    | remove =>
      dsimp only
      split
      · split
        · exact h
        · exact h.del
      · exact h

end

/-- **C108 (partial)**: a sandbox can be used again and again: after any number of rounds of working in it and accepting everything, with changes made on the host in between, it is like a new one, and
the host is as if everything had been done there, in the same order.
Missing: directories moved, links of the host in the way, what accept cannot carry out; and changes on the host while something is pending in the sandbox. -/
theorem C108_rounds_partial (mounts : List MountHash) (st0 st : State) (acts : List Act) (hnew : Spec.NewSandbox mounts st0) (h : Spec.Rounds mounts st0 acts st) :
    Spec.NewSandbox mounts st ∧ Spec.SameHost st.lower (runOn mounts st0.lower acts) := by
  induction h with
  | start => exact ⟨hnew, fun p => ⟨Iff.rfl, fun n k h1 h2 => by cases h1.symm.trans h2; exact ⟨rfl, rfl, rfl, Or.inr rfl⟩⟩⟩
  | @host acts st a _ ha ih =>
    obtain ⟨hn, hs⟩ := ih
    obtain ⟨_, hh⟩ := hist_run (acts := [a]) hn (fun b hb => by rw [List.mem_singleton.1 hb]; exact ha)
    refine ⟨⟨hn.points, hn.names, hh.fsWf, fun q n hg => ?_, hh.dirs, hn.storage, hn.tops, hn.empty⟩, ?_⟩
    · exact (actOn_hostPlain (fun e he => hn.plain e.1 e.2 (FS.get_of_mem hn.host.nodup he)) a).get hg
    · unfold runOn
      rw [List.foldl_append]
      exact actOn_same hs a
  | @sandbox acts st env w _ hr ih =>
    obtain ⟨hn, hs⟩ := ih
    refine ⟨(C108_new_partial env mounts st w hn hr.inside hr.names hr.way hr.cwd hr.fresh hr.all hr.ok).1, ?_⟩
    have hsplit : runOn mounts st0.lower (acts ++ w) = runOn mounts (runOn mounts st0.lower acts) w := by unfold runOn; rw [List.foldl_append]
    rw [hsplit]
    have hsw := runOn_same (mounts := mounts) w hs
    have key : Spec.SameHost (accept env (runIn mounts st w)).state.lower (runOn mounts st.lower w) := by
      intro p
      by_cases hp : ∀ m ∈ mounts, m.dir ≠ p
      · obtain ⟨h1, h2⟩ := C84_history_partial env mounts st w hn hr.inside hr.names hr.way hr.cwd hr.fresh hr.all hr.ok p hp
        refine ⟨⟨fun ha => ?_, h1⟩, fun n k ha hb => ?_⟩
        · cases hg : (runOn mounts st.lower w).get p with
          | none => rfl
          | some n =>
            obtain ⟨n', hn', _⟩ := h2 n hg
            rw [ha] at hn'; cases hn'
        · obtain ⟨n', hn', hsn⟩ := h2 k hb
          rw [ha] at hn'; cases hn'
          exact hsn
      · obtain ⟨m, hmm, rfl⟩ : ∃ m ∈ mounts, m.dir = p := by
          by_contra hc
          exact hp (fun m hm he => hc ⟨m, hm, he⟩)
        obtain ⟨hm, hh⟩ := hist_run hn hr.inside
        have hT : ∀ p, (∃ a ∈ w, a.path = p) → Spec.ClearWay st.lower p ∧ NormalPath p := by
          rintro p ⟨a, ha, rfl⟩
          exact ⟨hr.way a ha, (hr.inside a ha).normal⟩
        have hpl := hist_plain hm hr.names hh (fun p hp => (hT p hp).1)
        have hord := hist_ordinary hm hr.names hh hT hr.cwd (by rw [hh.lower]; exact hr.fresh)
        obtain ⟨st1, hc, hl⟩ := acceptState_lower (accept_final env (runIn mounts st w))
        obtain ⟨t, ht, _⟩ := FS.isDirAt_iff.1 (hh.tops m hmm).2
        have hun := (crash_host hord.ready hc).1 m.dir (mount_untouched hord hpl (FS.mem_keys.2 ⟨t, ht⟩) (hr.names m hmm))
        rw [hl, hun, hh.lower, runOn_point hmm]
        exact ⟨Iff.rfl, fun n k h1 h2 => by cases h1.symm.trans h2; exact ⟨rfl, rfl, rfl, Or.inr rfl⟩⟩
    intro p
    refine ⟨(key p).1.trans (hsw p).1, fun n k ha hb => ?_⟩
    rcases hsw.cases p with ⟨h1, h2⟩ | ⟨n', k', h1, h2, h3⟩
    · rw [hb] at h2; cases h2
    · rw [hb] at h2; cases h2
      exact sameNode_trans ((key p).2 n n' ha h1) h3

/-! ### Refutations -/

/-- **C108 refuted** for moved directories (`mv d e`): accept leaves the mark that `/d` is deleted in the storage.  If later a new `/d` appears on the host, the sandbox does not see it, status lists its
removal, and the next accept deletes it, although nobody has deleted it. -/
theorem C108_refuted_moved : Spec.Ordinary exViewEnv exMoveDir ∧ Spec.AllSelected exViewEnv exMoveDir ∧ (accept exViewEnv exMoveDir).error = none ∧
    ∃ st, st.upper = (accept exViewEnv exMoveDir).state.upper ∧ st.lower = (accept exViewEnv exMoveDir).state.lower.set [str "d"] { kind := .reg (str "new") } ∧
      Spec.view st (str "F4") [] [str "d"] = none ∧ (changes (exAgain exViewEnv) st).map (fun e => (e.op, e.dest)) = [(.remove, [str "d"])] ∧
      (accept (exAgain exViewEnv) st).error = none ∧ (accept (exAgain exViewEnv) st).state.lower.get [str "d"] = none := by
  refine ⟨ordinary_of_check (fun _ => rfl) (fun _ => rfl) (by decide +kernel) (by decide +kernel) (by decide +kernel), ?_, by decide +kernel,
    ⟨[([], { kind := .dir }), ([str "e"], { kind := .dir }), ([str "e", str "x"], { kind := .reg (str "precious") }), ([str "d"], { kind := .reg (str "new") })],
     [([], { kind := .dir }), ([str "F4"], { kind := .dir }), ([str "F4", str "d"], { kind := .chr 0 })]⟩, by decide +kernel, by decide +kernel, by decide +kernel, by decide +kernel,
    by decide +kernel, by decide +kernel⟩
  have : selected exViewEnv exMoveDir = changes exViewEnv exMoveDir := by decide +kernel
  intro e he
  rw [this]
  exact he

/-- In the sandbox `g` was deleted and `f` written; then `g` was deleted on the host, too. -/
def exTwice : State := ⟨[([], { kind := .dir }), ([str "f"], { kind := .reg (str "f") })],
  [([], { kind := .dir }), ([str "F4"], { kind := .dir }), ([str "F4", str "f"], { kind := .reg (str "new") }), ([str "F4", str "g"], { kind := .chr 0 })]⟩

/-- **C108 refuted** for files deleted both in the sandbox and on the host: the mark stays in the storage when everything is accepted (status does not show it); a file that is created on the host under
this name afterwards is invisible in the sandbox and deleted by the next accept. -/
theorem C108_refuted_deleted_twice : Spec.Ordinary exViewEnv exTwice ∧ Spec.PlainStorage exViewEnv exTwice ∧ Spec.AllSelected exViewEnv exTwice ∧ (accept exViewEnv exTwice).error = none ∧
    changes (exAgain exViewEnv) (accept exViewEnv exTwice).state = [] ∧
    ∃ st, st.upper = (accept exViewEnv exTwice).state.upper ∧ st.lower = (accept exViewEnv exTwice).state.lower.set [str "g"] { kind := .reg (str "new") } ∧
      Spec.view st (str "F4") [] [str "g"] = none ∧ (changes (exAgain exViewEnv) st).map (fun e => (e.op, e.dest)) = [(.remove, [str "g"])] ∧
      (accept (exAgain exViewEnv) st).error = none ∧ (accept (exAgain exViewEnv) st).state.lower.get [str "g"] = none := by
  refine ⟨ordinary_of_check (fun _ => rfl) (fun _ => rfl) (by decide +kernel) (by decide +kernel) (by decide +kernel), plainStorage_of_check (by decide +kernel) (by decide +kernel), ?_,
    by decide +kernel, by decide +kernel, ⟨(accept exViewEnv exTwice).state.lower.set [str "g"] { kind := .reg (str "new") }, (accept exViewEnv exTwice).state.upper⟩, rfl, rfl, by decide +kernel,
    by decide +kernel, by decide +kernel, by decide +kernel⟩
  have : selected exViewEnv exTwice = changes exViewEnv exTwice := by decide +kernel
  intro e he
  rw [this]
  exact he

/-! ### Concrete cases -/

/-- The conditions of `C108_follows_partial` hold for the state of C106, and a file made on the host afterwards is seen. -/
example : Spec.NoStaleMarks exViewEnv exDuring ∧ (accept exViewEnv exDuring).error = none := by
  refine ⟨fun m mp sub n hd hne hg hw => ?_, by decide +kernel⟩
  have h := FS.mem_of_get hg
  have key : ∀ e ∈ exDuring.upper, Spec.isWhiteout e.2 = true → e.1 = [str "F4", str "d", str "x"] := by decide +kernel
  have hk := key _ h hw
  obtain ⟨rfl, rfl⟩ := List.cons.inj hk
  have : mp = [] := by
    have h' : exViewEnv.decode (str "F4") = some [] := by decide +kernel
    rw [h'] at hd; cases hd; rfl
  subst this
  exact ⟨{ kind := .reg (str "old") }, by decide +kernel⟩

def exRoundMounts : List MountHash := [⟨str "F4", []⟩]
def exRound0 : State := ⟨[([], { kind := .dir }), ([str "f"], { kind := .reg (str "f") })], [([], { kind := .dir }), ([str "F4"], { kind := .dir })]⟩
/-- `rm f; mkdir d; echo >d/g` -/
def exRoundActs : List Act := [⟨[str "f"], .remove⟩, ⟨[str "d"], .mkdir 0 0 0o755 true⟩, ⟨[str "d", str "g"], .put (.reg (str "g")) 7 7 0o644⟩]
/-- `echo >f` on the host -/
def exRoundHost : Act := ⟨[str "f"], .put (.reg (str "back")) 0 0 0o644⟩
/-- `rm d/g; chmod 700 d` -/
def exRoundActs2 : List Act := [⟨[str "d", str "g"], .remove⟩, ⟨[str "d"], .attr 0 0 0o700⟩]
/-- After the first round and the change on the host. -/
def exRound1 : State := ⟨[([], { kind := .dir }), ([str "d"], { kind := .dir, perm := 0o755 }), ([str "d", str "g"], { kind := .reg (str "g"), uid := 7, gid := 7, perm := 0o644 })], exRound0.upper⟩
def exRound2 : State := { exRound1 with lower := actOn exRoundMounts exRound1.lower exRoundHost }

theorem exRound0_new : Spec.NewSandbox exRoundMounts exRound0 := newSandbox_of_check (by decide +kernel) (by decide +kernel) (by decide +kernel) (by decide +kernel)

theorem exRound_way {host : FS} {acts : List Act} (h : ∀ a ∈ acts, ∀ e ∈ host, Spec.ftype e.2.kind ≠ .symlink) : ∀ a ∈ acts, Spec.ClearWay host a.path :=
  fun a ha => clearWay_of_check (fun e he => ⟨fun _ => h a ha e he, fun _ hl => absurd hl (h a ha e he)⟩)

theorem exRound_cwd {host : FS} (h : ∀ n ∈ host.get [], Spec.ftype n.kind ≠ .symlink) : NormalPath [] ∧ ∀ y, y <+: ([] : Path) → ∀ n, host.get y = some n → Spec.ftype n.kind ≠ .symlink :=
  ⟨normal_root, fun y hy n hg => by
    have : y = [] := List.prefix_nil.1 hy
    subst this
    exact h n hg⟩

theorem exRound0_ok : Spec.RoundOk exViewEnv exRoundMounts exRound0 exRoundActs := by
  have hord : Spec.Ordinary exViewEnv (runIn exRoundMounts exRound0 exRoundActs) := ordinary_of_check (fun _ => rfl) (fun _ => rfl) (by decide +kernel) (by decide +kernel) (by decide +kernel)
  have hsel : selected exViewEnv (runIn exRoundMounts exRound0 exRoundActs) = changes exViewEnv (runIn exRoundMounts exRound0 exRoundActs) := by decide +kernel
  exact ⟨actsOk_of_check (by decide +kernel), by decide +kernel, exRound_way (by decide +kernel), exRound_cwd (by decide +kernel), hord.fresh, (fun e he => by rw [hsel]; exact he), by decide +kernel⟩

theorem exRound2_ok : Spec.RoundOk (exAgain exViewEnv) exRoundMounts exRound2 exRoundActs2 := by
  have hord : Spec.Ordinary (exAgain exViewEnv) (runIn exRoundMounts exRound2 exRoundActs2) := ordinary_again (by decide +kernel) (by decide +kernel) (by decide +kernel) (by decide +kernel) (by decide +kernel)
  have hsel : selected (exAgain exViewEnv) (runIn exRoundMounts exRound2 exRoundActs2) = changes (exAgain exViewEnv) (runIn exRoundMounts exRound2 exRoundActs2) := by decide +kernel
  exact ⟨actsOk_of_check (by decide +kernel), by decide +kernel, exRound_way (by decide +kernel), exRound_cwd (by decide +kernel), hord.fresh, (fun e he => by rw [hsel]; exact he), by decide +kernel⟩

/-- Two rounds, with a change on the host in between. -/
example : Spec.Rounds exRoundMounts exRound0 (exRoundActs ++ [exRoundHost] ++ exRoundActs2) (accept (exAgain exViewEnv) (runIn exRoundMounts exRound2 exRoundActs2)).state := by
  refine .sandbox _ _ ?_ exRound2_ok
  have h1 : (accept exViewEnv (runIn exRoundMounts exRound0 exRoundActs)).state = exRound1 := by decide +kernel
  have h2 : Spec.Rounds exRoundMounts exRound0 ([] ++ exRoundActs) exRound1 := h1 ▸ .sandbox exViewEnv exRoundActs .start exRound0_ok
  exact .host exRoundHost h2 (actsOk_of_check (acts := [exRoundHost]) (by decide +kernel) _ (by simp))

example : [[str "f"], [str "d"], [str "d", str "g"]].map (fun p => ((accept (exAgain exViewEnv) (runIn exRoundMounts exRound2 exRoundActs2)).state.lower.get p).map (fun n => (n.kind, n.perm))) =
    [some (.reg (str "back"), 0o644), some (.dir, 0o700), none] := by decide +kernel

end SB
