import Verif.Lib.HistoryNeat
import Verif.Props.History
import Verif.Props.Everything

/-!
# C84: after every history of a sandbox, accepting everything succeeds and does to the host what was done in the sandbox
-/

namespace SB

/-! ### Specification -/

/-- Something is put at the path: a file or a link is created or replaced. -/
def Spec.Puts (a : Act) : Prop := ∃ k uid gid perm, a.what = .put k uid gid perm

/-- What accept can carry out:
* files and links are created (no devices, pipes or sockets);
* where something is removed or replaced, the host has only files, directories and links, and (within the mount of the sandbox) no other file systems are mounted;
* no file is put where the host has a directory or link if a directory above was removed before or is later (this is the case in which accept lists removals twice, `C08_refuted_duplicate`). -/
structure Spec.CanAccept (mounts : List MountHash) (host : FS) (acts : List Act) : Prop where
  kinds : ∀ a ∈ acts, ∀ k uid gid perm, a.what = .put k uid gid perm → Spec.ftype k = .file ∨ Spec.ftype k = .symlink
  hidden : ∀ a ∈ acts, (a.what = .remove ∨ Spec.Puts a) → ∀ q k, a.path <+: q → mountFor mounts q = mountFor mounts a.path → (∀ m ∈ mounts, m.dir ≠ q) → host.get q = some k →
    (Spec.ftype k.kind = .file ∨ Spec.ftype k.kind = .directory ∨ Spec.ftype k.kind = .symlink) ∧
    (Spec.ftype k.kind = .directory → ∀ k', host.get q.dropLast = some k' → k'.dev = k.dev)
  once : ∀ a ∈ acts, ∀ b ∈ acts, Spec.Puts a → b.what = .remove → Below b.path a.path → ∀ k, host.get a.path = some k → Spec.ftype k.kind ≠ .directory ∧ Spec.ftype k.kind ≠ .symlink

/-! ### Proofs -/

section
variable {env : Env} {mounts : List MountHash} {st : State} {fs host : FS} {T P R : Path → Prop} {dev : Nat}

/-- Below a stored node that hides, the host path belongs to the same mount. -/
theorem hiding_mount (hm : MountsOk mounts) (h : Hist mounts T host st fs) {m : MountHash} (hmm : m ∈ mounts) {sub q : Path} (hsub : sub ≠ []) {n : Node}
    (hg : st.upper.get (m.hash :: sub) = some n) (hh : Spec.Hiding n) (hmf : mountFor mounts (m.dir ++ sub) = some m) (hpre : m.dir ++ sub <+: q) : mountFor mounts q = some m := by
  refine mountFor_of hm.dirs hmm ((List.prefix_append _ _).trans hpre) (fun m2 hm2 hp2 => ?_)
  rcases prefix_total hp2 hpre with h1 | h1
  · exact (mountFor_some hmf).2.2 m2 hm2 h1
  · exfalso
    obtain ⟨k, k1, k2, k3⟩ := h.points m hmm m2 hm2 sub hsub h1
    obtain ⟨v1, _⟩ := h.regular.view (h.tops m hmm) sub
    cases hw : Spec.isWhiteout n with
    | true => rw [(v1 n hg).1 hw] at k1; cases k1
    | false =>
      rw [(v1 n hg).2 hw] at k1
      cases k1
      rcases hh with hh | hh | hh
      · rw [hw] at hh; cases hh
      · rw [k3] at hh; cases hh
      · exact hh (isDir_iff_ftype.1 k2)

theorem hist_ready (hm : MountsOk mounts) (hdec : ∀ m ∈ mounts, env.decode m.hash = some m.dir) (h : Hist mounts T host st fs) (hn : Neat mounts P R dev st)
    (hT : ∀ p, T p → Spec.ClearWay host p)
    (hhid : ∀ p, (P p ∨ R p) → ∀ q k, p <+: q → mountFor mounts q = mountFor mounts p → (∀ m ∈ mounts, m.dir ≠ q) → host.get q = some k →
      (Spec.ftype k.kind = .file ∨ Spec.ftype k.kind = .directory ∨ Spec.ftype k.kind = .symlink) ∧
      (Spec.ftype k.kind = .directory → ∀ k', host.get q.dropLast = some k' → k'.dev = k.dev))
    (honce : ∀ p q, P p → R q → Below q p → ∀ k, host.get p = some k → Spec.ftype k.kind ≠ .directory ∧ Spec.ftype k.kind ≠ .symlink) : Spec.AcceptReady env st := by
  have hsome : ∀ {p q : Path} {k : Node}, p <+: q → st.lower.get q = some k → ∃ j, st.lower.get p = some j := by
    intro p q k hp hk
    by_cases he : p = q
    · exact ⟨k, by rw [he]; exact hk⟩
    · obtain ⟨j, hj, _⟩ := FS.isDirAt_iff.1 (h.regular.host.ancestor hk (below_iff.2 ⟨hp, he⟩))
      exact ⟨j, hj⟩
  have hnd : ∀ {n : Node}, n.isDir = false ↔ Spec.ftype n.kind ≠ .directory := by
    intro n; rw [← Bool.not_eq_true, isDir_iff_ftype]
  refine ⟨fun x mp sub n hd hne hg hw => ?_, fun x mp sub n q k hd hne hg hh hpre hk => ?_, fun x mp sub n x' mp' sub' n' k hd hne hg hh hd' hne' hg' hh' hb hk => ?_,
    fun x mp sub n k hd hne hg hf hk => ?_⟩
  · obtain ⟨m, hmm, rfl, rfl, _⟩ := hist_mount hdec h hd hg
    cases hdd : n.isDir with
    | true => exact Or.inr (Or.inl (isDir_iff_ftype.1 hdd))
    | false =>
      rcases (hn.files m hmm sub n hne hg hw hdd).2 with h1 | h1
      · exact Or.inl h1
      · exact Or.inr (Or.inr h1)
  · obtain ⟨m, hmm, rfl, rfl, hs⟩ := hist_mount hdec h hd hg
    obtain ⟨hmf, _⟩ := hs hne
    obtain ⟨j, hj⟩ := hsome hpre hk
    have hmq := hiding_mount hm h hmm hne hg hh hmf hpre
    have hPR : P (m.dir ++ sub) ∨ R (m.dir ++ sub) := by
      by_cases hmk : Spec.isWhiteout n = true ∨ n.opq = true
      · exact Or.inr (hn.removed m hmm sub n j hne hg hmk hj)
      · rw [not_or] at hmk
        have hw : Spec.isWhiteout n = false := by simpa using hmk.1
        refine Or.inl (hn.files m hmm sub n hne hg hw (hnd.2 ?_)).1
        rcases hh with h1 | h1 | h1
        · exact absurd h1 hmk.1
        · exact absurd h1 hmk.2
        · exact h1
    have hnpt : ∀ m2 ∈ mounts, m2.dir ≠ q := by
      rintro m2 hm2 rfl
      have h1 := (mountFor_some hmq).2.2 m2 hm2 (List.prefix_refl _)
      have h2 := (hpre.trans h1).length_le
      rw [List.length_append] at h2
      exact hne (List.length_eq_zero_iff.1 (by omega))
    have := hhid _ hPR q k hpre (hmq.trans hmf.symm) hnpt (by rw [← h.lower]; exact hk)
    rw [← h.lower] at this
    exact this
  · obtain ⟨m, hmm, rfl, rfl, hs⟩ := hist_mount hdec h hd hg
    obtain ⟨m', hmm', rfl, rfl, hs'⟩ := hist_mount hdec h hd' hg'
    obtain ⟨hmf, _⟩ := hs hne
    obtain ⟨hmf', _⟩ := hs' hne'
    have hmm2 : m' = m := by
      have := hiding_mount hm h hmm hne hg hh hmf hb.prefix
      rw [hmf'] at this
      exact Option.some.inj this
    subst hmm2
    have hbs : Below sub sub' := by
      obtain ⟨w, hw, e⟩ := hb
      exact ⟨w, hw, List.append_cancel_left (by rw [e, List.append_assoc])⟩
    obtain ⟨j, hj, hjd⟩ := FS.isDirAt_iff.1 (h.regular.upper.ancestor hg' (below_cons hbs))
    rw [hg] at hj; cases hj
    have hw : Spec.isWhiteout n = false := not_whiteout_dir hjd (h.regular.whiteout _ n hg)
    have hop : n.opq = true := by
      rcases hh with h1 | h1 | h1
      · rw [hw] at h1; cases h1
      · exact h1
      · exact absurd (isDir_iff_ftype.1 hjd) h1
    have hcl : ¬ (Spec.isWhiteout n' = true ∨ n'.opq = true) := fun hmk => hn.clear m' hmm sub' n' hne' hg' hmk sub hne hbs ⟨n, hg, hh⟩
    rw [not_or] at hcl
    have hw' : Spec.isWhiteout n' = false := by simpa using hcl.1
    have hd' : n'.isDir = false := hnd.2 (by
      rcases hh' with h1 | h1 | h1
      · exact absurd h1 hcl.1
      · exact absurd h1 hcl.2
      · exact h1)
    obtain ⟨j, hj⟩ := hsome hb.prefix hk
    refine ⟨hw', by simpa using hcl.2, honce _ _ (hn.files m' hmm sub' n' hne' hg' hw' hd').1 (hn.removed m' hmm sub n j hne hg (Or.inr hop) hj) hb k (by rw [← h.lower]; exact hk)⟩
  · obtain ⟨m, hmm, rfl, rfl, hs⟩ := hist_mount hdec h hd hg
    cases hkd : k.isDir with
    | true => exact Or.inl (isDir_iff_ftype.1 hkd)
    | false =>
      right
      rcases hn.dirs m hmm sub n k hne hg (isDir_iff_ftype.2 hf) hk hkd with h1 | ⟨q, hq0, hq, n0, hn0, hh0⟩
      · refine Or.inl ⟨h1, ?_⟩
        by_cases hl : Spec.ftype k.kind = .symlink
        · obtain ⟨_, p, hp, hpre⟩ := hs hne
          have hc := hT p hp
          rw [h.lower] at hk ⊢
          by_cases he : m.dir ++ sub = p
          · subst he; exact (hc.link k hk hl).1
          · exact absurd hl (hc.above _ k (below_iff.2 ⟨hpre, he⟩) hk)
        · unfold FS.pexists
          rw [FS.stat_chain (h.regular.host.normal_of_get hk) h.regular.host.root (h.regular.host.chain hk) (fun x hx => by rw [hk] at hx; cases hx; exact isLnk_of_ftype hl), hk]
      · exact Or.inr ⟨q, n0, hq0, hq, hn0, hh0⟩

end

theorem hist_neat {mounts : List MountHash} {st : State} (h : Spec.NewSandbox mounts st) {dev : Nat} (hd : ∀ q n, st.upper.get q = some n → n.dev = dev) (P R : Path → Prop) : Neat mounts P R dev st := by
  have hnone : ∀ (m : MountHash) {sub n}, sub ≠ [] → ¬ st.upper.get (m.hash :: sub) = some n := by
    intro m sub n hsub hg
    rcases (h.empty _ n hg).1 with h1 | ⟨m', _, h1⟩
    · cases h1
    · exact hsub (List.cons.inj h1).2
  exact ⟨fun m _ sub n hs hg => absurd hg (hnone m hs), fun m _ sub n k hs hg => absurd hg (hnone m hs), fun m _ sub n hs hg => absurd hg (hnone m hs),
    fun m _ sub n k hs hg => absurd hg (hnone m hs), hd⟩

/-- **C84 (partial)**: for every history of a sandbox: if afterwards every change is selected, accepting succeeds, and then the host is as if everything had been done there directly (same
names, types, contents, owners, groups and modes), except at mount points.
Missing: renames of directories that are merged with the host's, links of the host in the way (`Spec.ClearWay`), what accept cannot carry out (`Spec.CanAccept`). -/
theorem C84_whole_partial (env : Env) (mounts : List MountHash) (st : State) (acts : List Act) (hnew : Spec.NewSandbox mounts st) (hone : Spec.OneDevice st.upper) (hacts : ∀ a ∈ acts, ActOk mounts a)
    (hdec : ∀ m ∈ mounts, env.decode m.hash = some m.dir) (hway : ∀ a ∈ acts, Spec.ClearWay st.lower a.path) (hacc : Spec.CanAccept mounts st.lower acts)
    (hcwd : NormalPath env.cwd ∧ ∀ y, y <+: env.cwd → ∀ n, st.lower.get y = some n → Spec.ftype n.kind ≠ .symlink)
    (hfresh : Spec.FreshTemps env st.lower (selected env (runIn mounts st acts))) (hall : Spec.AllSelected env (runIn mounts st acts)) :
    (accept env (runIn mounts st acts)).error = none ∧
    ∀ p, (∀ m ∈ mounts, m.dir ≠ p) →
      ((runOn mounts st.lower acts).get p = none → (accept env (runIn mounts st acts)).state.lower.get p = none) ∧
      (∀ n, (runOn mounts st.lower acts).get p = some n → ∃ n', (accept env (runIn mounts st acts)).state.lower.get p = some n' ∧ Spec.SameNode n' n) := by
  obtain ⟨hm, h⟩ := hist_run hnew hacts
  obtain ⟨dev, hdev⟩ := hone
  have hT : ∀ p, (∃ a ∈ acts, a.path = p) → Spec.ClearWay st.lower p ∧ NormalPath p := by
    rintro p ⟨a, ha, rfl⟩
    exact ⟨hway a ha, (hacts a ha).normal⟩
  have hn : Neat mounts (fun p => ∃ a ∈ acts, a.path = p ∧ Spec.Puts a) (fun p => ∃ a ∈ acts, a.path = p ∧ a.what = .remove) dev (runIn mounts st acts) := by
    refine Neat.run hm acts (hist_new hnew (fun _ => True)).2 (hist_neat hnew hdev _ _) (fun a ha => ⟨hacts a ha, trivial, fun k uid gid perm hw => ⟨⟨a, ha, rfl, k, uid, gid, perm, hw⟩, ?_⟩,
      fun hw => ⟨a, ha, rfl, hw⟩⟩)
    rcases hacc.kinds a ha k uid gid perm hw with h1 | h1
    · exact Or.inl h1
    · exact Or.inr (Or.inl h1)
  have hok : (accept env (runIn mounts st acts)).error = none := by
    refine C85_everything_partial env _ (hist_ordinary hm hdec h hT hcwd (by rw [h.lower]; exact hfresh)) (hist_plain hm hdec h (fun p hp => (hT p hp).1))
      (hist_ready hm hdec h hn (fun p hp => (hT p hp).1) ?_ ?_) hall ⟨dev, hn.dev⟩
    · rintro p (⟨a, ha, rfl, hp⟩ | ⟨a, ha, rfl, hp⟩) q k hpre hmf hnp hk
      · exact hacc.hidden a ha (Or.inr hp) q k hpre hmf hnp hk
      · exact hacc.hidden a ha (Or.inl hp) q k hpre hmf hnp hk
    · rintro p q ⟨a, ha, rfl, hp⟩ ⟨b, hb, rfl, hr⟩ hbel k hk
      exact hacc.once a ha b hb hp hr hbel k hk
  exact ⟨hok, fun p hp => C84_history_partial env mounts st acts hnew hacts hdec hway hcwd hfresh hall hok p hp⟩

/-! ### Examples -/

instance (a : Act) : Decidable (Spec.Puts a) :=
  match h : a.what with
  | .put k uid gid perm => isTrue ⟨k, uid, gid, perm, h⟩
  | .mkdir _ _ _ _ => isFalse (fun ⟨_, _, _, _, e⟩ => by rw [h] at e; cases e)
  | .attr _ _ _ => isFalse (fun ⟨_, _, _, _, e⟩ => by rw [h] at e; cases e)
  | .remove => isFalse (fun ⟨_, _, _, _, e⟩ => by rw [h] at e; cases e)

theorem acceptable_of_acts {mounts : List MountHash} {host : FS} {acts : List Act}
    (h1 : ∀ a ∈ acts, (match a.what with | .put k _ _ _ => decide (Spec.ftype k = .file ∨ Spec.ftype k = .symlink) | _ => true) = true)
    (h2 : ∀ a ∈ acts, (a.what = .remove ∨ Spec.Puts a) → ∀ e ∈ host, a.path <+: e.1 → mountFor mounts e.1 = mountFor mounts a.path → (∀ m ∈ mounts, m.dir ≠ e.1) →
      (Spec.ftype e.2.kind = .file ∨ Spec.ftype e.2.kind = .directory ∨ Spec.ftype e.2.kind = .symlink) ∧ (Spec.ftype e.2.kind = .directory → ∀ k' ∈ host.get e.1.dropLast, k'.dev = e.2.dev))
    (h3 : ∀ a ∈ acts, Spec.Puts a → ∀ b ∈ acts, b.what = .remove → b.path <+: a.path → b.path = a.path ∨ ∀ k ∈ host.get a.path, Spec.ftype k.kind ≠ .directory ∧ Spec.ftype k.kind ≠ .symlink) :
    Spec.CanAccept mounts host acts := by
  refine ⟨fun a ha k uid gid perm hw => ?_, fun a ha hw q k hpre hmf hnp hk => ?_, fun a ha b hb hp hr hbel k hk => ?_⟩
  · have := h1 a ha
    rw [hw] at this
    simpa using this
  · obtain ⟨a1, a2⟩ := h2 a ha hw _ (FS.mem_of_get hk) hpre hmf hnp
    exact ⟨a1, fun hd k' hk' => a2 hd k' hk'⟩
  · rcases h3 a ha hp b hb hr hbel.prefix with h | h
    · exact absurd h hbel.ne
    · exact h k hk

set_option synthInstance.maxSize 1000 in
set_option synthInstance.maxHeartbeats 200000 in
-- the history of `exHistActs` (directories replaced by files, re-created directories, links, several mounts) meets the conditions of `C84_whole_partial`
theorem exHist_acceptable : Spec.CanAccept exHistMounts exHistNew.lower exHistActs := acceptable_of_acts (by decide +kernel) (by decide +kernel) (by decide +kernel)
theorem exHist_whole : (accept exViewEnv (runIn exHistMounts exHistNew exHistActs)).error = none := by
  have hord : Spec.Ordinary exViewEnv (runIn exHistMounts exHistNew exHistActs) := ordinary_of_check (fun _ => rfl) (fun _ => rfl) (by decide +kernel) (by decide +kernel) (by decide +kernel)
  have hsel : selected exViewEnv (runIn exHistMounts exHistNew exHistActs) = changes exViewEnv (runIn exHistMounts exHistNew exHistActs) := by decide +kernel
  refine (C84_whole_partial exViewEnv exHistMounts exHistNew exHistActs exHist_new (oneDevice_of_check 0 (by decide +kernel)) exHist_acts (by decide +kernel) exHist_way exHist_acceptable
    ⟨by decide +kernel, fun y hy n hg => ?_⟩ hord.fresh (fun e he => by rw [hsel]; exact he)).1
  have : y = [] := List.prefix_nil.1 hy
  subst this
  revert n
  decide +kernel

/-- A host with the directories `x` and `x/y`. -/
def exHistTwiceHost : FS :=
  [([], { kind := .dir, dev := 1 }), ([str "x"], { kind := .dir, dev := 1 }), ([str "x", str "y"], { kind := .dir, dev := 1 })]
def exHistTwice : List Act := [⟨[str "x", str "y"], .remove⟩, ⟨[str "x"], .remove⟩, ⟨[str "x"], .mkdir 0 0 0o755 true⟩, ⟨[str "x", str "y"], .put (.reg []) 0 0 0o644⟩]
def exHistTwiceNew : State := ⟨exHistTwiceHost, [([], { kind := .dir }), ([str "F4"], { kind := .dir })]⟩

/-- **C84 refuted**: `rmdir x/y; rmdir x; mkdir x; echo >x/y` in a sandbox, then accepting everything: accept fails half-way, with `x` deleted from the host. -/
theorem C84_refuted_recreated : Spec.NewSandbox [⟨str "F4", []⟩] exHistTwiceNew ∧ (∀ a ∈ exHistTwice, ActOk [⟨str "F4", []⟩] a) ∧ (∀ a ∈ exHistTwice, Spec.ClearWay exHistTwiceHost a.path) ∧
    (accept exViewEnv (runIn [⟨str "F4", []⟩] exHistTwiceNew exHistTwice)).error = some (.os .ENOENT) ∧
    (accept exViewEnv (runIn [⟨str "F4", []⟩] exHistTwiceNew exHistTwice)).state.lower.get [str "x", str "y"] = none := by
  refine ⟨newSandbox_of_check (by decide +kernel) (by decide +kernel) (by decide +kernel) (by decide +kernel), actsOk_of_check (by decide +kernel), ?_, by decide +kernel, by decide +kernel⟩
  intro a _
  refine clearWay_of_check (fun e he => ?_)
  have : ∀ e ∈ exHistTwiceHost, Spec.ftype e.2.kind ≠ .symlink := by decide +kernel
  exact ⟨fun _ => this e he, fun _ h => absurd h (this e he)⟩

end SB
