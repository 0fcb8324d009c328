import Verif.Props.Steps
import Verif.Props.RepeatHistory
import Verif.Props.DuringHistory

/-!
# C120 for histories: accepting in steps, whatever was done in the sandbox
-/

namespace SB

/-- Nothing stored is a link, and no link of the host is at or above its path. -/
def Spec.LinkFree (env : Env) (st : State) : Prop :=
  ∀ m mp sub n, env.decode m = some mp → sub ≠ [] → st.upper.get (m :: sub) = some n →
    Spec.ftype n.kind ≠ .symlink ∧ NormalPath (mp ++ sub) ∧ ∀ y, y <+: mp ++ sub → ∀ k, st.lower.get y = some k → Spec.ftype k.kind ≠ .symlink

/-- The circumstances of an accept: it is run in a directory that no link leads to, and the names of its temporary files are unused. -/
structure Spec.UsualRun (env : Env) (st : State) : Prop where
  cwd : NormalPath env.cwd ∧ ∀ y, y <+: env.cwd → ∀ n, st.lower.get y = some n → Spec.ftype n.kind ≠ .symlink
  fresh : Spec.FreshTemps env st.lower (selected env st)

/-- Any number of accepts, one after the other, each successful and of a selection that takes directories as a whole. -/
inductive Spec.AcceptedPartly (decode : Name → Option Path) : State → State → Prop
  | none (st : State) : Spec.AcceptedPartly decode st st
  | step (env : Env) {st st' : State} : env.decode = decode → Spec.UsualRun env st → Spec.WholeDirs env st → (accept env st).error = none →
      Spec.AcceptedPartly decode (accept env st).state st' → Spec.AcceptedPartly decode st st'

section
variable {env env' : Env} {st st' : State}

theorem linkFree_ordinary (hw : st.lower.WF) (hp : Spec.PlainStorage env st) (hl : Spec.LinkFree env st) (hs : Spec.SeparateMounts env st.upper) (hr : Spec.UsualRun env st) : Spec.Ordinary env st := by
  have hdest := plain_dest hp hw (fun {x mp sub n} hd hsub hg => by
    obtain ⟨_, h1, h2⟩ := hl x mp sub n hd hsub hg
    exact ⟨h1, by simp [hsub], fun y hy => h2 y hy.prefix, fun _ => h2 _ (List.prefix_refl _)⟩)
  refine ⟨hw, ⟨fun e he => (hdest e he).1, fun e he s hs => ?_, hr.cwd, fun e he hop => absurd hop (plain_no_rename hp e he), fun e he hset s hs hlk => ?_⟩, hr.fresh, hp.wf.nodup, hs⟩
  · rw [(hdest e he).2 s hs]
    exact ⟨(hdest e he).1.1, (hdest e he).1.2.2⟩
  · exfalso
    obtain ⟨m, mp, sub, n, h1, h2, h3, _, _, h6⟩ := set_stored he hset
    rw [hs] at h6
    cases h6
    exact (hl m mp sub n h1 h2 h3).1 hlk

theorem linkFree_step (ho : Spec.Ordinary env st) (hp : Spec.PlainStorage env st) (hl : Spec.LinkFree env st) (hok : (accept env st).error = none) : Spec.LinkFree env (accept env st).state := by
  classical
  intro m mp sub n hd hne hg
  have hg0 : st.upper.get (m :: sub) = some n := by
    rw [C06_storage_after env st hp.wf hok] at hg
    split at hg
    · cases hg
    · exact hg
  obtain ⟨h1, h2, h3⟩ := hl m mp sub n hd hne hg0
  refine ⟨h1, h2, fun y hy k hk => ?_⟩
  rcases after_kind ho hp hok hk with h | ⟨m', mp', sub', n', a, b, c, _, e⟩
  · exact h3 y hy k h
  · rw [e]; exact (hl m' mp' sub' n' a b c).1

theorem linkFree_noDeleted (hl : Spec.LinkFree env st) : Spec.NoLinkDeleted env st :=
  fun m mp sub n k hd hne hg _ hk => (hl m mp sub n hd hne hg).2.2 _ (List.prefix_refl _) k hk

theorem separate_after (hp : Spec.PlainStorage env st) (hok : (accept env st).error = none) (hs : Spec.SeparateMounts env st.upper) : Spec.SeparateMounts env (accept env st).state.upper := by
  classical
  have hsub : ∀ q, q ∈ (accept env st).state.upper.keys → q ∈ st.upper.keys := by
    intro q hq
    obtain ⟨n, hn⟩ := FS.mem_keys.1 hq
    rw [C06_storage_after env st hp.wf hok] at hn
    split at hn
    · cases hn
    · exact FS.mem_keys.2 ⟨n, hn⟩
  exact fun m m' sub sub' mp mp' h1 h2 => hs m m' sub sub' mp mp' (hsub _ h1) (hsub _ h2)

theorem partly_steps {decode : Name → Option Path} {a b : State} (h : Spec.AcceptedPartly decode a b) : ∀ env, env.decode = decode → a.lower.WF → Spec.PlainStorage env a → Spec.LinkFree env a →
    Spec.SeparateMounts env a.upper → Spec.AcceptedInSteps decode a b ∧ b.lower.WF ∧ Spec.LinkFree env b ∧ Spec.SeparateMounts env b.upper := by
  induction h with
  | none a => exact fun env _ hw _ hl hs => ⟨.none _, hw, hl, hs⟩
  | @step env1 a b hd1 hu hwd hok _ ih =>
    intro env hd hw hp hl hs
    have hdd : env.decode = env1.decode := hd.trans hd1.symm
    have hp1 : Spec.PlainStorage env1 a := by
      obtain ⟨a1, a2, a3, a4, a5, a6, a7⟩ := hp
      rw [hdd] at a5 a6 a7
      exact ⟨a1, a2, a3, a4, a5, a6, a7⟩
    have hl1 : Spec.LinkFree env1 a := by
      intro m mp sub n h
      rw [← hdd] at h
      exact hl m mp sub n h
    have hs1 : Spec.SeparateMounts env1 a.upper := by
      intro m m' sub sub' mp mp' h1 h2 h3 h4
      rw [← hdd] at h3 h4
      exact hs m m' sub sub' mp mp' h1 h2 h3 h4
    have ho := linkFree_ordinary hw hp1 hl1 hs1 hu
    obtain ⟨p1, _, _⟩ := step_plain ho hp1 (linkFree_noDeleted hl1) hok hdd
    have l1 := linkFree_step ho hp1 hl1 hok
    have s1 := separate_after hp1 hok hs1
    obtain ⟨r1, r2, r3, r4⟩ := ih env hd (lower_wf_after ho hok) p1 (by
      intro m mp sub n h
      rw [hdd] at h
      exact l1 m mp sub n h) (by
      intro m m' sub sub' mp mp' h1 h2 h3 h4
      rw [hdd] at h3 h4
      exact s1 m m' sub sub' mp mp' h1 h2 h3 h4)
    exact ⟨.step env1 hd1 ho hwd hok r1, r2, r3, r4⟩

end

/-- **C120 (partial)**, for histories: whatever was done in a sandbox (no directories of the host were moved, no links were involved), and however its changes are accepted, in any number of steps, as
long as each takes directories as a whole: the sandbox shows at every path what was done in it; what is left can be accepted; and when this has been done, the host is as if everything had been done
there directly (same names, types, contents, owners, groups and modes), except at mount points.
Missing: as for `C120_view_partial`; what accept cannot carry out (`Spec.CanAccept`), hosts with several file systems. -/
theorem C120_history_partial (env : Env) (mounts : List MountHash) (st st' : State) (acts : List Act) (hnew : Spec.NewSandbox mounts st) (hdu : Spec.OneDevice st.upper) (hdl : Spec.OneDevice st.lower)
    (hacts : ∀ a ∈ acts, ActOk mounts a) (hdec : ∀ m ∈ mounts, env.decode m.hash = some m.dir) (hno : Spec.NoLinksMade st.lower acts) (hacc : Spec.CanAccept mounts st.lower acts)
    (hsteps : Spec.AcceptedPartly env.decode (runIn mounts st acts) st') :
    (∀ p, (∃ m ∈ mounts, m.dir <+: p) → (∀ m ∈ mounts, m.dir ≠ p) → Spec.SameThing (Spec.seenAt mounts st' p) ((runOn mounts st.lower acts).get p)) ∧
    (Spec.UsualRun env st' → Spec.AllSelected env st' → (accept env st').error = none ∧
      ∀ p, (∀ m ∈ mounts, m.dir ≠ p) → Spec.SameThing ((accept env st').state.lower.get p) ((runOn mounts st.lower acts).get p)) := by
  obtain ⟨hm, h⟩ := hist_run hnew hacts
  obtain ⟨dev, hdev⟩ := hdu
  have hT : ∀ p, (∃ a ∈ acts, a.path = p) → Spec.ClearWay st.lower p ∧ NormalPath p := by
    rintro p ⟨a, ha, rfl⟩
    exact ⟨hno.way a ha, (hacts a ha).normal⟩
  have hTl : ∀ p, (∃ a ∈ acts, a.path = p) → ∀ y, y <+: p → ∀ n, st.lower.get y = some n → Spec.ftype n.kind ≠ .symlink := by
    rintro p ⟨a, ha, rfl⟩
    exact hno.host a ha
  have hn : Neat mounts (fun p => ∃ a ∈ acts, a.path = p ∧ Spec.Puts a) (fun p => ∃ a ∈ acts, a.path = p ∧ a.what = .remove) dev (runIn mounts st acts) := by
    refine Neat.run hm acts (hist_new hnew (fun _ => True)).2 (hist_neat hnew hdev _ _) (fun a ha => ⟨hacts a ha, trivial, fun k uid gid perm hw => ⟨⟨a, ha, rfl, k, uid, gid, perm, hw⟩, ?_⟩,
      fun hw => ⟨a, ha, rfl, hw⟩⟩)
    rcases hacc.kinds a ha k uid gid perm hw with h1 | h1
    · exact Or.inl h1
    · exact Or.inr (Or.inl h1)
  have hk : Kinds (fun k _ => Spec.ftype k ≠ .symlink) (runIn mounts st acts) := by
    refine Kinds.run (by decide) (by decide) hm acts (hist_new hnew (fun _ => True)).2 (fun q n hg => ?_) (fun a ha => ⟨hacts a ha, trivial, hno.made a ha, fun _ _ _ _ _ _ => by decide⟩)
    have := isDir_iff_ftype.1 (hnew.empty q n hg).2.2.2
    rw [this]; decide
  have hp := hist_plain hm hdec h (fun p hp => (hT p hp).1)
  have hrd : Spec.AcceptReady env (runIn mounts st acts) := by
    refine hist_ready hm hdec h hn (fun p hp => (hT p hp).1) ?_ ?_
    · rintro p (⟨a, ha, rfl, hp⟩ | ⟨a, ha, rfl, hp⟩) q k hpre hmf hnp hk
      · exact hacc.hidden a ha (Or.inr hp) q k hpre hmf hnp hk
      · exact hacc.hidden a ha (Or.inl hp) q k hpre hmf hnp hk
    · rintro p q ⟨a, ha, rfl, hp⟩ ⟨b, hb, rfl, hr⟩ hbel k hk
      exact hacc.once a ha b hb hp hr hbel k hk
  have hlf : Spec.LinkFree env (runIn mounts st acts) := by
    intro x mp sub n hd hsub hg
    obtain ⟨m, hmm, rfl, rfl, hs⟩ := hist_mount hdec h hd hg
    obtain ⟨_, p, hTp, hpre⟩ := hs hsub
    refine ⟨hk _ n hg, (hT p hTp).2.of_prefix hpre, fun y hy k hk => ?_⟩
    rw [h.lower] at hk
    exact hTl p hTp y (hy.trans hpre) k hk
  have hsep : Spec.SeparateMounts env (runIn mounts st acts).upper := by
    intro x x' sub sub' mp mp' h1 h2 h3 h4 h5 h6 h7
    obtain ⟨n, hg⟩ := FS.mem_keys.1 h1
    obtain ⟨n', hg'⟩ := FS.mem_keys.1 h2
    obtain ⟨m, hmm, rfl, rfl, hs⟩ := hist_mount hdec h h3 hg
    obtain ⟨m', hmm', rfl, rfl, hs'⟩ := hist_mount hdec h h4 hg'
    have e1 := (hs h5).1
    have e2 := (hs' h6).1
    rw [h7, e2] at e1
    rw [Option.some.inj e1]
  have hwl : (runIn mounts st acts).lower.WF := h.regular.host
  obtain ⟨hin, hw', hlf', hsep'⟩ := partly_steps hsteps env rfl hwl hp hlf hsep
  obtain ⟨p1, p2, p3, p4⟩ := steps_all hin env rfl hp (linkFree_noDeleted hlf)
  have seen : ∀ p, (∃ m ∈ mounts, m.dir <+: p) → (∀ m ∈ mounts, m.dir ≠ p) → ∃ m sub, m ∈ mounts ∧ p = m.dir ++ sub ∧ Spec.Seen env (runIn mounts st acts) m.hash m.dir p ∧
      Spec.seenAt mounts st' p = Spec.view st' m.hash m.dir sub ∧ Spec.SameThing (Spec.view st' m.hash m.dir sub) ((runOn mounts st.lower acts).get p) := by
    intro p hpm hnp
    have h84 := C84_view mounts st acts hnew hacts p hpm hnp
    obtain ⟨m, hmf⟩ := mountFor_exists hpm
    obtain ⟨hmm, ⟨sub, rfl⟩, _⟩ := mountFor_some hmf
    have hsub : sub ≠ [] := fun e => hnp m hmm (by rw [e, List.append_nil])
    have hsn := hist_seen hm hdec h hsub hmf
    refine ⟨m, sub, hmm, rfl, hsn, ?_, ?_⟩
    · unfold Spec.seenAt
      rw [hmf]
      simp only [Option.bind_some, List.drop_left]
    · refine sameThing_trans (p3 m.hash m.dir sub hsn) ?_
      unfold Spec.seenAt at h84
      rw [hmf] at h84
      simp only [Option.bind_some, List.drop_left] at h84
      cases hx : Spec.view (runIn mounts st acts) m.hash m.dir sub with
      | none =>
        rw [hx] at h84
        cases hy : (runOn mounts st.lower acts).get (m.dir ++ sub) with
        | none => exact sameThing_refl _
        | some k => rw [hy] at h84; cases h84
      | some k =>
        rw [hx] at h84
        cases hy : (runOn mounts st.lower acts).get (m.dir ++ sub) with
        | none => rw [hy] at h84; cases h84
        | some j =>
          rw [hy] at h84
          obtain ⟨a, b, c, d⟩ := h84
          exact ⟨(fun h => by cases h), fun n hn => by cases hn; exact ⟨k, rfl, a, b, c, Or.inr d⟩⟩
  refine ⟨fun p hpm hnp => ?_, fun hrun hall => ?_⟩
  · obtain ⟨m, sub, _, rfl, _, h1, h2⟩ := seen p hpm hnp
    rw [h1]; exact h2
  · have ho' := linkFree_ordinary hw' p1 hlf' hsep' hrun
    have hok' := C120_succeeds_partial env env (runIn mounts st acts) st' hp (linkFree_noDeleted hlf) hrd (by rw [h.lower]; exact hdl) ⟨dev, hn.dev⟩ hin rfl ho' hall
    refine ⟨hok', fun p hnp => ?_⟩
    obtain ⟨v, o⟩ := C01_view_partial env st' ho' p1 hall hok'
    by_cases hex : ∃ m ∈ mounts, m.dir <+: p
    · obtain ⟨m, sub, hmm, rfl, hs, h1, h2⟩ := seen p hex hnp
      obtain ⟨v1, v2⟩ := v m.hash m.dir sub (step_seen rfl p2 hs)
      refine sameThing_trans ⟨v1, v2⟩ h2
    · have hroot : ∀ x, [x] ∈ (runIn mounts st acts).upper.keys → ∃ m ∈ mounts, x = m.hash := by
        intro x hx
        obtain ⟨n, hg⟩ := FS.mem_keys.1 hx
        rcases h.keys _ n hg with h1 | ⟨m, hmm, sub, h1, _⟩
        · cases h1
        · exact ⟨m, hmm, (List.cons.inj h1).1⟩
      have hout : ∀ x mp, [x] ∈ (runIn mounts st acts).upper.keys → env.decode x = some mp → ¬ Below mp p := by
        intro x mp hx hd hb
        obtain ⟨m, hmm, rfl⟩ := hroot x hx
        rw [hdec m hmm] at hd
        cases hd
        exact hex ⟨m, hmm, hb.prefix⟩
      rw [o p (fun x mp hx hd => hout x mp ((p2 x).1 hx) hd), p4 p hout, h.lower]
      rw [h.outside p (fun m hmm hb => hex ⟨m, hmm, hb.prefix⟩)]
      exact sameThing_refl _

/-- `sandbox accept f o "o*"` after the history of `exRepDone`. -/
def exPartEnv : Env := { exViewEnv with patterns := [str "/f", str "/o", str "/o*"], glob := globRef }
def exPart : State := (accept exPartEnv exRepDone).state

theorem exPart_usual : Spec.UsualRun exPartEnv exRepDone :=
  have h : Spec.Ordinary exPartEnv exRepDone := ordinary_of_check (fun _ => rfl) (fun _ => rfl) (by decide +kernel) (by decide +kernel) (by decide +kernel)
  ⟨h.plain.cwd, h.fresh⟩
theorem exPart_steps : Spec.AcceptedPartly exViewEnv.decode exRepDone exPart :=
  .step exPartEnv rfl exPart_usual (wholeDirs_of_check (by decide +kernel) (by decide +kernel)) (by decide +kernel) (.none _)
theorem exPart_last : Spec.UsualRun exViewEnv exPart :=
  have h : Spec.Ordinary exViewEnv exPart := ordinary_of_check (fun _ => rfl) (fun _ => rfl) (by decide +kernel) (by decide +kernel) (by decide +kernel)
  ⟨h.plain.cwd, h.fresh⟩
theorem exPart_all : Spec.AllSelected exViewEnv exPart := by
  have : selected exViewEnv exPart = changes exViewEnv exPart := by decide +kernel
  exact fun e he => by rw [this]; exact he

/-- The hypotheses of `C120_history_partial` hold of a sandbox in which files were made, replaced and deleted; two steps were taken, and both did something. -/
example : (∀ p, (∃ m ∈ [(⟨str "F4", []⟩ : MountHash)], m.dir <+: p) → (∀ m ∈ [(⟨str "F4", []⟩ : MountHash)], m.dir ≠ p) →
      Spec.SameThing (Spec.seenAt [⟨str "F4", []⟩] exPart p) ((runOn [⟨str "F4", []⟩] exRepNew.lower exRepActs).get p)) ∧
    (Spec.UsualRun exViewEnv exPart → Spec.AllSelected exViewEnv exPart → (accept exViewEnv exPart).error = none ∧
      ∀ p, (∀ m ∈ [(⟨str "F4", []⟩ : MountHash)], m.dir ≠ p) → Spec.SameThing ((accept exViewEnv exPart).state.lower.get p) ((runOn [⟨str "F4", []⟩] exRepNew.lower exRepActs).get p)) :=
  C120_history_partial exViewEnv [⟨str "F4", []⟩] exRepNew exPart exRepActs
    (newSandbox_of_check (by decide +kernel) (by decide +kernel) (by decide +kernel) (by decide +kernel)) (oneDevice_of_check 0 (by decide +kernel)) (oneDevice_of_check 0 (by decide +kernel))
    (actsOk_of_check (by decide +kernel)) (by decide +kernel) (noLinksMade_of_check (by decide +kernel) (by decide +kernel)) exRepActs_acceptable (by rw [exRepDone_eq]; exact exPart_steps)
example : (changes exViewEnv exPart).length < (changes exViewEnv exRepDone).length ∧ (changes exViewEnv exPart) ≠ [] ∧ exPart.lower.get [str "f"] = some { kind := .reg (str "new"), perm := 0o644 } ∧
    (accept exViewEnv exPart).state.lower.get [str "d", str "x"] = none ∧ exPart.lower.get [str "d", str "x"] ≠ none := by decide +kernel

end SB
