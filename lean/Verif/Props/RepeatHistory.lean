import Verif.Props.Repeat
import Verif.Props.HistoryAccept
import Verif.Lib.HistoryKinds

/-!
# C107 for histories: an interrupted accept can be repeated, whatever was done in the sandbox
-/

namespace SB

/-- No links: none is made in the sandbox, and on the host none is at or above the paths at which something is done. -/
structure Spec.NoLinksMade (host : FS) (acts : List Act) : Prop where
  made : ∀ a ∈ acts, ∀ k uid gid perm, a.what = .put k uid gid perm → Spec.ftype k ≠ .symlink
  host : ∀ a ∈ acts, ∀ y, y <+: a.path → ∀ n, host.get y = some n → Spec.ftype n.kind ≠ .symlink

section
variable {env env' : Env} {st st' : State}

/-- The circumstances of the repeated accept are ordinary, too. -/
theorem repeat_ordinary (ho : Spec.Ordinary env st) (hp : Spec.PlainStorage env st) (hr : Spec.Repeatable env st)
    (hst : ∀ m mp sub n, env.decode m = some mp → sub ≠ [] → st.upper.get (m :: sub) = some n →
      NormalPath (mp ++ sub) ∧ ∀ y, y <+: mp ++ sub → ∀ k, st.lower.get y = some k → Spec.ftype k.kind ≠ .symlink)
    (hdec : env'.decode = env.decode) (ha : AcceptState env st st') (hu : st'.upper = st.upper)
    (hcwd : NormalPath env'.cwd ∧ ∀ y, y <+: env'.cwd → ∀ n, st.lower.get y = some n → Spec.ftype n.kind ≠ .symlink)
    (hfresh : Spec.FreshTemps env' st'.lower (selected env' st')) : Spec.Ordinary env' st' := by
  obtain ⟨st1, hc, hl⟩ := acceptState_lower ha
  have hw' : st'.lower.WF := by rw [hl]; exact crash_wf ho.ready hc
  have hp' := repeat_plain (env' := env') ho hp hr hdec ha hu
  -- links are where they were
  have hlink : ∀ {q : Path} {k : Node}, st'.lower.get q = some k → Spec.ftype k.kind = .symlink → ∃ k0, st.lower.get q = some k0 ∧ Spec.ftype k0.kind = .symlink := by
    intro q k hk hlk
    rcases during_kind ho hp ha hk with ⟨_, h⟩ | ⟨k0, h0, h⟩ | ⟨m', mp', sub', n', h1, h2, h3, _, _, h⟩
    · rw [h] at hlk; cases hlk
    · exact ⟨k0, h0, by rw [← h]; exact hlk⟩
    · exact absurd (by rw [← h]; exact hlk) (hr.noLinks m' mp' sub' n' h1 h2 h3)
  have hstored : ∀ {x mp sub n}, env'.decode x = some mp → sub ≠ [] → st'.upper.get (x :: sub) = some n →
      NormalPath (mp ++ sub) ∧ mp ++ sub ≠ [] ∧ (∀ y, Below y (mp ++ sub) → ∀ k, st'.lower.get y = some k → Spec.ftype k.kind ≠ .symlink) ∧
      (st'.lower.pisDir (mp ++ sub) = true → ∀ k, st'.lower.get (mp ++ sub) = some k → Spec.ftype k.kind ≠ .symlink) := by
    intro x mp sub n hd hsub hg
    rw [hdec] at hd
    rw [hu] at hg
    obtain ⟨h1, h2⟩ := hst x mp sub n hd hsub hg
    refine ⟨h1, by simp [hsub], fun y hy k hk hlk => ?_, fun _ k hk hlk => ?_⟩
    · obtain ⟨k0, h3, h4⟩ := hlink hk hlk
      exact h2 y hy.prefix k0 h3 h4
    · obtain ⟨k0, h3, h4⟩ := hlink hk hlk
      exact h2 _ (List.prefix_refl _) k0 h3 h4
  have hdest := plain_dest hp' hw' hstored
  refine ⟨hw', ⟨fun e he => (hdest e he).1, fun e he s hs => ?_, ⟨hcwd.1, fun y hy n hn hlk => ?_⟩, fun e he hop => absurd hop (plain_no_rename hp' e he), fun e he hset s hs hlk => ?_⟩,
    hfresh, by rw [hu]; exact ho.nodup, ?_⟩
  · rw [(hdest e he).2 s hs]
    exact ⟨(hdest e he).1.1, (hdest e he).1.2.2⟩
  · obtain ⟨k0, h3, h4⟩ := hlink hn hlk
    exact hcwd.2 y hy k0 h3 h4
  · exfalso
    obtain ⟨m, mp, sub, n, h1, h2, h3, _, _, h6⟩ := set_stored he hset
    rw [hs] at h6
    cases h6
    rw [hdec] at h1
    rw [hu] at h3
    exact hr.noLinks m mp sub n h1 h2 h3 hlk
  · intro m m' sub sub' mp mp' h1 h2 h3 h4
    rw [hu] at h1 h2
    rw [hdec] at h3 h4
    exact ho.mounts m m' sub sub' mp mp' h1 h2 h3 h4

end

theorem Spec.NoLinksMade.way {host : FS} {acts : List Act} (h : Spec.NoLinksMade host acts) : ∀ a ∈ acts, Spec.ClearWay host a.path :=
  fun a ha => ⟨fun y n hb hg => h.host a ha y hb.prefix n hg, fun n hg hl => absurd hl (h.host a ha _ (List.prefix_refl _) n hg)⟩

section
variable {env : Env} {mounts : List MountHash} {st : State}

/-- What a history without links stores can be accepted repeatedly. -/
theorem hist_repeatable {T P R : Path → Prop} {host fs : FS} {dev : Nat} (hm : MountsOk mounts) (hdec : ∀ m ∈ mounts, env.decode m.hash = some m.dir) (h : Hist mounts T host st fs) (hn : Neat mounts P R dev st)
    (hkind : ∀ m ∈ mounts, ∀ sub n, sub ≠ [] → st.upper.get (m.hash :: sub) = some n → Spec.ftype n.kind ≠ .symlink)
    (hT : ∀ p, T p → ∀ y, y <+: p → ∀ n, host.get y = some n → Spec.ftype n.kind ≠ .symlink) : Spec.Repeatable env st := by
  refine ⟨fun x mp sub n hd hne hg => ?_, fun x mp sub n k hd hne hg hk => ?_, fun x mp sub n x' mp' sub' n' hd hne hg hop hd' hne' hg' hb => ?_⟩
  · obtain ⟨m, hmm, rfl, rfl, _⟩ := hist_mount hdec h hd hg
    exact hkind m hmm sub n hne hg
  · obtain ⟨m, hmm, rfl, rfl, hs⟩ := hist_mount hdec h hd hg
    obtain ⟨_, p, hp, hpre⟩ := hs hne
    rw [h.lower] at hk
    exact hT p hp _ hpre k hk
  · obtain ⟨m, hmm, rfl, rfl, hs⟩ := hist_mount hdec h hd hg
    obtain ⟨m', hmm', rfl, rfl, hs'⟩ := hist_mount hdec h hd' hg'
    have hh : Spec.Hiding n := Or.inr (Or.inl hop)
    have hmm2 : m' = m := by
      have := hiding_mount hm h hmm hne hg hh (hs hne).1 hb.prefix
      rw [(hs' hne').1] at this
      exact Option.some.inj this
    subst hmm2
    have hbs : Below sub sub' := by
      obtain ⟨w, hw, e⟩ := hb
      exact ⟨w, hw, List.append_cancel_left (by rw [e, List.append_assoc])⟩
    have hcl : ¬ (Spec.isWhiteout n' = true ∨ n'.opq = true) := fun hmk => hn.clear m' hmm sub' n' hne' hg' hmk sub hne hbs ⟨n, hg, hh⟩
    rw [not_or] at hcl
    exact ⟨by simpa using hcl.1, by simpa using hcl.2⟩

end

/-- **C107 (partial)**, for histories: whatever was done in a sandbox (no directories of the host were moved, no links were involved), if accepting everything is interrupted - or fails - at any
point before the storage is cleared, repeating it succeeds, and then the host is as if everything had been done there directly (same names, types, contents, owners, groups and modes), except
at mount points and at the temporary names the first run used.
Missing: moved directories, links, interruptions while the storage is cleared (all refuted below C107), what accept cannot carry out (`Spec.CanAccept`), hosts with several file systems. -/
theorem C107_history_partial (env env' : Env) (mounts : List MountHash) (st st' : State) (acts : List Act) (hnew : Spec.NewSandbox mounts st) (hdu : Spec.OneDevice st.upper) (hdl : Spec.OneDevice st.lower)
    (hacts : ∀ a ∈ acts, ActOk mounts a) (hdec : ∀ m ∈ mounts, env.decode m.hash = some m.dir) (hno : Spec.NoLinksMade st.lower acts) (hacc : Spec.CanAccept mounts st.lower acts)
    (hcwd : NormalPath env.cwd ∧ ∀ y, y <+: env.cwd → ∀ n, st.lower.get y = some n → Spec.ftype n.kind ≠ .symlink)
    (hfresh : Spec.FreshTemps env st.lower (selected env (runIn mounts st acts))) (hall : Spec.AllSelected env (runIn mounts st acts))
    (ha : AcceptState env (runIn mounts st acts) st') (hu : st'.upper = (runIn mounts st acts).upper) (hdec' : env'.decode = env.decode)
    (hcwd' : NormalPath env'.cwd ∧ ∀ y, y <+: env'.cwd → ∀ n, st.lower.get y = some n → Spec.ftype n.kind ≠ .symlink)
    (hfresh' : Spec.FreshTemps env' st'.lower (selected env' st')) (hall' : Spec.AllSelected env' st') :
    (accept env' st').error = none ∧
    ∀ p, (∀ m ∈ mounts, m.dir ≠ p) → ¬ Spec.Temp env (selected env (runIn mounts st acts)) p →
      ((runOn mounts st.lower acts).get p = none → (accept env' st').state.lower.get p = none) ∧
      (∀ n, (runOn mounts st.lower acts).get p = some n → ∃ n', (accept env' st').state.lower.get p = some n' ∧ Spec.SameNode n' n) := by
  obtain ⟨hm, h⟩ := hist_run hnew hacts
  obtain ⟨_, whole⟩ := C84_whole_partial env mounts st acts hnew hdu hacts hdec hno.way hacc hcwd hfresh hall
  obtain ⟨dev, hdev⟩ := hdu
  have hT : ∀ p, (∃ a ∈ acts, a.path = p) → Spec.ClearWay st.lower p ∧ NormalPath p := by
    rintro p ⟨a, ha, rfl⟩
    exact ⟨hno.way a ha, (hacts a ha).normal⟩
  have hTl : ∀ p, (∃ a ∈ acts, a.path = p) → ∀ y, y <+: p → ∀ n, st.lower.get y = some n → Spec.ftype n.kind ≠ .symlink := by
    rintro p ⟨a, ha, rfl⟩
    exact hno.host a ha
  have hn : Neat mounts (fun p => ∃ a ∈ acts, a.path = p ∧ Spec.Puts a) (fun p => ∃ a ∈ acts, a.path = p ∧ a.what = .remove) dev (runIn mounts st acts) := by
    refine Neat.run hm acts (hist_new hnew (fun _ => True)).2 (hist_neat hnew hdev _ _) (fun a ha => ⟨hacts a ha, trivial, fun k uid gid perm hw => ⟨⟨a, ha, rfl, k, uid, gid, perm, hw⟩, ?_⟩,
      fun hw => ⟨a, ha, rfl, hw⟩⟩)
    rcases hacc.kinds a ha k uid gid perm hw with h1 | h1
    · exact Or.inl h1
    · exact Or.inr (Or.inl h1)
  have hk : Kinds (fun k _ => Spec.ftype k ≠ .symlink) (runIn mounts st acts) := by
    refine Kinds.run (by decide) (by decide) hm acts (hist_new hnew (fun _ => True)).2 (fun q n hg => ?_) (fun a ha => ⟨hacts a ha, trivial, hno.made a ha, fun _ _ _ _ _ _ => by decide⟩)
    have := isDir_iff_ftype.1 (hnew.empty q n hg).2.2.2
    rw [this]; decide
  have hp := hist_plain hm hdec h (fun p hp => (hT p hp).1)
  have ho := hist_ordinary hm hdec h hT hcwd (by rw [h.lower]; exact hfresh)
  have hrd : Spec.AcceptReady env (runIn mounts st acts) := by
    refine hist_ready hm hdec h hn (fun p hp => (hT p hp).1) ?_ ?_
    · rintro p (⟨a, ha, rfl, hp⟩ | ⟨a, ha, rfl, hp⟩) q k hpre hmf hnp hk
      · exact hacc.hidden a ha (Or.inr hp) q k hpre hmf hnp hk
      · exact hacc.hidden a ha (Or.inl hp) q k hpre hmf hnp hk
    · rintro p q ⟨a, ha, rfl, hp⟩ ⟨b, hb, rfl, hr⟩ hbel k hk
      exact hacc.once a ha b hb hp hr hbel k hk
  have hr : Spec.Repeatable env (runIn mounts st acts) := hist_repeatable hm hdec h hn (fun m _ sub n _ hg => hk _ n hg) hTl
  have hst : ∀ x mp sub n, env.decode x = some mp → sub ≠ [] → (runIn mounts st acts).upper.get (x :: sub) = some n →
      NormalPath (mp ++ sub) ∧ ∀ y, y <+: mp ++ sub → ∀ k, (runIn mounts st acts).lower.get y = some k → Spec.ftype k.kind ≠ .symlink := by
    intro x mp sub n hd hsub hg
    obtain ⟨m, hmm, rfl, rfl, hs⟩ := hist_mount hdec h hd hg
    obtain ⟨_, p, hTp, hpre⟩ := hs hsub
    refine ⟨(hT p hTp).2.of_prefix hpre, fun y hy k hk => ?_⟩
    rw [h.lower] at hk
    exact hTl p hTp y (hy.trans hpre) k hk
  have ho' := repeat_ordinary ho hp hr hst hdec' ha hu (by rw [h.lower]; exact hcwd') hfresh'
  obtain ⟨_, hok', hin, hout⟩ := C107_repeat_partial env env' _ st' ho hp hrd hr hall ⟨dev, hn.dev⟩ (by rw [h.lower]; exact hdl) ha hu hdec' ho' hall'
  refine ⟨hok', fun p hpm htmp => ?_⟩
  have hroot : ∀ x, [x] ∈ (runIn mounts st acts).upper.keys → ∃ m ∈ mounts, x = m.hash := by
    intro x hx
    obtain ⟨n, hg⟩ := FS.mem_keys.1 hx
    rcases h.keys _ n hg with h1 | ⟨m, hmm, sub, h1, _⟩
    · cases h1
    · exact ⟨m, hmm, (List.cons.inj h1).1⟩
  obtain ⟨w1, w2⟩ := whole p hpm
  by_cases hex : ∃ m ∈ mounts, m.dir <+: p
  · obtain ⟨m, hmf⟩ : ∃ m, mountFor mounts p = some m := by
      cases hmf : mountFor mounts p with
      | some m => exact ⟨m, rfl⟩
      | none =>
        exfalso
        obtain ⟨m, hmm, hpre⟩ := hex
        unfold mountFor at hmf
        rw [List.findSome?_eq_none_iff] at hmf
        have := hmf m.dir (List.mem_reverse.2 ((List.mem_inits _ _).2 hpre))
        rw [List.find?_eq_none] at this
        exact this m hmm (by simp)
    obtain ⟨hmm, ⟨sub, rfl⟩, hdeep⟩ := mountFor_some hmf
    have hsub : sub ≠ [] := fun e => hpm m hmm (by rw [e, List.append_nil])
    obtain ⟨t, ht, _⟩ := FS.isDirAt_iff.1 (h.tops m hmm).2
    obtain ⟨i1, i2⟩ := hin m.hash m.dir sub ⟨FS.mem_keys.2 ⟨t, ht⟩, hdec m hmm, ⟨sub, hsub, rfl⟩, fun x mp' hx hd hne hpre hq => by
      obtain ⟨m', hmm', rfl⟩ := hroot x hx
      rw [hdec m' hmm'] at hd
      cases hd
      have := hpre.eq_of_length_le (hdeep m' hmm' hq).length_le
      exact hne (by rw [List.inj_on_of_nodup_map hm.dirs hmm hmm' this])⟩ htmp
    refine ⟨fun hnone => i1 (w1 hnone), fun n hn => ?_⟩
    obtain ⟨a, ha1, ha2⟩ := w2 n hn
    obtain ⟨b, hb1, hb2⟩ := i2 a ha1
    exact ⟨b, hb1, sameNode_join ⟨ha2.1.symm, ha2.2.1.symm, ha2.2.2.1.symm, by
      rcases ha2.2.2.2 with h' | h'
      · left; rw [← ha2.1]; exact h'
      · right; exact h'.symm⟩ ⟨hb2.1, hb2.2.1, hb2.2.2.1, hb2.2.2.2⟩⟩
  · rw [hout p (fun x mp hx hd hb => by
      obtain ⟨m, hmm, rfl⟩ := hroot x hx
      rw [hdec m hmm] at hd
      cases hd
      exact hex ⟨m, hmm, hb.prefix⟩)]
    exact ⟨w1, w2⟩

/-! ### A concrete case -/

theorem noLinksMade_of_check {host : FS} {acts : List Act} (h1 : ∀ a ∈ acts, (match a.what with | .put k _ _ _ => decide (Spec.ftype k ≠ .symlink) | _ => true) = true)
    (h2 : ∀ a ∈ acts, ∀ e ∈ host, e.1 <+: a.path → Spec.ftype e.2.kind ≠ .symlink) : Spec.NoLinksMade host acts := by
  refine ⟨fun a ha k uid gid perm hw => ?_, fun a ha y hy n hg => h2 a ha _ (FS.mem_of_get hg) hy⟩
  have := h1 a ha
  rw [hw] at this
  simpa using this

/-- The new sandbox on the host of `exRep`, and what is done in it: `rm d/x; echo new > f; echo y > d/g; rm -r o; mkdir o; echo z > o/y`. -/
def exRepNew : State := ⟨exRep.lower, [([], { kind := .dir }), ([str "F4"], { kind := .dir })]⟩
def exRepActs : List Act := [⟨[str "d", str "x"], .remove⟩, ⟨[str "f"], .put (.reg (str "new")) 0 0 0o644⟩, ⟨[str "d", str "g"], .put (.reg (str "y")) 7 0 0o644⟩,
  ⟨[str "o", str "y"], .remove⟩, ⟨[str "o"], .remove⟩, ⟨[str "o"], .mkdir 0 0 0o755 true⟩, ⟨[str "o", str "y"], .put (.reg (str "z")) 0 0 0o644⟩]

/-- What is then stored. -/
def exRepDone : State := ⟨exRep.lower,
  [([], { kind := .dir }), ([str "F4"], { kind := .dir }), ([str "F4", str "d"], { kind := .dir }), ([str "F4", str "d", str "x"], { kind := .chr 0 }),
   ([str "F4", str "f"], { kind := .reg (str "new"), perm := 0o644 }), ([str "F4", str "d", str "g"], { kind := .reg (str "y"), uid := 7, perm := 0o644 }),
   ([str "F4", str "o"], { kind := .dir, opq := true, perm := 0o755 }), ([str "F4", str "o", str "y"], { kind := .reg (str "z"), perm := 0o644 })]⟩
theorem exRepDone_eq : runIn [⟨str "F4", []⟩] exRepNew exRepActs = exRepDone := by decide +kernel

/-- Interrupted while the new `o/y` is being written. -/
def exRepDoneMid : State := ⟨[([], { kind := .dir }), ([str "d"], { kind := .dir }), ([str "d", str "g"], { kind := .reg (str "y"), uid := 7, perm := 0o644 }),
   ([str "f"], { kind := .reg (str "new"), perm := 0o644 }), ([str "o"], { kind := .dir, perm := 0o755 }), ([str "o", str "y.@@@@@@@@"], { kind := .reg (str "z"), perm := 0o644 })], exRepDone.upper⟩

theorem exRepDone_ordinary : Spec.Ordinary exViewEnv exRepDone := ordinary_of_check (fun _ => rfl) (fun _ => rfl) (by decide +kernel) (by decide +kernel) (by decide +kernel)
theorem exRepDone_mid : interrupted exViewEnv exRepDone 18 = exRepDoneMid := by decide +kernel
theorem exRepDone_state : AcceptState exViewEnv exRepDone exRepDoneMid := exRepDone_mid ▸ interrupted_state (by decide +kernel) (by decide +kernel)
theorem exRepDone_again : Spec.Ordinary (exAgain exViewEnv) exRepDoneMid :=
  ordinary_again (by decide +kernel) (by decide +kernel) (by decide +kernel) (by decide +kernel) (by decide +kernel)

set_option synthInstance.maxSize 1000 in
set_option synthInstance.maxHeartbeats 200000 in
theorem exRepActs_acceptable : Spec.CanAccept [⟨str "F4", []⟩] exRepNew.lower exRepActs := acceptable_of_acts (by decide +kernel) (by decide +kernel) (by decide +kernel)

theorem exRepDone_all : Spec.AllSelected exViewEnv exRepDone := by
  have : selected exViewEnv exRepDone = changes exViewEnv exRepDone := by decide +kernel
  intro e he
  rw [this]
  exact he

theorem exRepDoneMid_all : Spec.AllSelected (exAgain exViewEnv) exRepDoneMid := by
  have : selected (exAgain exViewEnv) exRepDoneMid = changes (exAgain exViewEnv) exRepDoneMid := by decide +kernel
  intro e he
  rw [this]
  exact he

-- the history and the interruption meet the conditions of `C107_history_partial`
theorem exRepDone_repeat : (accept (exAgain exViewEnv) exRepDoneMid).error = none ∧ ∀ p, (∀ m ∈ [(⟨str "F4", []⟩ : MountHash)], m.dir ≠ p) → ¬ Spec.Temp exViewEnv (selected exViewEnv exRepDone) p →
      ((runOn [⟨str "F4", []⟩] exRepNew.lower exRepActs).get p = none → (accept (exAgain exViewEnv) exRepDoneMid).state.lower.get p = none) ∧
      (∀ n, (runOn [⟨str "F4", []⟩] exRepNew.lower exRepActs).get p = some n → ∃ n', (accept (exAgain exViewEnv) exRepDoneMid).state.lower.get p = some n' ∧ Spec.SameNode n' n) := by
  have := C107_history_partial exViewEnv (exAgain exViewEnv) [⟨str "F4", []⟩] exRepNew exRepDoneMid exRepActs
    (newSandbox_of_check (by decide +kernel) (by decide +kernel) (by decide +kernel) (by decide +kernel)) (oneDevice_of_check 0 (by decide +kernel)) (oneDevice_of_check 0 (by decide +kernel))
    (actsOk_of_check (by decide +kernel)) (by decide +kernel) (noLinksMade_of_check (by decide +kernel) (by decide +kernel)) exRepActs_acceptable exRepDone_ordinary.plain.cwd
  rw [exRepDone_eq] at this
  exact this exRepDone_ordinary.fresh exRepDone_all exRepDone_state rfl rfl exRepDone_ordinary.plain.cwd exRepDone_again.fresh exRepDoneMid_all

end SB
