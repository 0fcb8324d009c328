import Verif.Props.During
import Verif.Props.History
import Verif.Lib.HistoryKinds
import Verif.Lib.HistoryBacked

/-!
# C106 for histories: what the sandbox sees while its changes are being accepted is what was done in it
-/

namespace SB

/-- Something that was seen in a mount of the sandbox. -/
theorem hist_seen {env : Env} {mounts : List MountHash} {T : Path → Prop} {host fs : FS} {st : State} (hm : MountsOk mounts) (hdec : ∀ m ∈ mounts, env.decode m.hash = some m.dir) (h : Hist mounts T host st fs)
    {m : MountHash} {sub : Path} (hsub : sub ≠ []) (hmf : mountFor mounts (m.dir ++ sub) = some m) : Spec.Seen env st m.hash m.dir (m.dir ++ sub) := by
  obtain ⟨hmm, _, hdeep⟩ := mountFor_some hmf
  obtain ⟨t, ht, _⟩ := FS.isDirAt_iff.1 (h.tops m hmm).2
  refine ⟨FS.mem_keys.2 ⟨t, ht⟩, hdec m hmm, ⟨sub, hsub, rfl⟩, fun x mp' hx hd hne hpre hq => ?_⟩
  obtain ⟨n, hg⟩ := FS.mem_keys.1 hx
  rcases h.keys _ n hg with h1 | ⟨m', hmm', sub', h1, _⟩
  · cases h1
  · obtain ⟨rfl, rfl⟩ := List.cons.inj h1
    rw [hdec m' hmm'] at hd
    cases hd
    have := hpre.eq_of_length_le (hdeep m' hmm' hq).length_le
    exact hne (by rw [List.inj_on_of_nodup_map hm.dirs hmm hmm' this])

theorem mountFor_exists {mounts : List MountHash} {p : Path} (hp : ∃ m ∈ mounts, m.dir <+: p) : ∃ m, mountFor mounts p = some m := by
  cases hmf : mountFor mounts p with
  | some m => exact ⟨m, rfl⟩
  | none =>
    exfalso
    obtain ⟨m, hmm, hpre⟩ := hp
    unfold mountFor at hmf
    rw [List.findSome?_eq_none_iff] at hmf
    have := hmf m.dir (List.mem_reverse.2 ((List.mem_inits _ _).2 hpre))
    rw [List.find?_eq_none] at this
    exact this m hmm (by simp)

/-- **C106 (partial)**, for histories: whatever was done in a sandbox (no directories of the host were moved, no links of the host are in the way), while any selection of its changes is being
accepted, until the storage is cleared, the sandbox sees at every moment what was done in it: the same names, types, contents, owners, groups and modes as if it had been done on the
host, except at mount points and at the temporary names accept uses.
Missing: moved directories (`C106_refuted_moved`), links in the way; while the storage is cleared see `C106_history_clearing_partial`. -/
theorem C106_history_partial (env : Env) (mounts : List MountHash) (st st' : State) (acts : List Act) (hnew : Spec.NewSandbox mounts st) (hacts : ∀ a ∈ acts, ActOk mounts a)
    (hdec : ∀ m ∈ mounts, env.decode m.hash = some m.dir) (hway : ∀ a ∈ acts, Spec.ClearWay st.lower a.path)
    (hcwd : NormalPath env.cwd ∧ ∀ y, y <+: env.cwd → ∀ n, st.lower.get y = some n → Spec.ftype n.kind ≠ .symlink)
    (hfresh : Spec.FreshTemps env st.lower (selected env (runIn mounts st acts))) (ha : AcceptState env (runIn mounts st acts) st') (hu : st'.upper = (runIn mounts st acts).upper)
    (p : Path) (hp : ∃ m ∈ mounts, m.dir <+: p) (hnp : ∀ m ∈ mounts, m.dir ≠ p) (ht : ¬ Spec.Temp env (selected env (runIn mounts st acts)) p) :
    Spec.SameSeen (Spec.seenAt mounts st' p) ((runOn mounts st.lower acts).get p) := by
  have h84 := C84_view mounts st acts hnew hacts p hp hnp
  obtain ⟨hm, h⟩ := hist_run hnew hacts
  have hT : ∀ p, (∃ a ∈ acts, a.path = p) → Spec.ClearWay st.lower p ∧ NormalPath p := by
    rintro p ⟨a, ha, rfl⟩
    exact ⟨hway a ha, (hacts a ha).normal⟩
  obtain ⟨m, hmf⟩ := mountFor_exists hp
  obtain ⟨hmm, ⟨sub, rfl⟩, _⟩ := mountFor_some hmf
  have hsub : sub ≠ [] := fun e => hnp m hmm (by rw [e, List.append_nil])
  have hv := C106_view_partial env _ st' (hist_ordinary hm hdec h hT hcwd (by rw [h.lower]; exact hfresh)) (hist_plain hm hdec h (fun p hp => (hT p hp).1)) ha hu m.hash m.dir sub
    (hist_seen hm hdec h hsub hmf) ht
  unfold Spec.seenAt at h84 ⊢
  rw [hmf] at h84 ⊢
  simp only [Option.bind_some, List.drop_left] at h84 ⊢
  rw [hv]
  exact h84

/-- **C106 (partial)**, for histories in which no directory is made: if everything is accepted, this holds at every moment, also while the storage is cleared and afterwards.
Missing: new directories (`C106_refuted_new_directory`), moved directories, links in the way. -/
theorem C106_history_clearing_partial (env : Env) (mounts : List MountHash) (st st' : State) (acts : List Act) (hnew : Spec.NewSandbox mounts st) (hacts : ∀ a ∈ acts, ActOk mounts a)
    (hopq : ∀ q n, st.upper.get q = some n → n.opq = false) (hmk : ∀ a ∈ acts, ∀ uid gid perm opq, a.what ≠ .mkdir uid gid perm opq)
    (hdec : ∀ m ∈ mounts, env.decode m.hash = some m.dir) (hway : ∀ a ∈ acts, Spec.ClearWay st.lower a.path)
    (hcwd : NormalPath env.cwd ∧ ∀ y, y <+: env.cwd → ∀ n, st.lower.get y = some n → Spec.ftype n.kind ≠ .symlink)
    (hfresh : Spec.FreshTemps env st.lower (selected env (runIn mounts st acts))) (hall : Spec.AllSelected env (runIn mounts st acts)) (ha : AcceptState env (runIn mounts st acts) st')
    (p : Path) (hp : ∃ m ∈ mounts, m.dir <+: p) (hnp : ∀ m ∈ mounts, m.dir ≠ p) (ht : ¬ Spec.Temp env (selected env (runIn mounts st acts)) p) :
    ((runOn mounts st.lower acts).get p = none → Spec.seenAt mounts st' p = none) ∧
    (∀ n, (runOn mounts st.lower acts).get p = some n → ∃ n', Spec.seenAt mounts st' p = some n' ∧ Spec.SameNode n' n) := by
  have h84 := C84_view mounts st acts hnew hacts p hp hnp
  obtain ⟨hm, h⟩ := hist_run hnew hacts
  have hT : ∀ p, (∃ a ∈ acts, a.path = p) → Spec.ClearWay st.lower p ∧ NormalPath p := by
    rintro p ⟨a, ha, rfl⟩
    exact ⟨hway a ha, (hacts a ha).normal⟩
  obtain ⟨m, hmf⟩ := mountFor_exists hp
  obtain ⟨hmm, ⟨sub, rfl⟩, _⟩ := mountFor_some hmf
  have hsub : sub ≠ [] := fun e => hnp m hmm (by rw [e, List.append_nil])
  have hk : Kinds (fun _ b => b = false) (runIn mounts st acts) :=
    Kinds.run rfl rfl hm acts (hist_new hnew (fun _ => True)).2 hopq (fun a ha => ⟨hacts a ha, trivial, fun _ _ _ _ _ => rfl, fun uid gid perm opq hw => absurd hw (hmk a ha uid gid perm opq)⟩)
  have hb : Backed mounts (runIn mounts st acts) := by
    refine Backed.run hm acts (hist_new hnew (fun _ => True)).2 (fun m _ sub n hsub hg => ?_) (fun a ha => ⟨hacts a ha, trivial⟩)
    rcases (hnew.empty _ n hg).1 with h1 | ⟨m', _, h1⟩
    · cases h1
    · exact absurd (List.cons.inj h1).2 hsub
  obtain ⟨v1, v2⟩ := C106_clearing_partial env _ st' (hist_ordinary hm hdec h hT hcwd (by rw [h.lower]; exact hfresh)) (hist_plain hm hdec h (fun p hp => (hT p hp).1)) hall ha hk
    (fun x mp sub n hd hne hg hw => by
      obtain ⟨m, hmm, rfl, rfl, _⟩ := hist_mount hdec h hd hg
      exact hb m hmm sub n hne hg hw) m.hash m.dir sub (hist_seen hm hdec h hsub hmf) ht
  unfold Spec.seenAt at h84 ⊢
  rw [hmf] at h84 ⊢
  simp only [Option.bind_some, List.drop_left] at h84 ⊢
  refine ⟨fun hn => v1 ?_, fun n hn => ?_⟩
  · rw [hn] at h84
    cases hx : Spec.view (runIn mounts st acts) m.hash m.dir sub with
    | none => rfl
    | some k => rw [hx] at h84; cases h84
  · rw [hn] at h84
    cases hx : Spec.view (runIn mounts st acts) m.hash m.dir sub with
    | none => rw [hx] at h84; cases h84
    | some k =>
      rw [hx] at h84
      obtain ⟨n', g1, g2, g3, g4, g5⟩ := v2 k hx
      rw [sameSeen_iff] at h84
      simp only [attrsOf, Option.map_some, Option.some.injEq, Prod.mk.injEq] at h84
      refine ⟨n', g1, g2.trans h84.1, g3.trans h84.2.1, g4.trans h84.2.2.1, ?_⟩
      rcases g5 with g5 | g5
      · exact Or.inl g5
      · exact Or.inr (g5.trans h84.2.2.2)

/-! ### A concrete case -/

/-- `rm d/x; echo y > d/g; ln -s x d/l; echo new > f` on the host of `exDuring`. -/
def exDurNew : State := ⟨exDuring.lower, [([], { kind := .dir }), ([str "F4"], { kind := .dir })]⟩
def exDurActs : List Act := [⟨[str "d", str "x"], .remove⟩, ⟨[str "d", str "g"], .put (.reg (str "y")) 7 0 0o644⟩, ⟨[str "d", str "l"], .put (.lnk (str "x")) 0 0 0o777⟩,
  ⟨[str "f"], .put (.reg (str "new")) 0 0 0o644⟩]
def exDurDone : State := ⟨exDuring.lower, [([], { kind := .dir }), ([str "F4"], { kind := .dir }), ([str "F4", str "d"], { kind := .dir }), ([str "F4", str "d", str "x"], { kind := .chr 0 }),
   ([str "F4", str "d", str "g"], { kind := .reg (str "y"), uid := 7, perm := 0o644 }), ([str "F4", str "d", str "l"], { kind := .lnk (str "x"), perm := 0o777 }),
   ([str "F4", str "f"], { kind := .reg (str "new"), perm := 0o644 })]⟩
theorem exDurDone_eq : runIn [⟨str "F4", []⟩] exDurNew exDurActs = exDurDone := by decide +kernel
theorem exDurDone_ordinary : Spec.Ordinary exViewEnv exDurDone := ordinary_of_check (fun _ => rfl) (fun _ => rfl) (by decide +kernel) (by decide +kernel) (by decide +kernel)
theorem exDurDone_all : Spec.AllSelected exViewEnv exDurDone := by
  have : selected exViewEnv exDurDone = changes exViewEnv exDurDone := by decide +kernel
  intro e he
  rw [this]
  exact he

theorem exDur_new : Spec.NewSandbox [⟨str "F4", []⟩] exDurNew := newSandbox_of_check (by decide +kernel) (by decide +kernel) (by decide +kernel) (by decide +kernel)
theorem exDur_way : ∀ a ∈ exDurActs, Spec.ClearWay exDurNew.lower a.path := by
  intro a _
  refine clearWay_of_check (fun e he => ?_)
  have : ∀ e ∈ exDurNew.lower, Spec.ftype e.2.kind ≠ .symlink := by decide +kernel
  exact ⟨fun _ => this e he, fun _ h => absurd h (this e he)⟩

-- at every step of accepting everything - applying, clearing, afterwards - the sandbox sees what was done
theorem exDur_every (st' : State) (ha : AcceptState exViewEnv exDurDone st') (p : Path) (hnp : [] ≠ p) (ht : ¬ Spec.Temp exViewEnv (selected exViewEnv exDurDone) p) :
    ∀ n, (runOn [⟨str "F4", []⟩] exDurNew.lower exDurActs).get p = some n → ∃ n', Spec.seenAt [⟨str "F4", []⟩] st' p = some n' ∧ Spec.SameNode n' n := by
  have := C106_history_clearing_partial exViewEnv [⟨str "F4", []⟩] exDurNew st' exDurActs exDur_new (actsOk_of_check (by decide +kernel))
    (fun q n h => by
      have : ∀ e ∈ exDurNew.upper, e.2.opq = false := by decide +kernel
      exact this _ (FS.mem_of_get h))
    (fun a ha uid gid perm opq h => by
      have : ∀ a ∈ exDurActs, (match a.what with | .mkdir _ _ _ _ => false | _ => true) = true := by decide +kernel
      have := this a ha
      rw [h] at this
      cases this)
    (by decide +kernel) exDur_way exDurDone_ordinary.plain.cwd
  rw [exDurDone_eq] at this
  exact (this exDurDone_ordinary.fresh exDurDone_all ha p ⟨_, List.mem_singleton.2 rfl, List.nil_prefix⟩ (fun m hm => by rw [List.mem_singleton.1 hm]; exact hnp) ht).2

-- half applied, half cleared and afterwards
example : ∀ k ∈ [2, 10, 18], AcceptState exViewEnv exDurDone (interrupted exViewEnv exDurDone k) := by
  intro k hk
  simp only [List.mem_cons, List.not_mem_nil, or_false] at hk
  rcases hk with rfl | rfl | rfl <;> exact interrupted_state (by decide +kernel) (by decide +kernel)

end SB
