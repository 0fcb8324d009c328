import Verif.Props.EverythingMoves
import Verif.Lib.MoveRun
import Verif.Props.History
import Verif.Props.ViewMoved

/-!
# C89: working in a sandbox, moving directories included, and accepting everything is working on the host
-/

namespace SB

/-! ### Specification -/

/-- What a storage with moved directories still needs, beyond coming from a history, for accept to reproduce it: the program understands the redirects (`relative`, `absolute`; C15), no dangling
link was deleted (`C01_refuted_dangling`), renamed directories keep their owner and mode (`C01_refuted_rename_mode`), and nothing that is still seen was in a host directory that has been deleted or
replaced, unless that directory itself was moved (`C01_refuted_moved_out`, `C13_refuted_recreated`). -/
structure Spec.MovesReady (env : Env) (st : State) : Prop where
  links : ∀ m mp sub n k, env.decode m = some mp → st.upper.get (m :: sub) = some n → Spec.isWhiteout n = true → st.lower.get (Spec.named st m mp sub) = some k →
    Spec.ftype k.kind = .symlink → st.lower.pexists (Spec.named st m mp sub) = true
  relative : ∀ m mp q n rd, env.decode m = some mp → st.upper.get (m :: q) = some n → n.redirect = some rd → rd.head? ≠ some '/' →
    ∀ y k, y ≠ [] → Below y q → st.upper.get (m :: y) = some k → k.redirect = none ∧ k.opq = false
  absolute : ∀ m mp q n rd, env.decode m = some mp → st.upper.get (m :: q) = some n → n.redirect = some rd → rd.head? = some '/' → findMountPoint st.lower (mp ++ q) = mp
  attributes : ∀ m mp q n k, env.decode m = some mp → st.upper.get (m :: q) = some n → n.redirect.isSome = true → st.lower.get (Spec.named st m mp q) = some k → Spec.SameNode k n
  notLost : ∀ m mp sub f l y n, [m] ∈ st.upper.keys → env.decode m = some mp → Spec.lookup st m mp sub = some f → f.lower = some l → y ≠ [] → st.upper.get (m :: y) = some n →
    Spec.Deletes st n (Spec.named st m mp y) → Spec.named st m mp y <+: l →
    ∃ z k, st.upper.get (m :: z) = some k ∧ k.redirect.isSome = true ∧ Spec.named st m mp z = Spec.named st m mp y

/-! ### Proofs -/

theorem histM_new {mounts : List MountHash} {st : State} (h : Spec.NewSandbox mounts st) : MountsOk mounts ∧ HistM mounts st.lower st st.lower := by
  have hl : Lawful st := ⟨h.host, h.storage, fun q n hg => (h.empty q n hg).2.2.1, h.plain⟩
  have htops : ∀ m ∈ mounts, TopOk st m.hash m.dir := fun m hm => ⟨h.dirs m hm, h.tops m hm⟩
  have hnone : ∀ m : MountHash, ∀ sub, sub ≠ [] → st.upper.get (m.hash :: sub) = none := by
    intro m sub hsub
    cases hg : st.upper.get (m.hash :: sub) with
    | none => rfl
    | some n =>
      rcases (h.empty _ n hg).1 with h1 | ⟨m', _, h1⟩
      · cases h1
      · simp only [List.cons.injEq] at h1
        exact absurd h1.2 hsub
  have hlow : ∀ m ∈ mounts, ∀ y, lowOf st m.hash m.dir y = ((Spec.present st.lower (m.dir ++ y)).map some) := by
    intro m hm y
    induction y using List.reverseRecOn with
    | nil =>
      obtain ⟨t, _, _, h3⟩ := lookup_nil hl (htops m hm)
      obtain ⟨k, hk, _⟩ := FS.isDirAt_iff.1 (h.dirs m hm)
      simp [lowOf, h3, Spec.present, hk]
    | append_singleton y x ih =>
      unfold lowOf at ih ⊢
      rw [lookup_snoc hl (htops m hm), hnone m (y ++ [x]) (by simp)]
      cases hf : Spec.lookup st m.hash m.dir y with
      | none =>
        rw [hf] at ih
        have h0 : st.lower.get (m.dir ++ y) = none := by
          cases hg : st.lower.get (m.dir ++ y) with
          | none => rfl
          | some k => simp [Spec.present, hg] at ih
        have h1 : st.lower.get (m.dir ++ (y ++ [x])) = none := h.host.none_below h0 ⟨[x], by simp, by rw [List.append_assoc]⟩
        simp [Spec.present, h1]
      | some f =>
        rw [hf] at ih
        have h0 : f.lower = some (m.dir ++ y) := by
          simp only [Option.map_some] at ih
          unfold Spec.present at ih
          split at ih
          · simpa using ih
          · cases ih
        simp only [Option.bind_some, foundAt, h0, Option.map_some, List.append_assoc]
        cases Spec.present st.lower (m.dir ++ (y ++ [x])) <;> rfl
  have hpres : ∀ q, (Spec.present st.lower q) = if (st.lower.get q).isSome = true then some q else none := fun q => rfl
  have hlow' : ∀ m ∈ mounts, ∀ y l, lowOf st m.hash m.dir y = some (some l) → l = m.dir ++ y := by
    intro m hm y l hy
    rw [hlow m hm, hpres] at hy
    split at hy
    · simp only [Option.map_some, Option.some.injEq] at hy; exact hy.symm
    · cases hy
  have hview : ∀ m ∈ mounts, ∀ sub, sub ≠ [] → Spec.view st m.hash m.dir sub = st.lower.get (m.dir ++ sub) := by
    intro m hm sub hsub
    rw [viewM_belowLow hl (htops m hm) (hnone m sub hsub), hlow m hm, hpres]
    cases hg : st.lower.get (m.dir ++ sub) <;> simp [hg]
  refine ⟨⟨h.points, h.names⟩, rfl, hl, htops, fun q n hg => ?_, fun q n r hg hk _ => ?_, fun m hm m2 hm2 sub hsub hp => ?_, h.host, h.dirs, fun m hm sub hsub _ => by rw [hview m hm sub hsub],
    fun q _ => rfl, fun m hm y n rd hg hrd => ?_, fun m hm y y' l h1 h2 => ?_, fun m hm y l h0 h1 => ?_⟩
  · rcases (h.empty q n hg).1 with h1 | ⟨m, hm, h1⟩
    · exact Or.inl h1
    · exact Or.inr ⟨m, hm, [], h1, fun h => absurd rfl h⟩
  · have := (h.empty q n hg).2.2.2
    unfold Node.isDir at this
    rw [hk] at this
    simp at this
  · obtain ⟨n, hn, hd⟩ := FS.isDirAt_iff.1 (h.dirs m2 hm2)
    have hd' : st.lower.isDirAt (m.dir ++ sub) = true := by
      by_cases he : m.dir ++ sub = m2.dir
      · rw [he]; exact h.dirs m2 hm2
      · exact h.host.ancestor hn (below_iff.2 ⟨hp, he⟩)
    obtain ⟨k, hk, hkd⟩ := FS.isDirAt_iff.1 hd'
    refine ⟨⟨k, by rw [hview m hm sub hsub, hk], hkd, (h.plain _ k hk).2.1, (h.plain _ k hk).1⟩, ?_⟩
    rw [hlow m hm, hpres, hk]; rfl
  · rw [(h.empty _ n hg).2.1] at hrd; cases hrd
  · have := (hlow' m hm y l h1).symm.trans (hlow' m hm y' l h2)
    exact List.append_cancel_left this
  · rw [hlow' m hm y l h1]; exact h0

theorem histM_run {mounts : List MountHash} {st : State} {steps : List Step} (h : Spec.NewSandbox mounts st) (hs : ∀ s ∈ steps, StepOk mounts s) :
    MountsOk mounts ∧ HistM mounts st.lower (stepsIn mounts st steps) (stepsOn mounts st.lower steps) := by
  obtain ⟨h1, h2⟩ := histM_new h
  exact ⟨h1, h2.run h1 steps hs⟩

/-- **C89 for the view**: after every history, moved directories included, a process in the sandbox sees at every path (that is in a mount and is not a mount point) what would be on the host if
the same had been done there. -/
theorem C89_view (mounts : List MountHash) (st : State) (steps : List Step) (hnew : Spec.NewSandbox mounts st) (hsteps : ∀ s ∈ steps, StepOk mounts s) (p : Path) (hp : ∃ m ∈ mounts, m.dir <+: p)
    (hnp : ∀ m ∈ mounts, m.dir ≠ p) : Spec.SameSeen (Spec.seenAt mounts (stepsIn mounts st steps) p) ((stepsOn mounts st.lower steps).get p) := by
  obtain ⟨hm, h⟩ := histM_run hnew hsteps
  rw [sameSeen_iff]
  cases hmf : mountFor mounts p with
  | none =>
    exfalso
    obtain ⟨m, hmm, hpre⟩ := hp
    unfold mountFor at hmf
    rw [List.findSome?_eq_none_iff] at hmf
    have := hmf m.dir (List.mem_reverse.2 ((List.mem_inits _ _).2 hpre))
    rw [List.find?_eq_none] at this
    exact this m hmm (by simp)
  | some m =>
    obtain ⟨hmm, ⟨sub, rfl⟩, _⟩ := mountFor_some hmf
    unfold Spec.seenAt
    rw [hmf]
    simp only [Option.bind_some, List.drop_left]
    exact h.same m hmm sub (fun e => hnp m hmm (by rw [e, List.append_nil])) hmf

/-- **C89 for the host**: nothing that is done in the sandbox changes the host. -/
theorem C89_host (mounts : List MountHash) (st : State) (steps : List Step) : (stepsIn mounts st steps).lower = st.lower := by
  unfold stepsIn
  induction steps generalizing st with
  | nil => rfl
  | cons s steps ih =>
    rw [List.foldl_cons, ih]
    cases s with
    | act a =>
      show (actIn mounts st a).lower = _
      unfold actIn
      split
      · rfl
      · split <;> rfl
    | move p q =>
      show (moveIn mounts st p q).lower = _
      unfold moveIn
      split
      · split <;> rfl
      · rfl

/-- The storage after a history is as overlayfs leaves it. -/
theorem histM_moved {env : Env} {mounts : List MountHash} {host : FS} {st : State} {fs : FS} (hm : MountsOk mounts) (hdec : ∀ m ∈ mounts, env.decode m.hash = some m.dir)
    (h : HistM mounts host st fs) (hr : Spec.MovesReady env st) : Spec.MovedStorage env st := by
  have hmount : ∀ {x : Name} {mp sub : Path} {n : Node}, env.decode x = some mp → st.upper.get (x :: sub) = some n →
      ∃ m ∈ mounts, x = m.hash ∧ mp = m.dir ∧ (sub ≠ [] → mountFor mounts (m.dir ++ sub) = some m) := by
    intro x mp sub n hd hg
    rcases h.keys _ n hg with h1 | ⟨m, hmm, s, h1, h2⟩
    · cases h1
    · obtain ⟨rfl, rfl⟩ := List.cons.inj h1
      rw [hdec m hmm] at hd
      exact ⟨m, hmm, rfl, (Option.some.inj hd).symm, h2⟩
  refine ⟨⟨h.lawful.upper, (fun q n hg hw => by rw [h.lawful.whiteout q n hg] at hw; cases hw), h.nodes, fun x mp hx hd => ?_,
    fun x mp x' mp' sub n hx hd hne hd' hpre hsub hg p hp => ?_, hr.links, fun x mp q n rd hd hg hrd => ?_, hr.relative, hr.absolute⟩, hr.attributes,
    fun x mp sub sub' f f' l hx hd h1 h2 h3 h4 => ?_, hr.notLost⟩
  · obtain ⟨n, hg⟩ := FS.mem_keys.1 hx
    obtain ⟨m, hmm, rfl, rfl, _⟩ := hmount hd hg
    obtain ⟨t1, t2⟩ := h.tops m hmm
    obtain ⟨a, a1, a2⟩ := FS.isDirAt_iff.1 t1
    obtain ⟨b, b1, b2⟩ := FS.isDirAt_iff.1 t2
    exact ⟨⟨a, a1, isDir_iff_ftype.1 a2⟩, ⟨b, b1, isDir_iff_ftype.1 b2⟩⟩
  · obtain ⟨n0, hg0⟩ := FS.mem_keys.1 hx
    obtain ⟨m, hmm, rfl, rfl, _⟩ := hmount hd hg0
    obtain ⟨m', hmm', rfl, rfl, hs⟩ := hmount hd' hg
    have hdeep' : ∀ q, mountFor mounts q = some m' → ¬ m.dir <+: q := by
      intro q hq hc
      obtain ⟨_, _, hdeep⟩ := mountFor_some hq
      have h1 := hdeep m hmm hc
      have : m.dir = m'.dir := h1.eq_of_length_le hpre.length_le
      exact hne (by rw [List.inj_on_of_nodup_map hm.dirs hmm hmm' this])
    have hplain : ¬ m.dir <+: m'.dir ++ sub ∧ (Spec.Hiding n ∨ n.redirect.isSome = true → ¬ m'.dir ++ sub <+: m.dir) := by
      refine ⟨hdeep' _ (hs hsub), fun hh hc => ?_⟩
      obtain ⟨⟨k, k1, k2, k3, k4⟩, _⟩ := h.points m' hmm' m hmm sub hsub hc
      rw [viewM_stored h.lawful (h.tops m' hmm') hg] at k1
      split at k1
      · cases k1
      · next hw =>
        cases k1
        rcases hh with (hh | hh | hh) | hh
        · exact hw hh
        · rw [k3] at hh; cases hh
        · exact hh (isDir_iff_ftype.1 k2)
        · rw [k4] at hh; cases hh
    rcases hp with rfl | rfl
    · exact hplain
    · obtain ⟨b, r, rfl, hB⟩ := exists_based st m'.hash m'.dir sub
      rw [hB.named]
      rcases hB.base with rfl | ⟨nb, rd, hb1, hb2⟩
      · simpa [Spec.named, Spec.namedRev] using hplain
      · obtain ⟨b0, _, _, _, _, l, hlo⟩ := h.redirects m' hmm' b nb rd hb1 hb2
        have hln := low_named h.lawful (h.tops m' hmm') b l hlo
        have hbm : mountFor mounts (m'.dir ++ b) = some m' := by
          obtain ⟨_, _, _, _, h2⟩ := hmount hd' hb1
          rcases h.keys _ nb hb1 with h1 | ⟨m1, hm1, s, h1, h2⟩
          · cases h1
          · obtain ⟨e1, rfl⟩ := List.cons.inj h1
            have : m' = m1 := List.inj_on_of_nodup_map hm.hashes hmm' hm1 e1
            subst this
            exact h2 b0
        have hlm := h.lows m' hmm' b l hbm hlo
        have ha : ¬ m.dir <+: Spec.named st m'.hash m'.dir b := by rw [← hln]; exact hdeep' l hlm
        have hc : ¬ Spec.named st m'.hash m'.dir b <+: m.dir := by
          intro hc
          obtain ⟨hb1', hb2'⟩ := namedM_below (h.redirects m' hmm') b
          obtain ⟨s, hs'⟩ := hb1'
          have hs0 : s ≠ [] := by
            rintro rfl
            exact hb2' b0 (by rw [← hs', List.append_nil])
          obtain ⟨⟨k, k1, k2, k3, k4⟩, k5⟩ := h.points m' hmm' m hmm s hs0 (by rw [hs']; exact hc)
          rw [hs', ← hln] at k5
          have := h.once m' hmm' _ _ l k5 hlo
          subst this
          rw [viewM_stored h.lawful (h.tops m' hmm') hb1] at k1
          split at k1
          · cases k1
          · cases k1
            rw [k4] at hb2; cases hb2
        refine ⟨fun hx => ?_, fun _ hx => hc ((List.prefix_append _ _).trans hx)⟩
        rcases prefix_total hx (List.prefix_append _ r) with h' | h'
        · exact ha h'
        · exact hc h'
  · obtain ⟨m, hmm, rfl, rfl, _⟩ := hmount hd hg
    obtain ⟨a1, a2, a3, a4, a5, _⟩ := h.redirects m hmm q n rd hg hrd
    exact ⟨a1, isDir_iff_ftype.1 a2, a3, a4, a5⟩
  · obtain ⟨n, hg⟩ := FS.mem_keys.1 hx
    obtain ⟨m, hmm, rfl, rfl, _⟩ := hmount hd hg
    exact h.once m hmm sub sub' l (by unfold lowOf; rw [h1, Option.map_some, h2]) (by unfold lowOf; rw [h3, Option.map_some, h4])

/-- **C89 for accept (partial)**: for every history of a sandbox, moved directories included: if afterwards every change is selected and accepted, and accept succeeds, the host is as if everything
had been done there directly (same names, types, contents, owners, groups and modes), except at mount points.
Missing: what `Spec.Ordinary` and `Spec.MovesReady` exclude (each with a refutation); that accept succeeds is `C89_whole_partial`. -/
theorem C89_accept_partial (env : Env) (mounts : List MountHash) (st : State) (steps : List Step) (hnew : Spec.NewSandbox mounts st) (hsteps : ∀ s ∈ steps, StepOk mounts s)
    (hdec : ∀ m ∈ mounts, env.decode m.hash = some m.dir) (hord : Spec.Ordinary env (stepsIn mounts st steps)) (hready : Spec.MovesReady env (stepsIn mounts st steps))
    (hall : Spec.AllSelected env (stepsIn mounts st steps)) (hok : (accept env (stepsIn mounts st steps)).error = none) (p : Path) (hp : ∀ m ∈ mounts, m.dir ≠ p) :
    ((stepsOn mounts st.lower steps).get p = none → (accept env (stepsIn mounts st steps)).state.lower.get p = none) ∧
    (∀ n, (stepsOn mounts st.lower steps).get p = some n → ∃ n', (accept env (stepsIn mounts st steps)).state.lower.get p = some n' ∧ Spec.SameNode n' n) := by
  obtain ⟨hm, h⟩ := histM_run hnew hsteps
  obtain ⟨hin, hout⟩ := C01_moved_partial env _ hord (histM_moved hm hdec h hready) hall hok
  have hroot : ∀ x, [x] ∈ (stepsIn mounts st steps).upper.keys → ∃ m ∈ mounts, x = m.hash := by
    intro x hx
    obtain ⟨n, hg⟩ := FS.mem_keys.1 hx
    rcases h.keys _ n hg with h1 | ⟨m, hmm, sub, h1, _⟩
    · cases h1
    · exact ⟨m, hmm, (List.cons.inj h1).1⟩
  by_cases hex : ∃ m ∈ mounts, m.dir <+: p
  · cases hmf : mountFor mounts p with
    | none =>
      exfalso
      obtain ⟨m, hmm, hpre⟩ := hex
      unfold mountFor at hmf
      rw [List.findSome?_eq_none_iff] at hmf
      have := hmf m.dir (List.mem_reverse.2 ((List.mem_inits _ _).2 hpre))
      rw [List.find?_eq_none] at this
      exact this m hmm (by simp)
    | some m =>
      obtain ⟨hmm, ⟨sub, rfl⟩, hdeep⟩ := mountFor_some hmf
      have hsub : sub ≠ [] := fun e => hp m hmm (by rw [e, List.append_nil])
      obtain ⟨t, ht, _⟩ := FS.isDirAt_iff.1 (h.tops m hmm).2
      obtain ⟨i1, i2⟩ := hin m.hash m.dir sub ⟨FS.mem_keys.2 ⟨t, ht⟩, hdec m hmm, ⟨sub, hsub, rfl⟩, fun x mp' hx hd hne hpre hq => by
        obtain ⟨m', hmm', rfl⟩ := hroot x hx
        rw [hdec m' hmm'] at hd
        cases hd
        have := hpre.eq_of_length_le (hdeep m' hmm' hq).length_le
        exact hne (by rw [List.inj_on_of_nodup_map hm.dirs hmm hmm' this])⟩
      have hs := h.same m hmm sub hsub hmf
      refine ⟨fun hn => i1 ?_, fun n hn => ?_⟩
      · rw [hn] at hs
        cases hv : Spec.view (stepsIn mounts st steps) m.hash m.dir sub with
        | none => rfl
        | some k => rw [hv] at hs; simp [attrsOf] at hs
      · rw [hn] at hs
        cases hv : Spec.view (stepsIn mounts st steps) m.hash m.dir sub with
        | none => rw [hv] at hs; simp [attrsOf] at hs
        | some k =>
          rw [hv] at hs
          simp only [attrsOf, Option.map_some, Option.some.injEq, Prod.mk.injEq] at hs
          obtain ⟨n', g1, g2, g3, g4, g5⟩ := i2 k hv
          refine ⟨n', g1, g2.trans hs.1, g3.trans hs.2.1, g4.trans hs.2.2.1, ?_⟩
          rcases g5 with g5 | g5
          · exact Or.inl g5
          · exact Or.inr (g5.trans hs.2.2.2)
  · have hno : ∀ m ∈ mounts, ¬ Below m.dir p := fun m hmm hb => hex ⟨m, hmm, hb.prefix⟩
    rw [hout p (fun x mp hx hd hb => by
      obtain ⟨m, hmm, rfl⟩ := hroot x hx
      rw [hdec m hmm] at hd
      cases hd
      exact hno m hmm hb), h.lower, h.outside p hno]
    exact ⟨fun h => h, fun n hn => ⟨n, hn, rfl, rfl, rfl, Or.inr rfl⟩⟩

/-- **C89 (partial)**: for every history of a sandbox, moved directories included: if afterwards every change is selected, and what the sandbox has stored, deleted and renamed can be put, deleted
and renamed on the host (`Spec.MovesAcceptable`), then accepting succeeds, and the host is as if everything had been done there directly.
Missing: what `Spec.Ordinary`, `Spec.MovesReady` and `Spec.MovesAcceptable` exclude. -/
theorem C89_whole_partial (env : Env) (mounts : List MountHash) (st : State) (steps : List Step) (hnew : Spec.NewSandbox mounts st) (hsteps : ∀ s ∈ steps, StepOk mounts s)
    (hdec : ∀ m ∈ mounts, env.decode m.hash = some m.dir) (hord : Spec.Ordinary env (stepsIn mounts st steps)) (hready : Spec.MovesReady env (stepsIn mounts st steps))
    (hacc : Spec.MovesAcceptable env (stepsIn mounts st steps)) (hone : Spec.OneDevice (stepsIn mounts st steps).upper) (hall : Spec.AllSelected env (stepsIn mounts st steps)) :
    (accept env (stepsIn mounts st steps)).error = none ∧
    ∀ p, (∀ m ∈ mounts, m.dir ≠ p) →
      ((stepsOn mounts st.lower steps).get p = none → (accept env (stepsIn mounts st steps)).state.lower.get p = none) ∧
      (∀ n, (stepsOn mounts st.lower steps).get p = some n → ∃ n', (accept env (stepsIn mounts st steps)).state.lower.get p = some n' ∧ Spec.SameNode n' n) := by
  obtain ⟨hm, h⟩ := histM_run hnew hsteps
  have hok := C85_everything_moved_partial env _ hord (histM_moved hm hdec h hready) hacc hall hone
  exact ⟨hok, fun p hp => C89_accept_partial env mounts st steps hnew hsteps hdec hord hready hall hok p hp⟩

/-! ### Example -/

/-- `mv d e; rm e/g; echo new >e/h; mv e/x o/y; mv o u (fails: another mount); mv e e/f (fails); rm o/p; mkdir d; rm u/v`. -/
def exMoveSteps : List Step :=
  [.move [str "d"] [str "e"], .act ⟨[str "e", str "g"], .remove⟩, .act ⟨[str "e", str "h"], .put (.reg (str "new")) 1 1 0o644⟩, .move [str "e", str "x"] [str "o", str "y"],
   .move [str "o"] [str "u", str "o"], .move [str "e"] [str "e", str "f"], .act ⟨[str "o", str "p"], .remove⟩, .act ⟨[str "d"], .mkdir 0 0 0o755 false⟩, .act ⟨[str "u", str "v"], .remove⟩]

theorem stepsOk_of_check {mounts : List MountHash} {steps : List Step}
    (h : ∀ s ∈ steps, (match s with | .move _ q => decide (NormalPath q) | .act a => decide (NormalPath a.path) && (mountFor mounts a.path).isSome &&
      (match a.what with | .put (.chr r) _ _ _ => r % 65536 != 0 | _ => true)) = true) : ∀ s ∈ steps, StepOk mounts s := by
  intro s hs
  have := h s hs
  cases s with
  | act a =>
    simp only [Bool.and_eq_true, decide_eq_true_eq] at this
    exact actsOk_of_check (acts := [a]) (by
      intro b hb
      rw [List.mem_singleton] at hb
      subst hb
      exact ⟨this.1.1, this.1.2, this.2⟩) a (by simp)
  | move p q => show NormalPath q; simpa using this

theorem exMove_steps : ∀ s ∈ exMoveSteps, StepOk exHistMounts s := stepsOk_of_check (by decide +kernel)

def exMoveEnd : State := stepsIn exHistMounts exHistNew exMoveSteps

-- the storage that results: redirects where directories of the host were moved, whiteouts where they were
example : (exMoveEnd.upper.get [str "F4", str "e"]).map (·.redirect) = some (some (str "d")) ∧ (exMoveEnd.upper.get [str "F4", str "o", str "y"]).map (·.redirect) = some (some (str "/d/x")) ∧
    (exMoveEnd.upper.get [str "F4", str "d"]).map (·.opq) = some true ∧ (exMoveEnd.upper.get [str "F4", str "e", str "x"]).map (·.kind) = some (.chr 0) ∧
    (exMoveEnd.upper.get [str "F4", str "e", str "g"]).map (·.kind) = some (.chr 0) ∧ exMoveEnd.upper.get [str "F4", str "e", str "f"] = none := by decide +kernel
-- the host on which the same was done
example : ((stepsOn exHistMounts exViewHost exMoveSteps).get [str "o", str "y", str "y"]).map (·.kind) = some (.reg (str "3")) ∧
    ((stepsOn exHistMounts exViewHost exMoveSteps).get [str "e", str "f"]).map (·.kind) = some (.reg (str "1")) ∧
    (stepsOn exHistMounts exViewHost exMoveSteps).get [str "d", str "f"] = none ∧ (stepsOn exHistMounts exViewHost exMoveSteps).get [str "e", str "x"] = none := by decide +kernel

-- the conditions of `C89_accept_partial` hold
theorem exMove_ordinary : Spec.Ordinary exViewEnv exMoveEnd := ordinary_of_check (fun _ => rfl) (fun _ => rfl) (by decide +kernel) (by decide +kernel) (by decide +kernel)

set_option synthInstance.maxSize 1000 in
set_option synthInstance.maxHeartbeats 200000 in
theorem exMove_redirect : Spec.RedirectStorage exViewEnv exMoveEnd := redirectStorage_of_check (by decide +kernel) (by decide +kernel) (by decide +kernel) (by decide +kernel)

set_option synthInstance.maxSize 1000 in
set_option synthInstance.maxHeartbeats 200000 in
theorem exMove_moved : Spec.MovedStorage exViewEnv exMoveEnd := movedStorage_of_check exMove_ordinary.wf exMove_redirect (by decide +kernel) (by decide +kernel) (by decide +kernel)

example : Spec.MovesReady exViewEnv exMoveEnd := ⟨exMove_moved.links, exMove_moved.relative, exMove_moved.absolute, exMove_moved.attributes, exMove_moved.notLost⟩
example : Spec.NewSandbox exHistMounts exHistNew := exHist_new
example : (accept exViewEnv exMoveEnd).error = none ∧ selected exViewEnv exMoveEnd = changes exViewEnv exMoveEnd ∧ (∀ m ∈ exHistMounts, exViewEnv.decode m.hash = some m.dir) := by decide +kernel
-- and what it says
example : ∀ p ∈ [[str "d"], [str "d", str "f"], [str "e"], [str "e", str "f"], [str "e", str "g"], [str "e", str "h"], [str "e", str "x"], [str "o", str "p"], [str "o", str "y"],
      [str "o", str "y", str "y"], [str "l"], [str "u", str "v"]],
    Spec.SameSeen ((accept exViewEnv exMoveEnd).state.lower.get p) ((stepsOn exHistMounts exViewHost exMoveSteps).get p) := by decide +kernel

-- the conditions of `C89_whole_partial`
set_option synthInstance.maxSize 1000 in
set_option synthInstance.maxHeartbeats 200000 in
theorem exMove_acceptable : Spec.MovesAcceptable exViewEnv exMoveEnd :=
  movesAcceptable_of_check (by decide +kernel) [] 1 (by decide +kernel) (by decide +kernel) (by decide +kernel) (by decide +kernel) (by decide +kernel) (by decide +kernel)
example : Spec.OneDevice exMoveEnd.upper := oneDevice_of_check 0 (by decide +kernel)

end SB
