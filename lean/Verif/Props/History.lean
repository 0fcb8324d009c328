import Verif.Lib.HistoryRun
import Verif.Props.View

/-!
# C84: working in a sandbox and accepting everything is working on the host

For every history of operations (`Model/History.lean`), not for one storage: what the sandbox sees at every point is what the host would be if the same had been done there; accepting at the
end brings the host there.
-/

namespace SB

/-! ### Specification -/

/-- The same is seen: nothing, or the same type and content, owner, group and mode. -/
def Spec.SameSeen : Option Node → Option Node → Prop
  | none, none => True
  | some a, some b => a.kind = b.kind ∧ a.uid = b.uid ∧ a.gid = b.gid ∧ a.perm = b.perm
  | _, _ => False

instance (a b : Option Node) : Decidable (Spec.SameSeen a b) := by
  cases a <;> cases b <;> unfold Spec.SameSeen <;> infer_instance

/-- What a process in the sandbox sees at a path: through the deepest mount above it. -/
def Spec.seenAt (mounts : List MountHash) (st : State) (p : Path) : Option Node :=
  (mountFor mounts p).bind (fun m => Spec.view st m.hash m.dir (p.drop m.dir.length))

/-- A new sandbox: no changes are stored; mount points are directories of the host, with a storage directory for each; the host is not itself an overlay. -/
structure Spec.NewSandbox (mounts : List MountHash) (st : State) : Prop where
  points : (mounts.map (·.dir)).Nodup
  names : (mounts.map (·.hash)).Nodup
  host : st.lower.WF
  plain : ∀ q n, st.lower.get q = some n → n.redirect = none ∧ n.opq = false ∧ n.whiteout = false
  dirs : ∀ m ∈ mounts, st.lower.isDirAt m.dir = true
  storage : st.upper.WF
  tops : ∀ m ∈ mounts, st.upper.isDirAt [m.hash] = true
  empty : ∀ q n, st.upper.get q = some n → (q = [] ∨ ∃ m ∈ mounts, q = [m.hash]) ∧ n.redirect = none ∧ n.whiteout = false ∧ n.isDir = true

/-- No symbolic link of the host is in the way of what is done at `p`: none above it, and if `p` is itself one it leads to a file. -/
structure Spec.ClearWay (host : FS) (p : Path) : Prop where
  above : ∀ y n, Below y p → host.get y = some n → Spec.ftype n.kind ≠ .symlink
  link : ∀ n, host.get p = some n → Spec.ftype n.kind = .symlink → host.pexists p = true ∧ host.pisDir p = false

/-! ### Proofs -/

theorem sameSeen_iff {a b : Option Node} : Spec.SameSeen a b ↔ attrsOf a = attrsOf b := by
  cases a <;> cases b <;> simp [Spec.SameSeen, attrsOf]

theorem hist_new {mounts : List MountHash} {st : State} (h : Spec.NewSandbox mounts st) (T : Path → Prop) : MountsOk mounts ∧ Hist mounts T st.lower st st.lower := by
  have hreg : Regular st := ⟨h.host, h.storage, fun q n hg => (h.empty q n hg).2.1, fun q n hg => (h.empty q n hg).2.2.1, h.plain⟩
  have htops : ∀ m ∈ mounts, TopOk st m.hash m.dir := fun m hm => ⟨h.dirs m hm, h.tops m hm⟩
  have hnone : ∀ m : MountHash, ∀ sub, sub ≠ [] → st.upper.get (m.hash :: sub) = none := by
    intro m sub hsub
    cases hg : st.upper.get (m.hash :: sub) with
    | none => rfl
    | some n =>
      rcases (h.empty _ n hg).1 with h1 | ⟨m', _, h1⟩
      · cases h1
      · simp only [List.cons.injEq] at h1
        exact absurd h1.2 hsub
  have hview : ∀ m ∈ mounts, ∀ sub, sub ≠ [] → Spec.view st m.hash m.dir sub = st.lower.get (m.dir ++ sub) := by
    intro m hm sub hsub
    refine ((hreg.view (htops m hm) sub).2 (hnone m sub hsub)).2 (fun hH => ?_)
    obtain ⟨q, h1, _, n, h3, _⟩ := hiddenAt_iff.1 hH
    rw [hnone m q h1] at h3; cases h3
  refine ⟨⟨h.points, h.names⟩, rfl, hreg, htops, fun q n hg => ?_, fun q n r hg hk _ => ?_, fun m hm m2 hm2 sub hsub hp => ?_, h.host, h.dirs, fun m hm sub hsub _ => by rw [hview m hm sub hsub],
    fun q _ => rfl⟩
  · rcases (h.empty q n hg).1 with h1 | ⟨m, hm, h1⟩
    · exact Or.inl h1
    · exact Or.inr ⟨m, hm, [], h1, fun h => absurd rfl h⟩
  · have := (h.empty q n hg).2.2.2
    unfold Node.isDir at this
    rw [hk] at this
    simp at this
  · rw [hview m hm sub hsub]
    obtain ⟨n, hn, hd⟩ := FS.isDirAt_iff.1 (h.dirs m2 hm2)
    have hd' : st.lower.isDirAt (m.dir ++ sub) = true := by
      by_cases he : m.dir ++ sub = m2.dir
      · rw [he]; exact h.dirs m2 hm2
      · exact h.host.ancestor hn (below_iff.2 ⟨hp, he⟩)
    obtain ⟨k, hk, hkd⟩ := FS.isDirAt_iff.1 hd'
    exact ⟨k, hk, hkd, (h.plain _ k hk).2.1⟩

theorem hist_run {mounts : List MountHash} {st : State} {acts : List Act} (h : Spec.NewSandbox mounts st) (ha : ∀ a ∈ acts, ActOk mounts a) :
    MountsOk mounts ∧ Hist mounts (fun p => ∃ a ∈ acts, a.path = p) st.lower (runIn mounts st acts) (runOn mounts st.lower acts) := by
  obtain ⟨h1, h2⟩ := hist_new h (fun p => ∃ a ∈ acts, a.path = p)
  exact ⟨h1, h2.run h1 acts (fun a ha' => ⟨ha a ha', a, ha', rfl⟩)⟩

/-- **C84 for the view**: after every history, a process in the sandbox sees at every path (that is in a mount and is not a mount point) what would be on the host if the same had been done there. -/
theorem C84_view (mounts : List MountHash) (st : State) (acts : List Act) (hnew : Spec.NewSandbox mounts st) (hacts : ∀ a ∈ acts, ActOk mounts a) (p : Path) (hp : ∃ m ∈ mounts, m.dir <+: p)
    (hnp : ∀ m ∈ mounts, m.dir ≠ p) : Spec.SameSeen (Spec.seenAt mounts (runIn mounts st acts) p) ((runOn mounts st.lower acts).get p) := by
  obtain ⟨hm, h⟩ := hist_run hnew hacts
  rw [sameSeen_iff]
  cases hmf : mountFor mounts p with
  | none =>
    exfalso
    obtain ⟨m, hmm, hpre⟩ := hp
    unfold mountFor at hmf
    rw [List.findSome?_eq_none_iff] at hmf
    have := hmf m.dir (List.mem_reverse.2 ((List.mem_inits _ _).2 hpre))
    rw [List.find?_eq_none] at this
    exact this m hmm (by simp)
  | some m =>
    obtain ⟨hmm, ⟨sub, rfl⟩, _⟩ := mountFor_some hmf
    unfold Spec.seenAt
    rw [hmf]
    simp only [Option.bind_some, List.drop_left]
    exact h.same m hmm sub (fun e => hnp m hmm (by rw [e, List.append_nil])) hmf

/-- **C84 for the host**: nothing that is done in the sandbox changes the host. -/
theorem C84_host (mounts : List MountHash) (st : State) (acts : List Act) : (runIn mounts st acts).lower = st.lower := by
  unfold runIn
  induction acts generalizing st with
  | nil => rfl
  | cons a acts ih =>
    rw [List.foldl_cons, ih]
    unfold actIn
    split
    · rfl
    · split <;> rfl

section
variable {env : Env} {mounts : List MountHash} {st : State} {fs host : FS} {T : Path → Prop}

theorem hist_mount (hdec : ∀ m ∈ mounts, env.decode m.hash = some m.dir) (h : Hist mounts T host st fs) {x : Name} {mp sub : Path} {n : Node} (hd : env.decode x = some mp)
    (hg : st.upper.get (x :: sub) = some n) :
    ∃ m ∈ mounts, x = m.hash ∧ mp = m.dir ∧ (sub ≠ [] → mountFor mounts (m.dir ++ sub) = some m ∧ ∃ p, T p ∧ m.dir ++ sub <+: p) := by
  rcases h.keys _ n hg with h1 | ⟨m, hm, s, h1, h2⟩
  · cases h1
  · obtain ⟨rfl, rfl⟩ := List.cons.inj h1
    rw [hdec m hm] at hd
    exact ⟨m, hm, rfl, (Option.some.inj hd).symm, h2⟩

theorem hist_plain (hm : MountsOk mounts) (hdec : ∀ m ∈ mounts, env.decode m.hash = some m.dir) (h : Hist mounts T host st fs) (hT : ∀ p, T p → Spec.ClearWay host p) :
    Spec.PlainStorage env st := by
  refine ⟨h.regular.upper, h.regular.redirect, (fun q n hg hw => by rw [h.regular.whiteout q n hg] at hw; cases hw), h.nodes, fun x mp hx hd => ?_,
    fun x mp x' mp' sub n hx hd hne hd' hpre hsub hg => ?_, fun x mp sub n k hd hg hw hk hl => ?_⟩
  · obtain ⟨n, hg⟩ := FS.mem_keys.1 hx
    obtain ⟨m, hmm, rfl, rfl, _⟩ := hist_mount hdec h hd hg
    obtain ⟨t1, t2⟩ := h.tops m hmm
    obtain ⟨a, a1, a2⟩ := FS.isDirAt_iff.1 t1
    obtain ⟨b, b1, b2⟩ := FS.isDirAt_iff.1 t2
    exact ⟨⟨a, a1, isDir_iff_ftype.1 a2⟩, ⟨b, b1, isDir_iff_ftype.1 b2⟩⟩
  · obtain ⟨n0, hg0⟩ := FS.mem_keys.1 hx
    obtain ⟨m, hmm, rfl, rfl, _⟩ := hist_mount hdec h hd hg0
    obtain ⟨m', hmm', rfl, rfl, hs⟩ := hist_mount hdec h hd' hg
    obtain ⟨hmf, _⟩ := hs hsub
    obtain ⟨_, _, hdeep⟩ := mountFor_some hmf
    refine ⟨fun hc => ?_, fun hh hc => ?_⟩
    · have h1 := hdeep m hmm hc
      have : m.dir = m'.dir := h1.eq_of_length_le hpre.length_le
      exact hne (by rw [List.inj_on_of_nodup_map hm.dirs hmm hmm' this])
    · obtain ⟨k, k1, k2, k3⟩ := h.points m' hmm' m hmm sub hsub hc
      obtain ⟨v1, _⟩ := h.regular.view (h.tops m' hmm') sub
      cases hw : Spec.isWhiteout n with
      | true => rw [(v1 n hg).1 hw] at k1; cases k1
      | false =>
        rw [(v1 n hg).2 hw] at k1
        cases k1
        rcases hh with hh | hh | hh
        · rw [hw] at hh; cases hh
        · rw [k3] at hh; cases hh
        · exact hh (isDir_iff_ftype.1 k2)
  · obtain ⟨m, hmm, rfl, rfl, hs⟩ := hist_mount hdec h hd hg
    have hsub : sub ≠ [] := by
      rintro rfl
      obtain ⟨b, b1, b2⟩ := FS.isDirAt_iff.1 (h.tops m hmm).2
      rw [hg] at b1; cases b1
      rw [not_whiteout_dir b2 (h.regular.whiteout _ n hg)] at hw; cases hw
    obtain ⟨_, p, hp, hpre⟩ := hs hsub
    have hc := hT p hp
    rw [h.lower] at hk ⊢
    by_cases he : m.dir ++ sub = p
    · subst he; exact (hc.link k hk hl).1
    · exact absurd hl (hc.above _ k (below_iff.2 ⟨hpre, he⟩) hk)

theorem normal_root : NormalPath [] := fun _ h => by cases h

/-- No change of a plain storage is a rename. -/
theorem plain_no_rename {env : Env} {st : State} (hp : Spec.PlainStorage env st) : ∀ e ∈ selected env st, e.op ≠ .rename := by
    intro e he ho
    obtain ⟨ue, hue, h' | h'⟩ := mem_changes.1 (mem_selected he)
    · obtain ⟨_, _, _, _, h'', _⟩ := mem_removesOf h'
      rw [ho] at h''; cases h''
    · obtain ⟨m, mp, sub, _, hi⟩ := mem_upperEntries hue
      obtain ⟨_, _, _, _, _, hx⟩ := mem_setsOf h'
      have hr := hp.noRedirects _ _ hi.node
      rcases hx with ⟨h1, _⟩ | ⟨h1, _⟩ | ⟨_, _, hx⟩ | ⟨_, _, hx⟩
      · rw [hr] at h1; cases h1
      · rw [hr] at h1; cases h1
      · rw [ho] at hx; cases hx
      · rw [ho] at hx; cases hx

/-- The paths of the changes of a plain storage. -/
theorem plain_dest {env : Env} {st : State} (hp : Spec.PlainStorage env st) (hw : st.lower.WF)
    (hstored : ∀ {x mp sub n}, env.decode x = some mp → sub ≠ [] → st.upper.get (x :: sub) = some n →
      NormalPath (mp ++ sub) ∧ mp ++ sub ≠ [] ∧ (∀ y, Below y (mp ++ sub) → ∀ k, st.lower.get y = some k → Spec.ftype k.kind ≠ .symlink) ∧
      (st.lower.pisDir (mp ++ sub) = true → ∀ k, st.lower.get (mp ++ sub) = some k → Spec.ftype k.kind ≠ .symlink)) :
    ∀ e ∈ selected env st, (NormalPath e.dest ∧ e.dest ≠ [] ∧ ∀ y, Below y e.dest → ∀ n, st.lower.get y = some n → Spec.ftype n.kind ≠ .symlink) ∧
      ∀ s, e.source = some s → s.path = e.dest := by
    intro e he
    obtain ⟨ue, hue, h' | h'⟩ := mem_changes.1 (mem_selected he)
    · obtain ⟨m, mp, sub, _, hi⟩ := mem_upperEntries hue
      obtain ⟨s1, s2, s3, s4⟩ := hstored hi.decode hi.sub_ne hi.node
      obtain ⟨sp, hsp, _, _, _, hd, _⟩ := mem_removesOf h'
      have hspe : sp = mp ++ sub := by
        rw [hi.source, plain_source hp hi.node] at hsp
        unfold ifExists at hsp
        split at hsp
        · cases hsp; rfl
        · cases hsp
      subst hspe
      rcases hd with ⟨hpd, hwk, hsrc, _⟩ | ⟨_, hde, hsrc, _⟩
      · -- a directory of the host
        have hdir : ∃ d, st.lower.get (mp ++ sub) = some d ∧ d.isLnk = false := by
          have hl := s4 hpd
          have hex : st.lower.pexists (mp ++ sub) = true := by
            unfold FS.pisDir at hpd
            unfold FS.pexists
            cases hst : st.lower.stat (mp ++ sub) with
            | ok d => rfl
            | error er => rw [hst] at hpd; cases hpd
          cases hg : st.lower.get (mp ++ sub) with
          | none =>
            exfalso
            obtain ⟨d, hd⟩ := (FS.pexists_iff hw s1 (fun q hq n hn => isLnk_of_ftype (by
              by_cases he : q = mp ++ sub
              · subst he; exact hl n hn
              · exact s3 q (below_iff.2 ⟨hq, he⟩) n hn))).1 hex
            rw [hg] at hd; cases hd
          | some d => exact ⟨d, rfl, isLnk_of_ftype (hl d hg)⟩
        obtain ⟨d, hd1, hd2⟩ := hdir
        unfold FS.walkDir at hwk
        rw [FS.realpath_chain s1 hw.root (hw.chain hd1) (fun x hx => by rw [hd1] at hx; cases hx; exact hd2), hd1] at hwk
        simp only at hwk
        obtain ⟨⟨q, k⟩, hq, hqe⟩ := List.mem_filterMap.1 hwk
        simp only at hqe
        split at hqe
        · rename_i hpre
          rw [List.isPrefixOf_iff_prefix] at hpre
          obtain ⟨r, rfl⟩ := hpre
          simp only [List.drop_left, Option.some.injEq] at hqe
          have hgq := FS.get_of_mem hw.nodup hq
          refine ⟨?_, fun s hs => ?_⟩
          · rw [← hqe]
            refine ⟨hw.normal_of_get hgq, by simp [hi.sub_ne], fun y hy n hn hl => ?_⟩
            obtain ⟨n', h1, h2⟩ := FS.isDirAt_iff.1 (hw.ancestor hgq hy)
            rw [hn] at h1; cases h1
            rw [isDir_iff_ftype.1 h2] at hl; cases hl
          · rw [hsrc] at hs; exact (details_path hs).1
        · cases hqe
      · refine ⟨by rw [hde]; exact ⟨s1, s2, s3⟩, fun s hs => ?_⟩
        rw [hsrc, hi.details, hsp, Option.bind_some] at hs
        rw [(details_path hs).1, hde]
    · obtain ⟨m, mp, sub, _, hi⟩ := mem_upperEntries hue
      obtain ⟨s1, s2, s3, _⟩ := hstored hi.decode hi.sub_ne hi.node
      obtain ⟨_, h2, _, h4, _, _⟩ := mem_setsOf h'
      rw [h2, hi.lowerPath]
      refine ⟨⟨s1, s2, s3⟩, fun s hs => ?_⟩
      rw [h4, hi.details, hi.source, plain_source hp hi.node] at hs
      unfold ifExists at hs
      split at hs
      · rw [Option.bind_some] at hs; exact (details_path hs).1
      · cases hs

theorem hist_ordinary (hm : MountsOk mounts) (hdec : ∀ m ∈ mounts, env.decode m.hash = some m.dir) (h : Hist mounts T host st fs) (hT : ∀ p, T p → Spec.ClearWay host p ∧ NormalPath p)
    (hcwd : NormalPath env.cwd ∧ ∀ y, y <+: env.cwd → ∀ n, host.get y = some n → Spec.ftype n.kind ≠ .symlink) (hfresh : Spec.FreshTemps env st.lower (selected env st)) :
    Spec.Ordinary env st := by
  have hp := hist_plain hm hdec h (fun p hp => (hT p hp).1)
  have hlow := h.lower
  have hw : st.lower.WF := h.regular.host
  have hnr := plain_no_rename hp
  -- the paths of changes
  have hstored : ∀ {x mp sub n}, env.decode x = some mp → sub ≠ [] → st.upper.get (x :: sub) = some n →
      NormalPath (mp ++ sub) ∧ mp ++ sub ≠ [] ∧ (∀ y, Below y (mp ++ sub) → ∀ k, st.lower.get y = some k → Spec.ftype k.kind ≠ .symlink) ∧
      (st.lower.pisDir (mp ++ sub) = true → ∀ k, st.lower.get (mp ++ sub) = some k → Spec.ftype k.kind ≠ .symlink) := by
    intro x mp sub n hd hsub hg
    obtain ⟨m, hmm, rfl, rfl, hs⟩ := hist_mount hdec h hd hg
    obtain ⟨_, p, hTp, hpre⟩ := hs hsub
    obtain ⟨hc, hN⟩ := hT p hTp
    refine ⟨hN.of_prefix hpre, by simp [hsub], fun y hy k hk => ?_, fun hd k hk hl => ?_⟩
    · rw [hlow] at hk
      exact hc.above y k (below_of_below_prefix hy hpre) hk
    · rw [hlow] at hk hd
      by_cases he : m.dir ++ sub = p
      · subst he
        rw [(hc.link k hk hl).2] at hd; cases hd
      · exact hc.above _ k (below_iff.2 ⟨hpre, he⟩) hk hl
  have hdest := plain_dest hp hw hstored
  refine ⟨hw, ⟨fun e he => (hdest e he).1, fun e he s hs => ?_, by rw [hlow]; exact hcwd, fun e he ho => absurd ho (hnr e he), fun e he hset s hs hl => ⟨fun e' he' hx hb => ?_, fun e' he' ho => absurd ho (hnr e' he')⟩⟩,
    hfresh, h.regular.upper.nodup, fun x x' sub sub' mp mp' hx hx' hd hd' hsub hsub' heq => ?_⟩
  · obtain ⟨⟨h1, _, h3⟩, h4⟩ := hdest e he
    rw [h4 s hs]
    exact ⟨h1, h3⟩
  · rcases hx with hx | hx
    swap
    · exact hnr e' he' hx
    obtain ⟨x, mp, sub, n, hd, hsub, hg, _, hde, hst⟩ := set_stored he hset
    obtain ⟨x', mp', sub', n', hd', hsub', hg', _, hde', _⟩ := set_stored he' hx
    rw [hst] at hs; cases hs
    simp only at hl
    obtain ⟨m, hmm, rfl, rfl, h1⟩ := hist_mount hdec h hd hg
    obtain ⟨m', hmm', rfl, rfl, h1'⟩ := hist_mount hdec h hd' hg'
    obtain ⟨hmf, _⟩ := h1 hsub
    obtain ⟨hmf', _⟩ := h1' hsub'
    obtain ⟨_, _, hdeep⟩ := mountFor_some hmf
    obtain ⟨_, _, hdeep'⟩ := mountFor_some hmf'
    rw [hde, hde'] at hb
    have hnd : n.isDir = false := by
      cases hx : n.isDir with
      | false => rfl
      | true => rw [isDir_iff_ftype.1 hx] at hl; cases hl
    rcases prefix_total (List.prefix_append m'.dir sub') hb.prefix with hc | hc
    · have e1 := hdeep m' hmm' hc
      have e2 := hdeep' m hmm ((List.prefix_append _ _).trans hb.prefix)
      have : m = m' := List.inj_on_of_nodup_map hm.dirs hmm hmm' (e2.eq_of_length_le e1.length_le)
      subst this
      obtain ⟨w, hw0, he0⟩ := hb
      rw [List.append_assoc] at he0
      have he1 := List.append_cancel_left he0
      have hanc := h.regular.upper.ancestor hg' (q := m.hash :: sub) ⟨w, hw0, by rw [he1, List.cons_append]⟩
      obtain ⟨k, k1, k2⟩ := FS.isDirAt_iff.1 hanc
      rw [hg] at k1; cases k1
      rw [hnd] at k2; cases k2
    · obtain ⟨k, k1, k2, _⟩ := h.points m hmm m' hmm' sub hsub hc
      obtain ⟨v1, _⟩ := h.regular.view (h.tops m hmm) sub
      cases hwn : Spec.isWhiteout n with
      | true => rw [(v1 n hg).1 hwn] at k1; cases k1
      | false =>
        rw [(v1 n hg).2 hwn] at k1
        cases k1
        rw [hnd] at k2; cases k2
  · obtain ⟨n, hg⟩ := FS.mem_keys.1 hx
    obtain ⟨n', hg'⟩ := FS.mem_keys.1 hx'
    obtain ⟨m, hmm, rfl, rfl, h1⟩ := hist_mount hdec h hd hg
    obtain ⟨m', hmm', rfl, rfl, h1'⟩ := hist_mount hdec h hd' hg'
    have e1 := (h1 hsub).1
    have e2 := (h1' hsub').1
    rw [heq, e2] at e1
    rw [Option.some.inj e1]

end

/-- **C84 (partial)**: for every history of a sandbox: if afterwards every change is selected and accepted, and accept succeeds, the host is as if everything had been done there directly (same
names, types, contents, owners, groups and modes), except at mount points.
Missing: renames of directories that are merged with the host's, links of the host in the way (`Spec.ClearWay`), and that accept succeeds. -/
theorem C84_history_partial (env : Env) (mounts : List MountHash) (st : State) (acts : List Act) (hnew : Spec.NewSandbox mounts st) (hacts : ∀ a ∈ acts, ActOk mounts a)
    (hdec : ∀ m ∈ mounts, env.decode m.hash = some m.dir) (hway : ∀ a ∈ acts, Spec.ClearWay st.lower a.path)
    (hcwd : NormalPath env.cwd ∧ ∀ y, y <+: env.cwd → ∀ n, st.lower.get y = some n → Spec.ftype n.kind ≠ .symlink)
    (hfresh : Spec.FreshTemps env st.lower (selected env (runIn mounts st acts))) (hall : Spec.AllSelected env (runIn mounts st acts))
    (hok : (accept env (runIn mounts st acts)).error = none) (p : Path) (hp : ∀ m ∈ mounts, m.dir ≠ p) :
    ((runOn mounts st.lower acts).get p = none → (accept env (runIn mounts st acts)).state.lower.get p = none) ∧
    (∀ n, (runOn mounts st.lower acts).get p = some n → ∃ n', (accept env (runIn mounts st acts)).state.lower.get p = some n' ∧ Spec.SameNode n' n) := by
  obtain ⟨hm, h⟩ := hist_run hnew hacts
  have hT : ∀ p, (∃ a ∈ acts, a.path = p) → Spec.ClearWay st.lower p ∧ NormalPath p := by
    rintro p ⟨a, ha, rfl⟩
    exact ⟨hway a ha, (hacts a ha).normal⟩
  have hpl := hist_plain hm hdec h (fun p hp => (hT p hp).1)
  have hord := hist_ordinary hm hdec h hT hcwd (by rw [h.lower]; exact hfresh)
  obtain ⟨hin, hout⟩ := C01_view_partial env _ hord hpl hall hok
  have hroot : ∀ x, [x] ∈ (runIn mounts st acts).upper.keys → ∃ m ∈ mounts, x = m.hash := by
    intro x hx
    obtain ⟨n, hg⟩ := FS.mem_keys.1 hx
    rcases h.keys _ n hg with h1 | ⟨m, hmm, sub, h1, _⟩
    · cases h1
    · exact ⟨m, hmm, (List.cons.inj h1).1⟩
  by_cases hex : ∃ m ∈ mounts, m.dir <+: p
  · cases hmf : mountFor mounts p with
    | none =>
      exfalso
      obtain ⟨m, hmm, hpre⟩ := hex
      unfold mountFor at hmf
      rw [List.findSome?_eq_none_iff] at hmf
      have := hmf m.dir (List.mem_reverse.2 ((List.mem_inits _ _).2 hpre))
      rw [List.find?_eq_none] at this
      exact this m hmm (by simp)
    | some m =>
      obtain ⟨hmm, ⟨sub, rfl⟩, hdeep⟩ := mountFor_some hmf
      have hsub : sub ≠ [] := fun e => hp m hmm (by rw [e, List.append_nil])
      obtain ⟨t, ht, _⟩ := FS.isDirAt_iff.1 (h.tops m hmm).2
      obtain ⟨i1, i2⟩ := hin m.hash m.dir sub ⟨FS.mem_keys.2 ⟨t, ht⟩, hdec m hmm, ⟨sub, hsub, rfl⟩, fun x mp' hx hd hne hpre hq => by
        obtain ⟨m', hmm', rfl⟩ := hroot x hx
        rw [hdec m' hmm'] at hd
        cases hd
        have := hpre.eq_of_length_le (hdeep m' hmm' hq).length_le
        exact hne (by rw [List.inj_on_of_nodup_map hm.dirs hmm hmm' this])⟩
      have hs := h.same m hmm sub hsub hmf
      refine ⟨fun hn => i1 ?_, fun n hn => ?_⟩
      · rw [hn] at hs
        cases hv : Spec.view (runIn mounts st acts) m.hash m.dir sub with
        | none => rfl
        | some k => rw [hv] at hs; simp [attrsOf] at hs
      · rw [hn] at hs
        cases hv : Spec.view (runIn mounts st acts) m.hash m.dir sub with
        | none => rw [hv] at hs; simp [attrsOf] at hs
        | some k =>
          rw [hv] at hs
          simp only [attrsOf, Option.map_some, Option.some.injEq, Prod.mk.injEq] at hs
          obtain ⟨n', g1, g2, g3, g4, g5⟩ := i2 k hv
          refine ⟨n', g1, g2.trans hs.1, g3.trans hs.2.1, g4.trans hs.2.2.1, ?_⟩
          rcases g5 with g5 | g5
          · exact Or.inl g5
          · exact Or.inr (g5.trans hs.2.2.2)
  · have hno : ∀ m ∈ mounts, ¬ Below m.dir p := fun m hmm hb => hex ⟨m, hmm, hb.prefix⟩
    rw [hout p (fun x mp hx hd hb => by
      obtain ⟨m, hmm, rfl⟩ := hroot x hx
      rw [hdec m hmm] at hd
      cases hd
      exact hno m hmm hb), h.lower, h.outside p hno]
    exact ⟨fun h => h, fun n hn => ⟨n, hn, rfl, rfl, rfl, Or.inr rfl⟩⟩

/-! ### Example: two mounts, one inside the other -/

def exHistMounts : List MountHash := [⟨str "F4", []⟩, ⟨str "U", [str "u"]⟩]
def exHistNew : State := ⟨exViewHost, [([], { kind := .dir }), ([str "F4"], { kind := .dir }), ([str "U"], { kind := .dir })]⟩

/-- `chmod 700 d; echo new >d/f; rm d/g; rm -r d/x; mkdir d/x; echo >d/x/z; rm o/p; rmdir o; echo file >o; rm l; ln -s d l; rmdir u (fails); rm u/v; mkdir u/v; mkdir n; mkdir n/m; rmdir n/m`. -/
def exHistActs : List Act :=
  [⟨[str "d"], .attr 0 0 0o700⟩, ⟨[str "d", str "f"], .put (.reg (str "new")) 7 7 0o600⟩, ⟨[str "d", str "g"], .remove⟩, ⟨[str "d", str "x"], .remove⟩, ⟨[str "d", str "x", str "y"], .remove⟩,
   ⟨[str "d", str "x"], .remove⟩, ⟨[str "d", str "x"], .mkdir 1 1 0o755 false⟩, ⟨[str "d", str "x", str "z"], .put (.reg []) 1 1 0o644⟩, ⟨[str "o", str "p"], .remove⟩, ⟨[str "o"], .remove⟩,
   ⟨[str "o"], .put (.reg (str "file")) 0 0 0o644⟩, ⟨[str "l"], .remove⟩, ⟨[str "l"], .put (.lnk (str "d")) 0 0 0o777⟩, ⟨[str "u"], .remove⟩, ⟨[str "u", str "v"], .remove⟩,
   ⟨[str "u", str "v"], .mkdir 0 0 0o755 false⟩, ⟨[str "n"], .mkdir 0 0 0o755 true⟩, ⟨[str "n", str "m"], .mkdir 0 0 0o755 false⟩, ⟨[str "n", str "m"], .remove⟩]

theorem newSandbox_of_check {mounts : List MountHash} {st : State} (h1 : (mounts.map (·.dir)).Nodup ∧ (mounts.map (·.hash)).Nodup ∧ st.lower.WF ∧ st.upper.WF)
    (h2 : ∀ e ∈ st.lower, e.2.redirect = none ∧ e.2.opq = false ∧ e.2.whiteout = false) (h3 : ∀ m ∈ mounts, st.lower.isDirAt m.dir = true ∧ st.upper.isDirAt [m.hash] = true)
    (h4 : ∀ e ∈ st.upper, (e.1 = [] ∨ ∃ m ∈ mounts, e.1 = [m.hash]) ∧ e.2.redirect = none ∧ e.2.whiteout = false ∧ e.2.isDir = true) : Spec.NewSandbox mounts st :=
  ⟨h1.1, h1.2.1, h1.2.2.1, fun _ _ hg => h2 _ (FS.mem_of_get hg), fun m hm => (h3 m hm).1, h1.2.2.2, fun m hm => (h3 m hm).2, fun _ _ hg => h4 _ (FS.mem_of_get hg)⟩

theorem exHist_new : Spec.NewSandbox exHistMounts exHistNew := newSandbox_of_check (by decide +kernel) (by decide +kernel) (by decide +kernel) (by decide +kernel)

theorem actsOk_of_check {mounts : List MountHash} {acts : List Act} (h : ∀ a ∈ acts, NormalPath a.path ∧ (mountFor mounts a.path).isSome = true ∧
    (match a.what with | .put (.chr r) _ _ _ => r % 65536 != 0 | _ => true) = true) : ∀ a ∈ acts, ActOk mounts a := by
  intro a ha
  obtain ⟨h1, h2, h3⟩ := h a ha
  refine ⟨h1, Option.isSome_iff_exists.1 h2, fun r uid gid perm hw => ?_⟩
  rw [hw] at h3
  simpa using h3

theorem exHist_acts : ∀ a ∈ exHistActs, ActOk exHistMounts a := actsOk_of_check (by decide +kernel)

theorem clearWay_of_check {host : FS} {p : Path} (h : ∀ e ∈ host, (Below e.1 p → Spec.ftype e.2.kind ≠ .symlink) ∧ (e.1 = p → Spec.ftype e.2.kind = .symlink → host.pexists p = true ∧ host.pisDir p = false)) :
    Spec.ClearWay host p :=
  ⟨fun _ _ hb hg => (h _ (FS.mem_of_get hg)).1 hb, fun _ hg hl => (h _ (FS.mem_of_get hg)).2 rfl hl⟩

theorem exHist_way : ∀ a ∈ exHistActs, Spec.ClearWay exHistNew.lower a.path := by
  have h : ∀ a ∈ exHistActs, ∀ e ∈ exHistNew.lower, ((e.1 <+: a.path ∧ e.1 ≠ a.path) → Spec.ftype e.2.kind ≠ .symlink) ∧
      (e.1 = a.path → Spec.ftype e.2.kind = .symlink → exHistNew.lower.pexists a.path = true ∧ exHistNew.lower.pisDir a.path = false) := by decide +kernel
  exact fun a ha => clearWay_of_check (fun e he => ⟨fun hb => (h a ha e he).1 (below_iff.1 hb), (h a ha e he).2⟩)

-- the storage that results, and the host on which the same was done directly
example : (runIn exHistMounts exHistNew exHistActs).upper.get [str "F4", str "d", str "x"] = some { kind := .dir, uid := 1, gid := 1, perm := 0o755, opq := true } ∧
    (runIn exHistMounts exHistNew exHistActs).upper.get [str "F4", str "d", str "g"] = some { kind := .chr 0 } ∧
    (runIn exHistMounts exHistNew exHistActs).upper.get [str "F4", str "n", str "m"] = none ∧
    (runOn exHistMounts exViewHost exHistActs).get [str "d", str "x", str "y"] = none ∧
    ((runOn exHistMounts exViewHost exHistActs).get [str "d", str "f"]).map (·.kind) = some (.reg (str "new")) := by decide +kernel
-- the conditions of `C84_history_partial` hold
example : (accept exViewEnv (runIn exHistMounts exHistNew exHistActs)).error = none ∧
    selected exViewEnv (runIn exHistMounts exHistNew exHistActs) = changes exViewEnv (runIn exHistMounts exHistNew exHistActs) ∧ (∀ m ∈ exHistMounts, exViewEnv.decode m.hash = some m.dir) ∧
    NormalPath exViewEnv.cwd := by decide +kernel
example : Spec.Ordinary exViewEnv (runIn exHistMounts exHistNew exHistActs) := ordinary_of_check (fun _ => rfl) (fun _ => rfl) (by decide +kernel) (by decide +kernel) (by decide +kernel)
-- and what it says
example : ∀ p ∈ [[str "d"], [str "d", str "f"], [str "d", str "g"], [str "d", str "x"], [str "d", str "x", str "y"], [str "d", str "x", str "z"], [str "o"], [str "o", str "p"], [str "l"],
      [str "u", str "v"], [str "n"], [str "n", str "m"]],
    Spec.SameSeen ((accept exViewEnv (runIn exHistMounts exHistNew exHistActs)).state.lower.get p) ((runOn exHistMounts exViewHost exHistActs).get p) := by decide +kernel

end SB
