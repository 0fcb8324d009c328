import Verif.Lib.Orders

/-! The complete effect of accept's host-changing part (proof machinery). -/

namespace SB

open scoped List

/-- Hypotheses about a selection of changes and the state it is applied to. -/
structure Ready (env : Env) (st : State) (sel : List Entry) : Prop where
  good : Good env st.lower sel
  staged : ∀ e ∈ sel, Spec.IsSet e → ∃ s, e.staged = some s ∧ s.node.supported = true ∧ st.upper.get s.path = some s.node

def TmpName (env : Env) (sel : List Entry) (x : Name) : Prop :=
  CopyName env sel x ∨ ∃ j, ∃ e ∈ sel, ∃ s, e.source = some s ∧ x = Spec.renName s.path e.dest (env.uuidR j)

/-- A rename in the selection, by source and destination. -/
def Ren (sel : List Entry) (s d : Path) : Prop := ∃ e ∈ sel, e.op = .rename ∧ e.dest = d ∧ ∃ x, e.source = some x ∧ x.path = s

section
variable {env : Env} {st : State} {sel : List Entry}

theorem TmpName.new (hg : Good env st.lower sel) {x : Name} (h : TmpName env sel x) : Spec.NewName env st.lower sel x := by
  rcases h with ⟨i, e, he, rfl⟩ | ⟨j, e, he, s, hs, rfl⟩
  · exact hg.fresh.copy i e he
  · exact hg.fresh.ren j e he s hs

theorem alist_c5 (h : Ready env st sel) {st2 : State} (hu : st2.upper = st.upper) : AList env st2 sel (realOrders env sel).2.2 := by
  refine ⟨from_c5, fun e he ho => ?_, tmps_c5 h.good, fun e he hs => ?_⟩
  · obtain ⟨e0, h0, hc⟩ := from_c5 e he
    obtain ⟨h1, h2, h3, h4⟩ := core_op hc
    obtain ⟨s, hs⟩ := h.good.src e0 h0 (by rw [← h1, ho])
    obtain ⟨j, hj⟩ := c5_tmp he ho (by rw [h3, hs])
    exact ⟨s, j, by rw [h3, hs], hj⟩
  · obtain ⟨e0, h0, hc⟩ := from_c5 e he
    obtain ⟨h1, h2, h3, h4⟩ := core_op hc
    obtain ⟨s, hs1, hs2, hs3⟩ := h.staged e0 h0 (by unfold Spec.IsSet at *; rw [← h1]; exact hs)
    exact ⟨s, by rw [h4, hs1], hs2, by rw [hu, hs3]⟩

/-- The pairs moved by the second pass are the renames of the selection, with their temporaries. -/
theorem pairs_c4 (_h : Good env st.lower sel) {p : Path × Path} (hp : p ∈ movePairs (realOrders env sel).2.1) :
    ∃ e ∈ sel, ∃ s j, e.op = .rename ∧ e.source = some s ∧ p.1 = s.path ∧ p.2 = renameTmp env.cwd s.path e.dest (env.uuidR j) := by
  obtain ⟨e, he, s, ho, hs, ht, h1⟩ := mem_movePairs hp
  obtain ⟨j, hj⟩ := c4_tmp he ho hs
  obtain ⟨e0, h0, hc⟩ := from_c4 e he
  obtain ⟨g1, g2, g3, g4⟩ := core_op hc
  rw [ht] at hj
  exact ⟨e0, h0, s, j, by rw [← g1, ho], by rw [← g3, hs], h1, by rw [← g2]; exact Option.some.inj hj⟩

theorem pairs_sources (h : Good env st.lower sel) {s : Path} : (∃ p ∈ movePairs (realOrders env sel).2.1, p.1 = s) ↔ ∃ d, Ren sel s d := by
  constructor
  · rintro ⟨p, hp, rfl⟩
    obtain ⟨e, he, s, j, ho, hs, h1, _⟩ := pairs_c4 h hp
    exact ⟨e.dest, e, he, ho, rfl, s, hs, h1.symm⟩
  · rintro ⟨d, e, he, ho, rfl, x, hx, rfl⟩
    obtain ⟨e', he', hc⟩ := mem_of_From (core_c4 env sel) he
    obtain ⟨g1, g2, g3, g4⟩ := core_op hc
    obtain ⟨j, hj⟩ := c4_tmp he' (g1.trans ho) (g3.trans hx)
    exact ⟨_, movePairs_of he' (g1.trans ho) (g3.trans hx) hj, rfl⟩

theorem pairs_order (h : Good env st.lower sel) :
    (movePairs (realOrders env sel).2.1).Pairwise (fun p p' => p'.1 ≤ p.1 ∧ p.2 ≠ p'.2) := by
  apply movePairs_pairwise
  refine ((desc_c4 env sel).and (tmps_c4 h)).imp ?_
  intro e e' hee s t s' t' ho ho' hs ht hs' ht'
  refine ⟨?_, fun heq => ?_⟩
  · have := hee.1
    unfold byReverseSource at this
    rw [hs, hs'] at this
    simpa using this
  · simp only at heq
    exact hee.2 ho ho' (by rw [ht, ht', heq])

theorem pairs_len (h : Good env st.lower sel) : ∀ p ∈ movePairs (realOrders env sel).2.1,
    p.2.length = env.cwd.length + 1 ∧ env.cwd <+: p.2 := by
  intro p hp
  obtain ⟨e, he, s, j, ho, hs, _, h2⟩ := pairs_c4 h hp
  rw [h2, renameTmp_eq]; simp

theorem pairs_ns (h : Good env st.lower sel) : ∀ p ∈ movePairs (realOrders env sel).2.1, ∀ p' ∈ movePairs (realOrders env sel).2.1,
    ¬ p.2 <+: p'.1 := by
  intro p hp p' hp' hpre
  obtain ⟨e, he, s, j, ho, hs, _, h2⟩ := pairs_c4 h hp
  obtain ⟨e', he', s', j', ho', hs', h1', _⟩ := pairs_c4 h hp'
  refine (h.fresh.ren j e he s hs).source e' he' s' hs' ?_
  rw [← h1']
  apply hpre.subset
  rw [h2, renameTmp_eq]; simp

/-- State after the first two passes. -/
structure AfterRM (env : Env) (host : FS) (sel : List Entry) (L : List (Path × Path)) (fs : FS) : Prop where
  wf : fs.WF
  done : ∃ g1 : FS, (∀ q, (Removed sel q → g1.get q = none) ∧ (¬ Removed sel q → g1.get q = host.get q)) ∧ MDone L g1 fs

theorem afterRM_crash (hg : Good env st.lower sel) {st1 st2 : State} (h1 : run (removeOps (realOrders env sel).1) st = (st1, none))
    (h2 : CrashState (premoveOps (realOrders env sel).2.1) st1 st2) :
    ∃ L1 L2, movePairs (realOrders env sel).2.1 = L1 ++ L2 ∧ AfterRM env st.lower sel L1 st2.lower := by
  have r1 := ok_R hg h1
  have hlk := links_R r1
  have e1 := fun q => phaseR_run (plain_R hg) (fun _ h => h) (fun op hop => by
    obtain ⟨e, _, s, _, _, h⟩ := opFrom_remove hop; exact ⟨_, h⟩) hg.wf (fun q h => .init h) h1 q
  rw [premoveOps_eq] at h2
  obtain ⟨l1, l2, hl, hr⟩ := crash_prefix (by simp only [List.mem_map]; rintro op ⟨p, _, rfl⟩; exact ⟨_, _, rfl⟩) h2
  obtain ⟨L1, L2, hL, rfl, rfl⟩ := List.map_eq_append_iff.1 hl
  have hsub : ∀ p ∈ L1, p ∈ movePairs (realOrders env sel).2.1 := fun p hp => by rw [hL]; simp [hp]
  have hpl := plain_M hg hlk
  rw [premoveOps_eq] at hpl
  obtain ⟨hD, hw, _⟩ := phaseM_run (D := []) (a := st1.lower) (cwd := env.cwd) hpl (fun p hp => List.mem_map.2 ⟨p, hsub p hp, rfl⟩) r1.wf
    (fun q h => .init h) ⟨by simp, by simp, by simp⟩
    ((pairs_order hg).sublist (by rw [hL]; simp)) (fun p hp => pairs_len hg p (hsub p (by simpa using hp)))
    (fun p hp p' hp' => pairs_ns hg p (hsub p (by simpa using hp)) p' (hsub p' (by simpa using hp'))) (by simp) hr
  refine ⟨L1, L2, hL, hw, st1.lower, fun q => ?_, by simpa using hD⟩
  obtain ⟨g1, g2⟩ := e1 q
  rw [gone_removeOps] at g1 g2
  exact ⟨g1, g2⟩

theorem afterRM_run (hg : Good env st.lower sel) {st1 st2 : State} (h1 : run (removeOps (realOrders env sel).1) st = (st1, none))
    (h2 : run (premoveOps (realOrders env sel).2.1) st1 = (st2, none)) :
    AfterRM env st.lower sel (movePairs (realOrders env sel).2.1) st2.lower ∧
      ∀ p ∈ movePairs (realOrders env sel).2.1, ¬ p.1 <+: env.cwd := by
  have r1 := ok_R hg h1
  have hlk := links_R r1
  have e1 := fun q => phaseR_run (plain_R hg) (fun _ h => h) (fun op hop => by
    obtain ⟨e, _, s, _, _, h⟩ := opFrom_remove hop; exact ⟨_, h⟩) hg.wf (fun q h => .init h) h1 q
  have hpl := plain_M hg hlk
  rw [premoveOps_eq] at hpl h2
  obtain ⟨hD, hw, hc⟩ := phaseM_run (D := []) (a := st1.lower) (cwd := env.cwd) hpl (fun p hp => List.mem_map.2 ⟨p, hp, rfl⟩) r1.wf
    (fun q h => .init h) ⟨by simp, by simp, by simp⟩
    (by simpa using pairs_order hg) (fun p hp => pairs_len hg p (by simpa using hp))
    (fun p hp p' hp' => pairs_ns hg p (by simpa using hp) p' (by simpa using hp')) (by simp) h2
  refine ⟨⟨hw, st1.lower, fun q => ?_, by simpa using hD⟩, by simpa using hc⟩
  obtain ⟨g1, g2⟩ := e1 q
  rw [gone_removeOps] at g1 g2
  exact ⟨g1, g2⟩

/-- A path with a copy's name in it never exists between the passes. -/
theorem AfterRM.noCopy (hg : Good env st.lower sel) {L : List (Path × Path)} {fs : FS} (h : AfterRM env st.lower sel L fs)
    (hL : ∀ p ∈ L, p ∈ movePairs (realOrders env sel).2.1) : ∀ x, CopyName env sel x → ∀ q, x ∈ q → fs.get q = none := by
  intro x hx q hq
  obtain ⟨g1, hg1, hD⟩ := h.done
  have hnew : Spec.NewName env st.lower sel x := TmpName.new hg (Or.inl hx)
  have h0 : ∀ q, x ∈ q → g1.get q = none := by
    intro q hq
    by_cases hr : Removed sel q
    · exact (hg1 q).1 hr
    · rw [(hg1 q).2 hr]; exact NewName_none hnew hq
  by_cases hp : ∃ p ∈ L, p.2 <+: q
  · obtain ⟨p, hp, r, rfl⟩ := hp
    rw [hD.moved p hp r]
    split
    · rfl
    · apply h0
      obtain ⟨e, he, s, j, ho, hs, h1, h2⟩ := pairs_c4 hg (hL p hp)
      rw [List.mem_append] at hq ⊢
      rcases hq with hq | hq
      · rw [h2, renameTmp_eq, List.mem_append] at hq
        rcases hq with hq | hq
        · exact absurd hq hnew.cwd
        · simp only [List.mem_singleton] at hq
          obtain ⟨i, e', he', rfl⟩ := hx
          exact absurd hq.symm (hg.fresh.renCopy j i e he e' he' s hs)
      · exact Or.inr hq
  · rw [hD.other q (fun p hp' h => hp ⟨p, hp', h⟩)]
    split
    · rfl
    · exact h0 q hq

/-! symbolic links during the last pass -/

/-- Links before the last pass: links of the host, or below a temporary where the host has one below the source. -/
def LinksRM (env : Env) (host : FS) (sel : List Entry) (gs : FS) : Prop :=
  ∀ q, gs.linkAt q → host.linkAt q ∨ ∃ p ∈ movePairs (realOrders env sel).2.1, ∃ r, q = p.2 ++ r ∧ host.linkAt (p.1 ++ r)

theorem AfterRM.links {L : List (Path × Path)} {fs : FS} (h : AfterRM env st.lower sel L fs)
    (hL : ∀ p ∈ L, p ∈ movePairs (realOrders env sel).2.1) : LinksRM env st.lower sel fs := by
  rintro q ⟨n, hn, hl⟩
  obtain ⟨g1, hg1, hD⟩ := h.done
  have h0 : ∀ q, g1.get q = some n → st.lower.linkAt q := by
    intro q hq
    by_cases hr : Removed sel q
    · rw [(hg1 q).1 hr] at hq; cases hq
    · rw [(hg1 q).2 hr] at hq; exact ⟨n, hq, hl⟩
  by_cases hp : ∃ p ∈ L, p.2 <+: q
  · obtain ⟨p, hp, r, rfl⟩ := hp
    rw [hD.moved p hp r] at hn
    split at hn
    · cases hn
    · right; exact ⟨p, hL p hp, r, rfl, h0 _ hn⟩
  · rw [hD.other q (fun p hp' h => hp ⟨p, hp', h⟩)] at hn
    split at hn
    · cases hn
    · left; exact h0 _ hn

theorem mayLink_A (hg : Good env st.lower sel) {gs : FS} (hl : LinksRM env st.lower sel gs) {y : Path}
    (hm : MayLink (applyOps env 0 (realOrders env sel).2.2) gs y) :
    st.lower.linkAt y ∨ (∃ e ∈ sel, Spec.IsSet e ∧ ∃ s, e.staged = some s ∧ s.node.isLnk = true ∧ e.dest = y) ∨
    (∃ p ∈ movePairs (realOrders env sel).2.1, ∃ r, y = p.2 ++ r ∧ st.lower.linkAt (p.1 ++ r)) ∨
    (∃ e ∈ sel, e.op = .rename ∧ ∃ s, e.source = some s ∧ ∃ r, y = e.dest ++ r ∧ st.lower.linkAt (s.path ++ r)) := by
  induction hm with
  | init h => rcases hl _ h with h | h
              · exact Or.inl h
              · exact Or.inr (Or.inr (Or.inl h))
  | ln h =>
    obtain ⟨e, he, h⟩ := opFrom_apply hg.src h
    rcases h with ⟨ty, s, j, ho, hs, h⟩ | ⟨_, _, _, _, h⟩
    · obtain ⟨_, rfl, hl⟩ := setOps_ln h
      right; left; exact ⟨e, he, ⟨ty, ho⟩, s, hs, hl, rfl⟩
    · cases h
  | @mv a b r h _ ih =>
    obtain ⟨e, he, h⟩ := mem_applyOps h
    obtain ⟨e0, h0, hc⟩ := from_c5 e he
    obtain ⟨g1, g2, g3, g4⟩ := core_op hc
    -- the name of the moved temporary
    have hnew : ∃ x, Spec.NewName env st.lower sel x ∧ x ∈ a := by
      rcases h with ⟨ty, s, j, ho, hs, h⟩ | ⟨t, ho, ht, h⟩
      · obtain ⟨rfl, _, _⟩ := setOps_mv h
        exact ⟨_, hg.fresh.copy j e0 h0, by rw [copyTmp_eq, ← g2]; simp⟩
      · cases h
        obtain ⟨s, hs⟩ := hg.src e0 h0 (by rw [← g1, ho])
        obtain ⟨j, hj⟩ := c5_tmp he ho (g3.trans hs)
        rw [ht] at hj
        exact ⟨_, hg.fresh.ren j e0 h0 s hs, by rw [Option.some.inj hj, renameTmp_eq, ← g2]; simp⟩
    obtain ⟨x, hx, hxa⟩ := hnew
    rcases ih with ⟨n, hn, _⟩ | ⟨e', he', _, _, _, _, hd⟩ | ⟨p, hp, r', hpr, hlk⟩ | ⟨e', he', _, s', hs', r', hd, n, hn, _⟩
    · rw [NewName_none hx (q := a ++ r) (by simp [hxa])] at hn; cases hn
    · exact absurd (by rw [hd]; simp [hxa]) (hx.dest e' he')
    · rcases h with ⟨ty, s, j, ho, hs, h⟩ | ⟨t, ho, ht, h⟩
      · -- a copy's temporary is not below a rename's
        exfalso
        obtain ⟨rfl, _, _⟩ := setOps_mv h
        have hxc : Spec.copyName e0.dest (env.uuidC j) ∈ p.2 ++ r' := by
          rw [← hpr, copyTmp_eq, ← g2]; simp
        obtain ⟨e1, h1, s1, j1, ho1, hs1, hp1, hp2⟩ := pairs_c4 hg hp
        rw [hp2, renameTmp_eq] at hxc
        simp only [List.mem_append, List.mem_singleton] at hxc
        rcases hxc with (hxc | hxc) | hxc
        · exact (hg.fresh.copy j e0 h0).cwd hxc
        · exact hg.fresh.renCopy j1 j e1 h1 e0 h0 s1 hs1 hxc.symm
        · obtain ⟨n, hn, _⟩ := hlk
          rw [NewName_none (hg.fresh.copy j e0 h0) (q := p.1 ++ r') (by simp [hxc])] at hn; cases hn
      · cases h
        obtain ⟨s, hs⟩ := hg.src e0 h0 (by rw [← g1, ho])
        have hpe : (s.path, a) ∈ movePairs (realOrders env sel).2.1 := movePairs_of (mem_stableSort.1 he) ho (g3.trans hs) ht
        have hlen : a.length = p.2.length := by
          rw [(pairs_len hg _ hpe).1, (pairs_len hg _ hp).1]
        obtain ⟨ht2, hrr⟩ := List.append_inj hpr hlen
        have hps : p.1 = s.path := by
          by_contra hne
          obtain ⟨i, hi, hpi⟩ := List.getElem_of_mem hp
          obtain ⟨k, hk, hpk⟩ := List.getElem_of_mem hpe
          rcases Nat.lt_trichotomy i k with hik | hik | hik
          · have := (List.pairwise_iff_getElem.1 (pairs_order hg) i k hi hk hik).2
            rw [hpi, hpk] at this; exact this ht2.symm
          · subst hik; rw [hpi] at hpk; rw [hpk] at hne; exact hne rfl
          · have := (List.pairwise_iff_getElem.1 (pairs_order hg) k i hk hi hik).2
            rw [hpi, hpk] at this; exact this ht2
        right; right; right
        exact ⟨e0, h0, by rw [← g1, ho], s, hs, r, by rw [g2], by rw [← hps, hrr]; exact hlk⟩
    · have : x ∈ e'.dest ++ r' := by rw [← hd]; simp [hxa]
      rcases List.mem_append.1 this with h | h
      · exact absurd h (hx.dest e' he')
      · rw [NewName_none hx (q := s'.path ++ r') (by simp [h])] at hn; cases hn

theorem plain_A (hg : Good env st.lower sel) {gs : FS} (hl : LinksRM env st.lower sel gs) :
    PlainOps (applyOps env 0 (realOrders env sel).2.2) gs := by
  intro op hop x hx
  obtain ⟨e, he, h⟩ := opFrom_apply hg.src hop
  obtain ⟨hd1, hd2, hd3⟩ := hg.plain.dest e he
  have nolink : (Spec.IsSet e ∨ e.op = .rename) → ∀ y, Below y e.dest → ¬ MayLink (applyOps env 0 (realOrders env sel).2.2) gs y := by
    intro hop y hy hm
    rcases mayLink_A hg hl hm with h | ⟨e', he', hset, s, hs, hln, rfl⟩ | ⟨p, hp, r, rfl, _⟩ | ⟨e', he', ho', s', hs', r, rfl, n, hn, hln⟩
    · exact not_linkAt_of (hd3 y hy) h
    · exact (hg.plain.links e' he' hset s hs (symlink_iff.2 hln)).1 e he hop hy
    · obtain ⟨e1, h1, s1, j1, ho1, hs1, hp1, hp2⟩ := pairs_c4 hg hp
      refine (hg.fresh.ren j1 e1 h1 s1 hs1).dest e he (hy.prefix.subset ?_)
      rw [hp2, renameTmp_eq]; simp
    · exact (hg.plain.renamed e' he' ho' s' hs' r n hn (symlink_iff.2 hln)).1 e he hop hy
  rcases h with ⟨ty, s, j, ho, hs, h⟩ | ⟨s, j, ho, hs, rfl⟩
  · rcases setOps_paths h x hx with rfl | ⟨rfl, _⟩
    · exact ⟨hd1, nolink (Or.inl ⟨ty, ho⟩)⟩
    · exact ⟨normal_copyTmp hg he j, fun y hy => nolink (Or.inl ⟨ty, ho⟩) y (below_copyTmp hd2 hy)⟩
  · simp [Op.paths] at hx
    rcases hx with rfl | rfl
    · refine ⟨normal_renTmp hg he hs j, fun y hy hm => ?_⟩
      have hy' := below_renTmp hy
      rcases mayLink_A hg hl hm with h | ⟨e', he', hset, s', hs', hln, rfl⟩ | ⟨p, hp, r, rfl, _⟩ | ⟨e', he', ho', s', hs', r, rfl, n, hn, hln⟩
      · exact not_linkAt_of (hg.plain.cwd.2 y hy') h
      · exact (hg.plain.links e' he' hset s' hs' (symlink_iff.2 hln)).2 e he ho hy'
      · obtain ⟨e1, h1, s1, j1, ho1, hs1, hp1, hp2⟩ := pairs_c4 hg hp
        refine (hg.fresh.ren j1 e1 h1 s1 hs1).cwd (hy'.subset ?_)
        rw [hp2, renameTmp_eq]; simp
      · exact (hg.plain.renamed e' he' ho' s' hs' r n hn (symlink_iff.2 hln)).2 hy'
    · exact ⟨hd1, nolink (Or.inr ho)⟩

/-- Invariant at the start of the ascending pass. -/
theorem ainv_start (h : Ready env st sel) {st1 st2 : State} (h1 : run (removeOps (realOrders env sel).1) st = (st1, none))
    (h2 : run (premoveOps (realOrders env sel).2.1) st1 = (st2, none)) :
    AInv env sel (applyOps env 0 (realOrders env sel).2.2) st2.lower (realOrders env sel).2.2 st2.lower := by
  obtain ⟨hA, _⟩ := afterRM_run h.good h1 h2
  refine ⟨hA.wf, fun q h => .init h, hA.noCopy h.good (fun _ h => h), fun _ _ _ _ _ _ => rfl, fun e he ho t ht => ?_⟩
  obtain ⟨g1, _, hD⟩ := hA.done
  have he4 := mem_stableSort.1 he
  obtain ⟨e0, h0, hc⟩ := from_c4 e he4
  obtain ⟨g1', g2', g3', g4'⟩ := core_op hc
  obtain ⟨s, hs⟩ := h.good.src e0 h0 (by rw [← g1', ho])
  have hp := movePairs_of he4 ho (g3'.trans hs) ht
  have := hD.moved _ hp []
  simp only [List.append_nil] at this
  rw [if_neg] at this
  · obtain ⟨n, hn⟩ := hD.src _ hp
    exact ⟨n, by rw [this]; exact hn⟩
  · rintro ⟨p', _, hb, hpre⟩
    exact hb.not_prefix hpre

end

end SB
