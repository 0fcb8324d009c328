import Verif.Lib.SetOk
import Verif.Props.Removal
import Verif.Props.View

/-!
# C85: when accept succeeds
-/

namespace SB

open scoped List

/-- The selected changes can be carried out on this host:
* they are removals, creations and modifications (no renames, nothing accept reports as an error);
* with every removed directory everything below it is removed too, only files, directories and links are removed, no removed directory is a mount point, nothing is removed twice;
* everything created or modified goes into a directory: one that is created or modified by the selection, or one that is on the host and stays as it is;
* what is in its place on the host and is not removed is a directory exactly if the new one is. -/
structure Spec.Feasible (host : FS) (sel : List Entry) : Prop where
  ops : ∀ e ∈ sel, e.op = .remove ∨ Spec.IsSet e
  closed : ∀ q q', Spec.Removes sel q → q' ∈ host.keys → q <+: q' → Spec.Removes sel q'
  kinds : ∀ q n, Spec.Removes sel q → host.get q = some n → ftype n.kind = .file ∨ ftype n.kind = .directory ∨ ftype n.kind = .symlink
  mounts : ∀ q n m, Spec.Removes sel q → host.get q = some n → ftype n.kind = .directory → host.get q.dropLast = some m → m.dev = n.dev
  once : sel.Pairwise (fun e e' => e.op = .remove → e'.op = .remove → e.dest ≠ e'.dest)
  parent : ∀ e ∈ sel, Spec.IsSet e →
    (∃ e' ∈ sel, Spec.IsSet e' ∧ e'.dest = e.dest.dropLast ∧ ∃ s, e'.staged = some s ∧ ftype s.node.kind = .directory) ∨
    ((∃ n, host.get e.dest.dropLast = some n ∧ ftype n.kind = .directory) ∧ ¬ Spec.Removes sel e.dest.dropLast ∧ ∀ e' ∈ sel, Spec.IsSet e' → e'.dest ≠ e.dest.dropLast)
  place : ∀ e ∈ sel, Spec.IsSet e → ∀ s k, e.staged = some s → host.get e.dest = some k → ¬ Spec.Removes sel e.dest →
    (ftype k.kind = .directory ↔ ftype s.node.kind = .directory)

section
variable {env : Env} {st : State}

/-- A selected removal: source and destination are the host path, with the node that is there. -/
theorem remove_entry (ho : Spec.Ordinary env st) {e : Entry} (he : e ∈ selected env st) (hr : e.op = .remove) :
    ∃ n, e.source = some ⟨e.dest, n⟩ ∧ st.lower.get e.dest = some n ∧ e.dest ≠ [] := by
  obtain ⟨h1, h2, h3⟩ := ho.plain.dest e he
  obtain ⟨n, hn, hg⟩ := remove_source ho.wf (mem_selected he) hr h1 (noLinkAbove_of_ftype h3)
  exact ⟨n, hn, hg, h2⟩

theorem removeOps_filter (l : List Entry) : removeOps (l.filter (fun e => e.op = .remove)) = removeOps l := by
  unfold removeOps
  induction l with
  | nil => rfl
  | cons e r ih =>
    rw [List.filter_cons]
    split
    · next h => rw [List.flatMap_cons, List.flatMap_cons, ih]
    · next h =>
      rw [List.flatMap_cons, ih]
      have : e.op ≠ .remove := by simpa using h
      cases ho : e.op <;> simp_all

/-- Accept succeeds if all its passes do. -/
theorem accept_of_run (hu : st.upper.WF) (hd : Spec.OneDevice st.upper) (hne : selected env st ≠ []) (hpre : pretendCheck env st (selected env st) = none)
    {st1 : State} (h1 : run (applyPlan env (selected env st)) st = (st1, none)) (hu1 : st1.upper = st.upper) : (accept env st).error = none := by
  have hclean : (run (cleanOps (realOrders env (selected env st)).2.2) st1).2 = none := by
    refine (clean_run (cleanPaths (realOrders env (selected env st)).2.2) st1 (by rw [hu1]; exact hu) (cleanPaths_strict _) (fun p hp => ?_)).2 ?_ (by rw [hu1]; exact hd)
    · obtain ⟨e, he, _, s, hs, rfl⟩ := mem_cleanPaths_c5.1 hp
      exact (changes_staged (mem_selected he) hs).2
    · intro p hp
      obtain ⟨e, he, _, s, hs, rfl⟩ := mem_cleanPaths_c5.1 hp
      exact ⟨_, by rw [hu1]; exact (changes_staged (mem_selected he) hs).1⟩
  have hne' : matching env.glob env.cwd env.patterns (changes env st) ≠ [] := hne
  have hpre' : pretendCheck env st (matching env.glob env.cwd env.patterns (changes env st)) = none := hpre
  have hplan : (run (plan env (matching env.glob env.cwd env.patterns (changes env st))) st).2 = none := by
    unfold plan
    rw [run_append]
    have : run (applyPlan env (matching env.glob env.cwd env.patterns (changes env st))) st = (st1, none) := h1
    rw [this]
    exact hclean
  simp only [accept, if_neg hne', hpre']
  exact hplan

theorem feasible_ok (ho : Spec.Ordinary env st) (hu : st.upper.WF) (hd : Spec.OneDevice st.upper) (hf : Spec.Feasible st.lower (selected env st)) :
    (accept env st).error = none := by
  by_cases hne : selected env st = []
  · have hne' : matching env.glob env.cwd env.patterns (changes env st) = [] := hne
    simp [accept, hne']
  have hR := ho.ready
  -- removals of an order of the selection
  have hF : ∀ {l : List Entry}, (∀ e ∈ l, From (selected env st) e) → ∀ e ∈ l, e.op = .remove → ∃ n, e.source = some ⟨e.dest, n⟩ ∧
      st.lower.get e.dest = some n ∧ n.supported = true ∧ e.dest ≠ [] ∧ (n.isDir = true → ∀ m, st.lower.get e.dest.dropLast = some m → m.dev = n.dev) := by
    intro l hl e he hop
    obtain ⟨e0, h0, hcore⟩ := hl e he
    obtain ⟨g1, g2, g3, g4⟩ := core_op hcore
    rw [g1] at hop
    obtain ⟨n, h1, h2, h3⟩ := remove_entry ho h0 hop
    have hRm : Spec.Removes (selected env st) e0.dest := ⟨e0, h0, hop, _, h1, rfl⟩
    rw [g2, g3]
    exact ⟨n, h1, h2, supported_of_ftype (hf.kinds _ n hRm h2), h3, fun hd m hm => hf.mounts _ n m hRm h2 (ftype_dir_of hd) hm⟩
  have hops : ∀ {l : List Entry}, (∀ e ∈ l, From (selected env st) e) → ∀ e ∈ l, e.op = .remove ∨ Spec.IsSet e := by
    intro l hl e he
    obtain ⟨e0, h0, hcore⟩ := hl e he
    obtain ⟨g1, g2, g3, g4⟩ := core_op hcore
    have := hf.ops e0 h0
    unfold Spec.IsSet at *
    rw [g1]; exact this
  have hnr : ∀ {l : List Entry}, (∀ e ∈ l, From (selected env st) e) → ∀ e ∈ l, e.op ≠ .rename := by
    intro l hl e he hr
    rcases hops hl e he with h | ⟨t, h⟩ <;> rw [hr] at h <;> cases h
  have hpre : pretendCheck env st (selected env st) = none := by
    unfold pretendCheck
    have h1 : checkRemoves (stableSort byReverseSource (selected env st)) = none := by
      refine checkRemoves_none.2 (fun e he hop => ?_)
      obtain ⟨n, hs, _, hk, _⟩ := hF (From.sort (fun e he => From.of_mem he)) e he hop
      refine ⟨_, hs, ?_⟩
      unfold Node.supported at hk
      revert hk; cases n.isReg <;> cases n.isDir <;> cases n.isLnk <;> simp
    have hF2 : ∀ e ∈ assignTmps env 0 (stableSort byReverseSource (stableSort byReverseSource (selected env st))), From (selected env st) e :=
      From.assign (From.sort (From.sort (fun e he => From.of_mem he)))
    have h2 : checkRenames st.lower (assignTmps env 0 (stableSort byReverseSource (stableSort byReverseSource (selected env st)))) = none :=
      checkRenames_none.2 (fun e he h => absurd h (hnr hF2 e he))
    have h3 := checkApply_none.2 (fun e he => by
      have hF3 := From.sort (le := byDestination) hF2
      refine ⟨(fun x h => ?_), (fun t h => ?_)⟩
      · rcases hops hF3 e he with h' | ⟨t, h'⟩ <;> rw [h] at h' <;> cases h'
      · obtain ⟨e0, h0, hcore⟩ := hF3 e he
        obtain ⟨g1, g2, g3, g4⟩ := core_op hcore
        obtain ⟨s, hs, hsup, _⟩ := hR.staged e0 h0 ⟨t, g1 ▸ h⟩
        refine ⟨s, g4.trans hs, ?_⟩
        unfold Node.supported at hsup
        revert hsup; cases s.node.isReg <;> cases s.node.isDir <;> cases s.node.isLnk <;> simp)
    simp only [h1, h2]
    exact h3
  have hM : premoveOps (realOrders env (selected env st)).2.1 = [] := by
    unfold premoveOps
    refine List.flatMap_eq_nil_iff.2 (fun e he => ?_)
    have := hnr from_c4 e he
    cases hx : e.op <;> simp_all
  have hRun : (run (removeOps (realOrders env (selected env st)).1) st).2 = none := by
    rw [← removeOps_filter]
    have hmem : ∀ {e : Entry}, e ∈ (realOrders env (selected env st)).1.filter (fun e => e.op = .remove) → e ∈ (realOrders env (selected env st)).1 ∧ e.op = .remove := by
      intro e he
      obtain ⟨h1, h2⟩ := List.mem_filter.1 he
      exact ⟨h1, by simpa using h2⟩
    refine removes_run _ st ho.wf (fun e he => ⟨(hmem he).2, hF from_c3 e (hmem he).1 (hmem he).2⟩) ?_ ?_
    · have h1 : (realOrders env (selected env st)).1.Pairwise (fun e e' => e.op = .remove → e'.op = .remove → e.dest ≠ e'.dest) := by
        have hc : ((selected env st).map Entry.core).Pairwise (fun e e' => e.op = .remove → e'.op = .remove → e.dest ≠ e'.dest) := by
          rw [List.pairwise_map]; exact hf.once
        have := (core_c3 env (selected env st)).symm.pairwise hc (fun {x y} h a b e => h b a e.symm)
        rw [List.pairwise_map] at this
        exact this
      refine List.Pairwise.imp_of_mem ?_ (((desc_c3 env (selected env st)).and h1).filter (fun e => e.op = .remove))
      intro a b ha hb h
      obtain ⟨ha1, ha2⟩ := hmem ha
      obtain ⟨hb1, hb2⟩ := hmem hb
      obtain ⟨n, hs, _⟩ := hF from_c3 a ha1 ha2
      obtain ⟨n', hs', _⟩ := hF from_c3 b hb1 hb2
      have h2 := h.1
      unfold byReverseSource at h2
      rw [hs, hs'] at h2
      exact ⟨by simpa using h2, h.2 ha2 hb2⟩
    · intro e he q hq hpre
      obtain ⟨he1, he2⟩ := hmem he
      obtain ⟨e0, h0, hcore⟩ := from_c3 e he1
      obtain ⟨g1, g2, g3, g4⟩ := core_op hcore
      rw [g1] at he2
      obtain ⟨n, h1, _⟩ := remove_entry ho h0 he2
      obtain ⟨e1, h1, hop1, s, hs, rfl⟩ := hf.closed e0.dest q ⟨e0, h0, he2, _, h1, rfl⟩ hq (by rw [← g2]; exact hpre)
      obtain ⟨e', he', hcore'⟩ := mem_of_From (core_c3 env (selected env st)) h1
      obtain ⟨k1, k2, k3, k4⟩ := core_op hcore'
      obtain ⟨n1, hn1, _⟩ := remove_entry ho h1 hop1
      rw [hn1] at hs; cases hs
      exact ⟨e', List.mem_filter.2 ⟨he', by simp [k1, hop1]⟩, k2⟩
  obtain ⟨st1, h1⟩ : ∃ st1, run (removeOps (realOrders env (selected env st)).1) st = (st1, none) := ⟨(run (removeOps (realOrders env (selected env st)).1) st).1, by rw [← hRun]⟩
  have h2 : run (premoveOps (realOrders env (selected env st)).2.1) st1 = (st1, none) := by rw [hM]; rfl
  have hu1 := upper_R h1
  obtain ⟨hA, hcw⟩ := afterRM_run hR.good h1 h2
  have hlk := hA.links (fun _ h => h)
  have hp := plain_A hR.good hlk
  have hi := ainv_start hR h1 h2
  -- the host after the removals
  have hget : ∀ q, (Removed (selected env st) q → st1.lower.get q = none) ∧ (¬ Removed (selected env st) q → st1.lower.get q = st.lower.get q) := by
    intro q
    have e1 := phaseR_run (plain_R hR.good) (fun _ h => h) (fun op hop => by
      obtain ⟨e, _, s, _, _, h⟩ := opFrom_remove hop; exact ⟨_, h⟩) hR.good.wf (fun q h => .init h) h1 q
    rw [gone_removeOps] at e1
    exact e1
  have hA2 : (run (applyOps env 0 (realOrders env (selected env st)).2.2) st1).2 = none := by
    refine phaseA_ok hR.good hp (alist_c5 hR hu1) hi (ascending_c5 ho.distinct) (fun _ h => h) ⟨hnr from_c5, ?_, ?_⟩
    · intro e he hset
      obtain ⟨e0, h0, hcore⟩ := from_c5 e he
      obtain ⟨g1, g2, g3, g4⟩ := core_op hcore
      have hset0 : Spec.IsSet e0 := by unfold Spec.IsSet at *; rw [← g1]; exact hset
      rw [g2]
      rcases hf.parent e0 h0 hset0 with ⟨e', he', hset', hd', s, hs, hsd⟩ | ⟨⟨n, hn, hnd⟩, hnrm, hno⟩
      · left
        obtain ⟨e2, he2, hcore2⟩ := mem_of_From (core_c5 env (selected env st)) he'
        obtain ⟨k1, k2, k3, k4⟩ := core_op hcore2
        refine ⟨e2, he2, by unfold Spec.IsSet at *; rw [k1]; exact hset', k2.trans hd', fun s' hs' => ?_⟩
        rw [k4, hs] at hs'; cases hs'
        exact isDir_of_ftype hsd
      · right
        refine ⟨FS.isDirAt_iff.2 ⟨n, by rw [(hget _).2 hnrm]; exact hn, isDir_of_ftype hnd⟩, fun e' he' hset' => ?_⟩
        obtain ⟨e2, he2, hset2, hd2, _⟩ := set_of_c5 he' hset'
        rw [← hd2]
        exact hno e2 he2 hset2
    · intro e he hset s k hs hk
      obtain ⟨e0, h0, hset0, hd0, hs0⟩ := set_of_c5 he hset
      by_cases hrm : Spec.Removes (selected env st) e.dest
      · rw [(hget _).1 hrm] at hk; cases hk
      · rw [(hget _).2 hrm] at hk
        have := hf.place e0 h0 hset0 s k (hs0.trans hs) (by rw [hd0]; exact hk) (by rw [hd0]; exact hrm)
        rw [← isDir_ftype, ← isDir_ftype] at this
        exact Bool.eq_iff_iff.2 this
  refine accept_of_run hu hd hne hpre (st1 := (run (applyOps env 0 (realOrders env (selected env st)).2.2) st1).1) ?_ ?_
  · show run (removeOps (realOrders env (selected env st)).1 ++ premoveOps (realOrders env (selected env st)).2.1 ++ applyOps env 0 (realOrders env (selected env st)).2.2) st = _
    rw [hM, List.append_nil, run_append, h1]
    simp only
    rw [← hA2]
  · have hcl : ∀ op ∈ applyOps env 0 (realOrders env (selected env st)).2.2, op.isClean = false := by
      generalize (realOrders env (selected env st)).2.2 = l
      generalize 0 = i
      induction l generalizing i with
      | nil => intro op h; cases h
      | cons e r ih =>
        intro op h
        rw [applyOps_cons] at h
        rcases List.mem_append.1 h with h | h
        · exact blockOps_noClean env i e op h
        · exact ih _ op h
    have := run_upper hcl st1
    rw [this, hu1]

/-- The order of removals, as a list of entries of the selection. -/
theorem feasible_of_ok (ho : Spec.Ordinary env st) (hnr : ∀ e ∈ selected env st, e.op ≠ .rename) (hok : (accept env st).error = none) :
    Spec.Feasible st.lower (selected env st) := by
  by_cases hne : selected env st = []
  · rw [hne]
    exact ⟨by simp, fun q q' ⟨_, h, _⟩ => by simp at h, fun q n ⟨_, h, _⟩ => by simp at h, fun q n m ⟨_, h, _⟩ => by simp at h, .nil, by simp, by simp⟩
  have hR := ho.ready
  obtain ⟨hpre, stf, hrun, _, _⟩ := accept_ok hok hne
  obtain ⟨st1, st2, h1, h2, h3⟩ := run_phases hrun
  have hnr' : ∀ {l : List Entry}, (∀ e ∈ l, From (selected env st) e) → ∀ e ∈ l, e.op ≠ .rename := by
    intro l hl e he hr
    obtain ⟨e0, h0, hcore⟩ := hl e he
    exact hnr e0 h0 ((core_op hcore).1 ▸ hr)
  have hM : premoveOps (realOrders env (selected env st)).2.1 = [] := by
    unfold premoveOps
    refine List.flatMap_eq_nil_iff.2 (fun e he => ?_)
    have := hnr' from_c4 e he
    cases hx : e.op <;> simp_all
  have h2' := h2
  rw [hM] at h2'
  simp only [run, Prod.mk.injEq, and_true] at h2'
  subst h2'
  have hu1 := upper_R h1
  obtain ⟨hA, hcw⟩ := afterRM_run hR.good h1 h2
  have hp := plain_A hR.good (hA.links (fun _ h => h))
  have hi := ainv_start hR h1 h2
  have hfits := phaseA_conv hR.good hp (alist_c5 hR hu1) hi (ascending_c5 ho.distinct) (fun _ h => h) (hnr' from_c5) h3
  have hget : ∀ q, (Removed (selected env st) q → st1.lower.get q = none) ∧ (¬ Removed (selected env st) q → st1.lower.get q = st.lower.get q) := by
    intro q
    have e1 := phaseR_run (plain_R hR.good) (fun _ h => h) (fun op hop => by
      obtain ⟨e, _, s, _, _, h⟩ := opFrom_remove hop; exact ⟨_, h⟩) hR.good.wf (fun q h => .init h) h1 q
    rw [gone_removeOps] at e1
    exact e1
  -- kinds of what is removed
  have hkinds : ∀ e ∈ selected env st, e.op = .remove → ∀ s, e.source = some s → s.node.supported = true := by
    intro e he hop s hs
    unfold pretendCheck at hpre
    simp only at hpre
    split at hpre
    · cases hpre
    · next hcr =>
      obtain ⟨s', hs', hk⟩ := checkRemoves_none.1 hcr e (mem_stableSort.2 he) hop
      rw [hs] at hs'; cases hs'
      unfold Node.supported
      revert hk; cases s.node.isReg <;> cases s.node.isDir <;> cases s.node.isLnk <;> simp
  -- the removal pass
  have hmem : ∀ {e : Entry}, e ∈ (realOrders env (selected env st)).1.filter (fun e => e.op = .remove) → e ∈ (realOrders env (selected env st)).1 ∧ e.op = .remove := by
    intro e he
    obtain ⟨h1, h2⟩ := List.mem_filter.1 he
    exact ⟨h1, by simpa using h2⟩
  have hc3 : ∀ e0 ∈ selected env st, e0.op = .remove → ∃ e ∈ (realOrders env (selected env st)).1.filter (fun e => e.op = .remove), e.dest = e0.dest := by
    intro e0 h0 hop
    obtain ⟨e', he', hcore'⟩ := mem_of_From (core_c3 env (selected env st)) h0
    obtain ⟨k1, k2, k3, k4⟩ := core_op hcore'
    exact ⟨e', List.mem_filter.2 ⟨he', by simp [k1, hop]⟩, k2⟩
  have hrem : ∀ q, Spec.Removes (selected env st) q → ∃ e ∈ selected env st, e.op = .remove ∧ e.dest = q ∧ ∃ n, e.source = some ⟨q, n⟩ ∧ st.lower.get q = some n := by
    rintro q ⟨e, he, hop, s, hs, rfl⟩
    obtain ⟨n, hn, hg, _⟩ := remove_entry ho he hop
    rw [hs] at hn; cases hn
    exact ⟨e, he, hop, rfl, n, hs, hg⟩
  obtain ⟨c1, c2, c3⟩ := removes_conv ((realOrders env (selected env st)).1.filter (fun e => e.op = .remove)) st st1 ho.wf (fun e he => by
    obtain ⟨he1, he2⟩ := hmem he
    obtain ⟨e0, h0, hcore⟩ := from_c3 e he1
    obtain ⟨g1, g2, g3, g4⟩ := core_op hcore
    obtain ⟨n, hn, hg, _⟩ := remove_entry ho h0 (g1 ▸ he2)
    obtain ⟨p1, _, p3⟩ := ho.plain.dest e0 h0
    rw [g2, g3]
    exact ⟨he2, p1, noLinkAbove_of_ftype p3, n, hn, hkinds e0 h0 (g1 ▸ he2) _ hn, fun k hk => by rw [hg] at hk; cases hk; rfl⟩) (by rw [removeOps_filter]; exact h1)
  refine ⟨fun e he => ?_, fun q q' hq hq' hpre => ?_, fun q n hq hn => ?_, fun q n m hq hn hd hm => ?_, ?_, fun e he hset => ?_, fun e he hset s k hs hk hrm => ?_⟩
  · cases hop : e.op with
    | remove => exact Or.inl rfl
    | rename => exact absurd hop (hnr e he)
    | set t => exact Or.inr ⟨t, hop⟩
    | error x => exact absurd hop (no_error_selected hok he x)
  · obtain ⟨e, he, hop, rfl, _⟩ := hrem q hq
    obtain ⟨e1, he1, hd1⟩ := hc3 e he hop
    obtain ⟨e2, he2, rfl⟩ := c3 e1 he1 q' hq' (by rw [hd1]; exact hpre)
    obtain ⟨he2, hop2⟩ := hmem he2
    obtain ⟨e0, h0, hcore⟩ := from_c3 e2 he2
    obtain ⟨g1, g2, g3, g4⟩ := core_op hcore
    obtain ⟨n, hn, _⟩ := remove_entry ho h0 (g1 ▸ hop2)
    exact ⟨e0, h0, g1 ▸ hop2, _, hn, g2.symm⟩
  · obtain ⟨e, he, hop, rfl, k, hk, hg⟩ := hrem q hq
    rw [hn] at hg; cases hg
    have := hkinds e he hop _ hk
    unfold Node.supported Node.isReg Node.isDir Node.isLnk at this
    cases hkk : n.kind <;> simp_all [Spec.ftype, Kind.isReg, Kind.isLnk]
  · obtain ⟨e, he, hop, rfl, _⟩ := hrem q hq
    obtain ⟨e1, he1, hd1⟩ := hc3 e he hop
    obtain ⟨k, hk, hkd⟩ := c2 e1 he1
    rw [hd1, hn] at hk; cases hk
    exact hkd (isDir_of_ftype hd) m (by rw [hd1]; exact hm)
  · have hx : (realOrders env (selected env st)).1.Pairwise (fun e e' => e.op = .remove → e'.op = .remove → e.dest ≠ e'.dest) := by
      rw [List.pairwise_filter] at c1
      exact c1.imp (fun h a b => h (by simpa using a) (by simpa using b))
    have hc : ((realOrders env (selected env st)).1.map Entry.core).Pairwise (fun e e' => e.op = .remove → e'.op = .remove → e.dest ≠ e'.dest) := by
      rw [List.pairwise_map]; exact hx
    have := (core_c3 env (selected env st)).pairwise hc (fun {x y} h a b e => h b a e.symm)
    rw [List.pairwise_map] at this
    exact this
  · obtain ⟨e', he', hcore'⟩ := mem_of_From (core_c5 env (selected env st)) he
    obtain ⟨k1, k2, k3, k4⟩ := core_op hcore'
    have hset' : Spec.IsSet e' := by unfold Spec.IsSet at *; rw [k1]; exact hset
    rw [← k2]
    rcases hfits.parent e' he' hset' with ⟨e2, he2, hset2, hd2, hs2⟩ | ⟨g1, g2⟩
    · left
      obtain ⟨e3, he3, hset3, hd3, hs3⟩ := set_of_c5 he2 hset2
      obtain ⟨s, hs, _⟩ := hR.staged e3 he3 hset3
      exact ⟨e3, he3, hset3, hd3.trans hd2, s, hs, ftype_dir_of (hs2 s (hs3 ▸ hs))⟩
    · right
      obtain ⟨n, hn, hnd⟩ := FS.isDirAt_iff.1 g1
      have hnrm : ¬ Spec.Removes (selected env st) e'.dest.dropLast := fun h => by rw [(hget _).1 h] at hn; cases hn
      refine ⟨⟨n, by rw [← (hget _).2 hnrm]; exact hn, ftype_dir_of hnd⟩, hnrm, fun e2 he2 hset2 => ?_⟩
      obtain ⟨e3, he3, hcore3⟩ := mem_of_From (core_c5 env (selected env st)) he2
      obtain ⟨j1, j2, j3, j4⟩ := core_op hcore3
      rw [← j2]
      exact g2 e3 he3 (by unfold Spec.IsSet at *; rw [j1]; exact hset2)
  · obtain ⟨e', he', hcore'⟩ := mem_of_From (core_c5 env (selected env st)) he
    obtain ⟨k1, k2, k3, k4⟩ := core_op hcore'
    have hset' : Spec.IsSet e' := by unfold Spec.IsSet at *; rw [k1]; exact hset
    have := hfits.place e' he' hset' s k (k4.trans hs) (by rw [k2, (hget _).2 hrm]; exact hk)
    rw [← isDir_ftype, ← isDir_ftype, this]

end

/-- **C85**: accepting changes without renames succeeds exactly if the changes can be carried out (`Spec.Feasible`); no other circumstance, and no order in which the file
systems enumerate their files, makes it fail half-way.
Missing: selections with renamed directories (for them `C85_moves_partial`); symbolic links in the way; storage spread over several file systems. -/
theorem C85_succeeds_partial (env : Env) (st : State) (ho : Spec.Ordinary env st) (hu : st.upper.WF) (hd : Spec.OneDevice st.upper)
    (hnr : ∀ e ∈ selected env st, e.op ≠ .rename) :
    (accept env st).error = none ↔ Spec.Feasible st.lower (selected env st) :=
  ⟨feasible_of_ok ho hnr, feasible_ok ho hu hd⟩

end SB
