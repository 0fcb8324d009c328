import Verif.Lib.RemovePass
import Verif.Props.AcceptScope
import Verif.Model.Glob

/-!
# C08: accepting removals deletes whole trees, children first
-/

namespace SB

open scoped List

/-- The changes are a set of removals of files, directories and links that an unchanged host can perform: with every directory everything below it is removed too,
no directory is a mount point, and nothing is listed twice. -/
structure Spec.ClosedRemovals (host : FS) (sel : List Entry) : Prop where
  removals : ∀ e ∈ sel, e.op = .remove
  closed : ∀ q q', Spec.Removes sel q → q' ∈ host.keys → q <+: q' → Spec.Removes sel q'
  kinds : ∀ q n, Spec.Removes sel q → host.get q = some n → ftype n.kind = .file ∨ ftype n.kind = .directory ∨ ftype n.kind = .symlink
  mounts : ∀ q n m, Spec.Removes sel q → host.get q = some n → ftype n.kind = .directory → host.get q.dropLast = some m → m.dev = n.dev
  once : sel.Pairwise (fun e e' => e.dest ≠ e'.dest)

theorem supported_of_ftype {n : Node} (h : Spec.ftype n.kind = .file ∨ Spec.ftype n.kind = .directory ∨ Spec.ftype n.kind = .symlink) : n.supported = true := by
  unfold Node.supported Node.isReg Node.isDir Node.isLnk
  cases hk : n.kind <;> simp_all [Spec.ftype, Kind.isReg, Kind.isLnk]

theorem ftype_dir_of {n : Node} (h : n.isDir = true) : Spec.ftype n.kind = .directory := by
  unfold Node.isDir at h; simp at h; rw [h]; rfl

/-- Removals as entries: source and destination are the host path, with the node that is there. -/
theorem removes_entries {env : Env} {st : State} (ho : Spec.Ordinary env st) (hr : ∀ e ∈ selected env st, e.op = .remove) :
    ∀ e ∈ selected env st, ∃ n, e.source = some ⟨e.dest, n⟩ ∧ st.lower.get e.dest = some n ∧ e.dest ≠ [] := by
  intro e he
  obtain ⟨h1, h2, h3⟩ := ho.plain.dest e he
  obtain ⟨n, hn, hg⟩ := remove_source ho.wf (mem_selected he) (hr e he) h1 (noLinkAbove_of_ftype h3)
  exact ⟨n, hn, hg, h2⟩

open Classical in
/-- **C08 (partial)**: accepting a closed set of removals succeeds, removes exactly those paths and keeps every other path, whatever order the file systems enumerate
(the order of the state's lists is arbitrary).
Missing: sets that list a path twice, which the program produces for some re-created directories and which fail half-way (`C08_refuted_duplicate`); mount points;
host symbolic links above the removed paths. -/
theorem C08_removals_partial (env : Env) (st : State) (ho : Spec.Ordinary env st) (hu : st.upper.WF) (hd : Spec.OneDevice st.upper)
    (hc : Spec.ClosedRemovals st.lower (selected env st)) :
    (accept env st).error = none ∧
    ∀ q, (accept env st).state.lower.get q = if Spec.Removes (selected env st) q then none else st.lower.get q := by
  have hent := removes_entries ho hc.removals
  by_cases hne : selected env st = []
  · have hne' : matching env.glob env.cwd env.patterns (changes env st) = [] := hne
    have h1 : accept env st = { state := st, error := none, accepted := 0, nonMatching := nonMatchingCount (changes env st) [] } := by
      simp [accept, hne']
    rw [h1]
    refine ⟨rfl, fun q => ?_⟩
    rw [if_neg]
    rintro ⟨e, he, _⟩
    rw [hne] at he; cases he
  -- every entry of an order of the selection is a removal
  have hF : ∀ {l : List Entry}, (∀ e ∈ l, From (selected env st) e) → ∀ e ∈ l, e.op = .remove ∧ ∃ n, e.source = some ⟨e.dest, n⟩ ∧
      st.lower.get e.dest = some n ∧ n.supported = true ∧ e.dest ≠ [] ∧ (n.isDir = true → ∀ m, st.lower.get e.dest.dropLast = some m → m.dev = n.dev) := by
    intro l hl e he
    obtain ⟨e0, h0, hcore⟩ := hl e he
    obtain ⟨g1, g2, g3, g4⟩ := core_op hcore
    obtain ⟨n, h1, h2, h3⟩ := hent e0 h0
    have hR : Spec.Removes (selected env st) e0.dest := ⟨e0, h0, hc.removals e0 h0, _, h1, rfl⟩
    rw [g1, g2, g3]
    exact ⟨hc.removals e0 h0, n, h1, h2, supported_of_ftype (hc.kinds _ n hR h2), h3, fun hd m hm => hc.mounts _ n m hR h2 (ftype_dir_of hd) hm⟩
  have hpre : pretendCheck env st (selected env st) = none := by
    unfold pretendCheck
    have h1 : checkRemoves (stableSort byReverseSource (selected env st)) = none := by
      refine checkRemoves_none.2 (fun e he _ => ?_)
      obtain ⟨_, n, hs, _, hk, _⟩ := hF (From.sort (fun e he => From.of_mem he)) e he
      refine ⟨_, hs, ?_⟩
      unfold Node.supported at hk
      revert hk; cases n.isReg <;> cases n.isDir <;> cases n.isLnk <;> simp
    have hF2 : ∀ e ∈ assignTmps env 0 (stableSort byReverseSource (stableSort byReverseSource (selected env st))), From (selected env st) e :=
      From.assign (From.sort (From.sort (fun e he => From.of_mem he)))
    have h2 : checkRenames st.lower (assignTmps env 0 (stableSort byReverseSource (stableSort byReverseSource (selected env st)))) = none :=
      checkRenames_none.2 (fun e he h => by rw [(hF hF2 e he).1] at h; cases h)
    have h3 := checkApply_none.2 (fun e he => by
      have := (hF (From.sort (le := byDestination) hF2) e he).1
      exact ⟨(fun x h => by rw [this] at h; cases h), (fun t h => by rw [this] at h; cases h)⟩)
    simp only [h1, h2]
    exact h3
  have hM : premoveOps (realOrders env (selected env st)).2.1 = [] := by
    unfold premoveOps
    refine List.flatMap_eq_nil_iff.2 (fun e he => ?_)
    rw [(hF from_c4 e he).1]
  have hA : ∀ (l : List Entry) (i : Nat), (∀ e ∈ l, From (selected env st) e) → applyOps env i l = [] := by
    intro l
    induction l with
    | nil => intro i _; rfl
    | cons e r ih =>
      intro i h
      unfold applyOps
      rw [(hF h e (by simp)).1, ih _ (fun e he => h e (by simp [he]))]
      cases e.staged <;> cases e.tmp <;> rfl
  have hR : (run (removeOps (realOrders env (selected env st)).1) st).2 = none := by
    refine removes_run _ st ho.wf (hF from_c3) ?_ ?_
    · have h1 : (realOrders env (selected env st)).1.Pairwise (fun e e' => e.dest ≠ e'.dest) := by
        have hm : ((selected env st).map (·.dest)).Nodup := by
          rw [List.Nodup, List.pairwise_map]; exact hc.once
        have hp : (realOrders env (selected env st)).1.map (·.dest) ~ (selected env st).map (·.dest) := by
          have := (core_c3 env (selected env st)).map (·.dest)
          simpa [List.map_map, Function.comp_def, Entry.core] using this
        have := hp.nodup_iff.2 hm
        rw [List.Nodup, List.pairwise_map] at this; exact this
      refine ((desc_c3 env (selected env st)).and h1).imp_of_mem ?_
      intro a b ha hb h
      obtain ⟨_, n, hs, _⟩ := hF from_c3 a ha
      obtain ⟨_, n', hs', _⟩ := hF from_c3 b hb
      have h2 := h.1
      unfold byReverseSource at h2
      rw [hs, hs'] at h2
      exact ⟨by simpa using h2, h.2⟩
    · intro e he q hq hpre
      obtain ⟨e0, h0, hcore⟩ := from_c3 e he
      obtain ⟨g1, g2, g3, g4⟩ := core_op hcore
      obtain ⟨n, h1, _⟩ := hent e0 h0
      obtain ⟨e1, h1, _, s, hs, rfl⟩ := hc.closed e0.dest q ⟨e0, h0, hc.removals e0 h0, _, h1, rfl⟩ hq (by rw [← g2]; exact hpre)
      obtain ⟨e', he', hcore'⟩ := mem_of_From (core_c3 env (selected env st)) h1
      obtain ⟨n1, hn1, _⟩ := hent e1 h1
      rw [hn1] at hs; cases hs
      exact ⟨e', he', (core_op hcore').2.1⟩
  have hrun : ∃ st1, run (applyPlan env (selected env st)) st = (st1, none) ∧ st1.upper = st.upper := by
    have h1 : applyPlan env (selected env st) = removeOps (realOrders env (selected env st)).1 := by
      show removeOps (realOrders env (selected env st)).1 ++ premoveOps (realOrders env (selected env st)).2.1 ++ applyOps env 0 (realOrders env (selected env st)).2.2 = _
      rw [hM, hA _ 0 from_c5]; simp
    rw [h1]
    refine ⟨(run (removeOps (realOrders env (selected env st)).1) st).1, ?_, ?_⟩
    · rw [← hR]
    · exact upper_R (st1 := (run (removeOps (realOrders env (selected env st)).1) st).1) (by rw [← hR])
  obtain ⟨st1, h1, hu1⟩ := hrun
  have hclean : (run (cleanOps (realOrders env (selected env st)).2.2) st1).2 = none := by
    refine (clean_run (cleanPaths (realOrders env (selected env st)).2.2) st1 (by rw [hu1]; exact hu) (cleanPaths_strict _) (fun p hp => ?_)).2 ?_ (by rw [hu1]; exact hd)
    · obtain ⟨e, he, _, s, hs, rfl⟩ := mem_cleanPaths_c5.1 hp
      exact (changes_staged (mem_selected he) hs).2
    · intro p hp
      obtain ⟨e, he, _, s, hs, rfl⟩ := mem_cleanPaths_c5.1 hp
      exact ⟨_, by rw [hu1]; exact (changes_staged (mem_selected he) hs).1⟩
  have herr : (accept env st).error = none := by
    have hne' : matching env.glob env.cwd env.patterns (changes env st) ≠ [] := hne
    have hpre' : pretendCheck env st (matching env.glob env.cwd env.patterns (changes env st)) = none := hpre
    have hplan : (run (plan env (matching env.glob env.cwd env.patterns (changes env st))) st).2 = none := by
      unfold plan
      rw [run_append]
      have : run (applyPlan env (matching env.glob env.cwd env.patterns (changes env st))) st = (st1, none) := h1
      rw [this]
      exact hclean
    simp only [accept, if_neg hne', hpre']
    exact hplan
  refine ⟨herr, fun q => ?_⟩
  obtain ⟨_, st2, h2, h3, _⟩ := accept_ok herr hne
  obtain ⟨hAp, _⟩ := applied_of_run ho.ready ho.distinct h2
  rw [h3]
  have hns : ∀ e ∈ selected env st, Spec.IsSet e → e.dest ≠ q := by
    rintro e he ⟨t, ht⟩
    rw [hc.removals e he] at ht; cases ht
  have hnr : ∀ s d, ¬ Spec.Renames (selected env st) s d := by
    rintro s d ⟨e, he, ht, _⟩
    rw [hc.removals e he] at ht; cases ht
  split
  · next h => exact hAp.gone q hns (fun s d h' => absurd h' (hnr s d)) (Or.inl h)
  · next h => exact hAp.kept q hns (fun s d h' => absurd h' (hnr s d)) h

theorem walkDir_nodup {fs : FS} (hw : fs.WF) (root : Path) : (fs.walkDir root).Nodup := by
  unfold FS.walkDir
  split
  · exact List.Pairwise.nil
  · next c _ =>
    have h : fs.Pairwise (fun a b => a.1 ≠ b.1) := by
      have := hw.nodup
      unfold FS.keys at this
      rw [List.Nodup, List.pairwise_map] at this
      exact this
    rw [List.Nodup, List.pairwise_filterMap]
    refine h.imp ?_
    intro a b hab x hx y hy hxy
    simp only [List.isPrefixOf_iff_prefix, Option.ite_none_right_eq_some, Option.some.injEq] at hx hy
    refine hab ?_
    rw [← hx.2, ← hy.2] at hxy
    rw [List.prefix_iff_eq_append.1 hx.1 |>.symm, List.prefix_iff_eq_append.1 hy.1 |>.symm, List.append_cancel_left hxy]

/-- The storage records deletions by whiteouts only: no renamed and no re-created (opaque) directories, whiteout attributes on non-directories only, and no stored
non-directory of one mount lies above a stored path of another mount. -/
structure Spec.WhiteoutsOnly (env : Env) (upper : FS) : Prop where
  attrs : ∀ q n, upper.get q = some n → n.redirect = none ∧ n.opq = false ∧ (n.whiteout = true → ftype n.kind ≠ .directory)
  mounts : ∀ m m' sub sub' mp mp' n, upper.get (m :: sub) = some n → ftype n.kind ≠ .directory → m' :: sub' ∈ upper.keys →
    env.decode m = some mp → env.decode m' = some mp' → sub' ≠ [] → mp ++ sub <+: mp' ++ sub' → m = m'

/-- No two changes remove the same path, if deletions are recorded by whiteouts only. -/
theorem C08_removals_once (env : Env) (st : State) (hl : st.lower.WF) (hu : st.upper.WF) (hx : Spec.WhiteoutsOnly env st.upper) :
    (changes env st).Pairwise (fun e e' => e.op = .remove → e'.op = .remove → e.dest ≠ e'.dest) := by
  -- what one stored path removes
  have key : ∀ ue ∈ upperEntries env st, ∀ e ∈ removesOf st (renamedPaths (upperEntries env st)) ue, ∃ m mp sub, IsUpper env st ue m mp sub ∧
      ue.node.isDir = false ∧ mp ++ sub <+: e.dest := by
    intro ue hue e he
    obtain ⟨m, mp, sub, _, hi⟩ := mem_upperEntries hue
    obtain ⟨sp, hsp, _, hcond, _, h, _⟩ := mem_removesOf he
    obtain ⟨h1, h2, h3⟩ := hx.attrs _ _ hi.node
    refine ⟨m, mp, sub, hi, ?_, ?_⟩
    · rcases hcond with h | h | h
      · rw [h2] at h; cases h
      · by_contra hd
        have hd' : ue.node.kind = .dir := by unfold Node.isDir at hd; simpa using hd
        unfold Node.isRemoved at h
        rw [hd'] at h
        exact h3 h (by rw [hd']; rfl)
      · exact h.1
    · have hs := hi.source
      rw [sourcePath_plain hu hi.node (fun q n _ hq => (hx.attrs q n hq).1), hsp] at hs
      unfold ifExists at hs
      split at hs
      · cases hs
        rcases h with ⟨_, h, _⟩ | ⟨_, h, _⟩
        · exact mem_walkDir_prefix h
        · rw [h]
      · cases hs
  unfold changes
  simp only
  rw [List.pairwise_flatMap]
  refine ⟨fun ue hue => ?_, ?_⟩
  · rw [List.pairwise_append]
    refine ⟨?_, ?_, ?_⟩
    · unfold removesOf
      split
      · exact List.Pairwise.nil
      · next sp _ =>
        split
        · split
          · exact List.Pairwise.nil
          · split
            · rw [List.pairwise_map]
              exact (walkDir_nodup hl sp).imp (fun h _ _ => h)
            · exact List.pairwise_singleton _ _
        · exact List.Pairwise.nil
    · by_cases hr : ue.node.isRemoved = true
      · unfold setsOf; rw [if_pos hr]; exact List.Pairwise.nil
      · obtain ⟨e, he⟩ := setsOf_singleton (st := st) (by simpa using hr : ue.node.isRemoved = false)
        rw [he]; exact List.pairwise_singleton _ _
    · intro e _ e' he' _ ho
      obtain ⟨_, _, _, _, _, h⟩ := mem_setsOf he'
      rw [ho] at h; simp at h
  · have hn : (upperEntries env st).Pairwise (fun a b => a.upperPath ≠ b.upperPath) := by
      have := (upperEntries_paths env st).nodup hu.nodup
      rw [List.Nodup, List.pairwise_map] at this
      exact this
    refine hn.imp_of_mem ?_
    intro a b ha hb hab e he e' he' ho ho' hd
    have h1 : e ∈ removesOf st (renamedPaths (upperEntries env st)) a := by
      rcases List.mem_append.1 he with h | h
      · exact h
      · obtain ⟨_, _, _, _, _, h⟩ := mem_setsOf h; rw [ho] at h; simp at h
    have h2 : e' ∈ removesOf st (renamedPaths (upperEntries env st)) b := by
      rcases List.mem_append.1 he' with h | h
      · exact h
      · obtain ⟨_, _, _, _, _, h⟩ := mem_setsOf h; rw [ho'] at h; simp at h
    obtain ⟨m, mp, sub, hi, hnd, hp⟩ := key a ha e h1
    obtain ⟨m', mp', sub', hi', hnd', hp'⟩ := key b hb e' h2
    have hft : ∀ n : Node, n.isDir = false → Spec.ftype n.kind ≠ .directory := by
      intro n hn h
      unfold Node.isDir at hn
      cases hk : n.kind <;> simp_all [Spec.ftype]
    have fin : ∀ {a b : UpperEntry} {m m' : Name} {mp sub mp' sub' : Path}, IsUpper env st a m mp sub → IsUpper env st b m' mp' sub' → a.node.isDir = false →
        a.upperPath ≠ b.upperPath → ¬ mp ++ sub <+: mp' ++ sub' := by
      intro a b m m' mp sub mp' sub' hi hi' hnd hab hp
      have hm : m = m' := hx.mounts m m' sub sub' mp mp' _ hi.node (hft _ hnd) (FS.mem_keys.2 ⟨_, hi'.node⟩) hi.decode hi'.decode hi'.sub_ne hp
      subst hm
      have hmp : mp = mp' := Option.some.inj (hi.decode.symm.trans hi'.decode)
      subst hmp
      rw [List.prefix_append_right_inj] at hp
      have hb : Below (m :: sub) (m :: sub') := below_iff.2 ⟨List.cons_prefix_cons.2 ⟨rfl, hp⟩, fun h => hab (by rw [hi.upperPath, hi'.upperPath, h])⟩
      have := hu.no_child hi.node hnd hb
      rw [hi'.node] at this; cases this
    rw [hd] at hp
    rcases prefix_total hp hp' with h | h
    · exact fin hi hi' hnd hab h
    · exact fin hi' hi hnd' (Ne.symm hab) h

open Classical in
/-- C08 when deletions are recorded by whiteouts only: nothing is listed twice, so any closed selection of removals (files, directories and links, no mount points)
is carried out completely. -/
theorem C08_whiteouts_partial (env : Env) (st : State) (ho : Spec.Ordinary env st) (hu : st.upper.WF) (hd : Spec.OneDevice st.upper)
    (hx : Spec.WhiteoutsOnly env st.upper) (hr : ∀ e ∈ selected env st, e.op = .remove)
    (hcl : ∀ q q', Spec.Removes (selected env st) q → q' ∈ st.lower.keys → q <+: q' → Spec.Removes (selected env st) q')
    (hk : ∀ q n, Spec.Removes (selected env st) q → st.lower.get q = some n →
      Spec.ftype n.kind = .file ∨ Spec.ftype n.kind = .directory ∨ Spec.ftype n.kind = .symlink)
    (hm : ∀ q n m, Spec.Removes (selected env st) q → st.lower.get q = some n → Spec.ftype n.kind = .directory → st.lower.get q.dropLast = some m → m.dev = n.dev) :
    (accept env st).error = none ∧
    ∀ q, (accept env st).state.lower.get q = if Spec.Removes (selected env st) q then none else st.lower.get q := by
  refine C08_removals_partial env st ho hu hd ⟨hr, hcl, hk, hm, ?_⟩
  have := (C08_removals_once env st ho.wf hu hx).sublist (show (selected env st).Sublist (changes env st) from List.filter_sublist)
  exact this.imp_of_mem (fun ha hb h => h (hr _ ha) (hr _ hb))

/-! Non-vacuity: the host tree `/d/{f, s/{x → ../f, t/y}}`, listed in an arbitrary order; `/d/s` was deleted in the sandbox. -/

def exRmHost : FS :=
  [ ([str "d", str "s", str "t", str "y"], { kind := .reg (str "y") }), ([str "d", str "s"], { kind := .dir }), ([], { kind := .dir }),
    ([str "d", str "s", str "x"], { kind := .lnk (str "../f") }), ([str "d"], { kind := .dir }),
    ([str "d", str "s", str "t"], { kind := .dir }), ([str "d", str "f"], { kind := .reg (str "f") }) ]
def exRmUpper : FS := [ ([], { kind := .dir }), ([str "F4"], { kind := .dir }), ([str "F4", str "d"], { kind := .dir }), ([str "F4", str "d", str "s"], { kind := .chr 0 }) ]
def exRmState : State := ⟨exRmHost, exRmUpper⟩

theorem exRm_closed : Spec.ClosedRemovals exRmState.lower (selected exEnv exRmState) := by
  have hR : ∀ q, Spec.Removes (selected exEnv exRmState) q ↔
      q ∈ ((selected exEnv exRmState).filterMap (fun e => if e.op = .remove then e.source.map (·.path) else none)) := by
    intro q
    rw [List.mem_filterMap]
    constructor
    · rintro ⟨e, he, ho, s, hs, rfl⟩; exact ⟨e, he, by rw [if_pos ho, hs]; rfl⟩
    · rintro ⟨e, he, h⟩
      split at h
      · next ho =>
        cases hs : e.source with
        | none => rw [hs] at h; cases h
        | some s => rw [hs] at h; cases h; exact ⟨e, he, ho, s, hs, rfl⟩
      · cases h
  constructor
  · decide +kernel
  · simp only [hR]
    intro q q' hq
    revert q'
    revert q
    decide +kernel
  · simp only [hR]
    intro q n hq hn
    have : ∀ q ∈ ((selected exEnv exRmState).filterMap (fun e => if e.op = .remove then e.source.map (·.path) else none)), ∀ n ∈ exRmState.lower.get q,
      Spec.ftype n.kind = .file ∨ Spec.ftype n.kind = .directory ∨ Spec.ftype n.kind = .symlink := by decide +kernel
    exact this q hq n hn
  · simp only [hR]
    intro q n m hq hn _ hm
    have : ∀ q ∈ ((selected exEnv exRmState).filterMap (fun e => if e.op = .remove then e.source.map (·.path) else none)), ∀ n ∈ exRmState.lower.get q,
      ∀ m ∈ exRmState.lower.get q.dropLast, m.dev = n.dev := by decide +kernel
    exact this q hq n hn m hm
  · decide +kernel

example : Spec.Ordinary exEnv exRmState ∧ exRmState.upper.WF ∧ Spec.OneDevice exRmState.upper ∧ (selected exEnv exRmState).length = 4 :=
  ⟨ordinary_of_check (fun _ => rfl) (fun _ => rfl) (by decide +kernel) (by decide +kernel) (by decide +kernel), by decide +kernel,
   ⟨0, fun q n h => by
      have := FS.mem_of_get h
      have h2 : ∀ e ∈ exRmUpper, e.2.dev = 0 := by decide
      exact h2 _ this⟩, by decide +kernel⟩

example : Spec.WhiteoutsOnly exEnv exRmUpper := by
  constructor
  · intro q n h
    have h2 : ∀ e ∈ exRmUpper, e.2.redirect = none ∧ e.2.opq = false ∧ (e.2.whiteout = true → Spec.ftype e.2.kind ≠ .directory) := by decide
    exact h2 _ (FS.mem_of_get h)
  · intro m m' sub sub' mp mp' n _ _ _ hm hm' _ _
    have h1 : ∀ x y, exEnv.decode x = some y → x = str "F4" := by
      intro x y h
      unfold exEnv at h
      simp only at h
      split at h
      · assumption
      · cases h
    rw [h1 _ _ hm, h1 _ _ hm']

example : (accept exEnv exRmState).error = none ∧ (accept exEnv exRmState).state.lower.keys = [[], [str "d"], [str "d", str "f"]] := by decide +kernel

/-- Host `/a/x/y`; in the sandbox: `rm -r /a; mkdir /a; touch /a/x`. -/
def exTwiceHost : FS :=
  [ ([], { kind := .dir }), ([str "a"], { kind := .dir }), ([str "a", str "x"], { kind := .dir }), ([str "a", str "x", str "y"], { kind := .reg (str "y") }) ]
def exTwiceUpper : FS :=
  [ ([], { kind := .dir }), ([str "F4"], { kind := .dir }), ([str "F4", str "a"], { kind := .dir, opq := true }), ([str "F4", str "a", str "x"], { kind := .reg [] }) ]
def exTwiceState : State := ⟨exTwiceHost, exTwiceUpper⟩
def exTwiceEnv : Env := { exEnv with cwd := [], patterns := [str "/**"] }
/-- Only what was removed below `/a/x` is selected. -/
def exTwiceEnv' : Env := { exEnv with cwd := [], patterns := [str "/a/x/*"], glob := globRef }

/-- **C08 refuted** when a directory was deleted, re-created, and a file put in place of one of its subdirectories: what was below that subdirectory is listed
twice for removal, and the second attempt fails after host files have been deleted.  Here the selected changes are just removals, closed below, of a plain file. -/
theorem C08_refuted_duplicate : exTwiceState.lower.WF ∧ exTwiceState.upper.WF ∧
    (∀ e ∈ selected exTwiceEnv' exTwiceState, e.op = .remove ∧ e.dest = [str "a", str "x", str "y"]) ∧ selected exTwiceEnv' exTwiceState ≠ [] ∧
    (accept exTwiceEnv' exTwiceState).error = some (.os .ENOENT) ∧
    (accept exTwiceEnv' exTwiceState).state.lower.get [str "a", str "x", str "y"] = none := by decide +kernel

/-- The same when everything is accepted: accept fails half-way. -/
theorem C08_refuted_duplicate_all : (accept exTwiceEnv exTwiceState).error = some (.os .ENOENT) ∧
    (accept exTwiceEnv exTwiceState).state.lower ≠ exTwiceState.lower := by decide +kernel

end SB
