import Verif.Props.Undo
import Verif.Props.Feasible
import Verif.Props.RepeatHistory

/-!
# C121: rejecting what is not wanted and accepting the rest is accepting what is wanted
-/

namespace SB

/-- The stored file or directory at `p` is of a change that is selected. -/
def Spec.Rejected (env : Env) (st : State) (p : Path) : Prop := ∃ e ∈ selected env st, ∃ s, e.staged = some s ∧ s.path = p

/-- Of the changes, exactly those are selected by `env` (the ones that are wanted) that `envR` does not reject; what vanishes with a directory that is deleted or replaced goes with the deletion. -/
structure Spec.Rest (env envR : Env) (st : State) : Prop where
  own : ∀ e ∈ changes env st, ∀ s, e.staged = some s → (e ∈ selected env st ↔ ¬ Spec.Rejected envR st s.path)
  below : ∀ e ∈ changes env st, e.staged = none → ∀ e0 ∈ changes env st, e0.op = .remove → e0.dest <+: e.dest → ∀ s, e0.staged = some s → (e ∈ selected env st ↔ ¬ Spec.Rejected envR st s.path)

theorem rejectLoop_filter : ∀ (l : List Entry) (last : Option Path) (up : FS), ∃ k : Path × Node → Bool, (rejectLoop l last up).1 = up.filter k
  | [], last, up => ⟨fun _ => true, by simp [rejectLoop]⟩
  | e :: r, last, up => by
    simp only [rejectLoop]
    split
    · exact rejectLoop_filter r last up
    · rename_i s hs
      split
      · exact rejectLoop_filter r last up
      · have del : ∀ c : Path, ∃ k : Path × Node → Bool, (rejectLoop r (some s.path) (up.del c)).1 = up.filter k := by
          intro c
          obtain ⟨k, hk⟩ := rejectLoop_filter r (some s.path) (up.del c)
          exact ⟨fun x => decide (x.1 ≠ c) && k x, by rw [hk]; unfold FS.del; rw [List.filter_filter]; congr 1; funext x; rw [Bool.and_comm]⟩
        cases hd : s.node.isDir with
        | true =>
          simp only [if_true]
          cases hx : up.rmdir s.path with
          | error e => exact ⟨fun _ => true, by simp⟩
          | ok gs =>
            obtain ⟨c, _, _, _, _, _, _, rfl⟩ := FS.rmdir_ok hx
            exact del c
        | false =>
          simp only [Bool.false_eq_true, if_false]
          cases hx : up.unlink s.path with
          | error e => exact ⟨fun _ => true, by simp⟩
          | ok gs =>
            obtain ⟨c, _, _, _, _, rfl⟩ := FS.unlink_ok hx
            exact del c

section
variable {env envR : Env} {st : State}

/-- What is left is what was not rejected, in the same order. -/
theorem reject_filter (hw : st.upper.WF) (hok : (reject envR st).2 = none) [DecidablePred (Spec.Rejected envR st)] :
    (reject envR st).1.upper = st.upper.filter (fun x => decide (¬ Spec.Rejected envR st x.1)) := by
  obtain ⟨k, hk⟩ : ∃ k : Path × Node → Bool, (reject envR st).1.upper = st.upper.filter k := rejectLoop_filter _ _ _
  have hwf : (reject envR st).1.upper.WF := by rw [← rejectUpTo_all]; exact rejectUpTo_wf hw _
  have hmem : ∀ x ∈ st.upper, (k x = true ↔ ¬ Spec.Rejected envR st x.1) := by
    intro x hx
    have hg : st.upper.get x.1 = some x.2 := FS.get_of_mem hw.nodup hx
    constructor
    · rintro h ⟨e, he, s, hs, hp⟩
      have h1 : x ∈ (reject envR st).1.upper := by rw [hk]; exact List.mem_filter.2 ⟨hx, h⟩
      have h2 := FS.get_of_mem hwf.nodup h1
      have h3 := reject_gone hw hok he hs
      rw [hp, h2] at h3
      cases h3
    · intro h
      rcases (C17_reject_keeps_host envR st).2 hw x.1 with h1 | ⟨_, e, he, s, hs, hp⟩
      · rw [hg] at h1
        have h2 := FS.mem_of_get h1
        rw [hk] at h2
        exact (List.mem_filter.1 h2).2
      · exact absurd ⟨e, he, s, hs, hp⟩ h
  rw [hk]
  refine List.filter_congr (fun x hx => ?_)
  have := hmem x hx
  by_cases h : Spec.Rejected envR st x.1
  · simp only [h, not_true_eq_false, decide_false]
    cases hkx : k x with
    | false => rfl
    | true => exact absurd h (this.1 hkx)
  · simp only [h, not_false_eq_true, decide_true]
    exact this.2 h

/-- The place in the file system that a stored path is for. -/
def listedAs (env : Env) : Path → Option (Name × Path × Path)
  | [] => none
  | m :: sub => match env.decode m with
    | none => none
    | some mp => if sub = [] then none else some (m, mp, sub)

/-- With `--ignored` every stored path below a mount point is listed. -/
theorem kept_ignored (hi : env.includeIgnored = true) (st : State) : kept env st = st.upper.keys.filterMap (listedAs env) := by
  unfold kept
  generalize ([] : IgnoreCache) = c
  generalize st.upper.keys = ks
  induction ks with
  | nil => rfl
  | cons q ks ih =>
    cases q with
    | nil => rw [keepLoop, List.filterMap_cons]; exact ih
    | cons m sub =>
      rw [keepLoop.eq_def, List.filterMap_cons]
      cases hd : env.decode m with
      | none => simpa [listedAs, hd] using ih
      | some mp =>
        by_cases hs : sub = []
        · simpa [listedAs, hd, hs] using ih
        · simp only [listedAs, hd, hs, if_false, hi, if_true, ih]

/-- One stored path, as a change. -/
def upperOf (env : Env) (st : State) (q : Path) : Option UpperEntry := (listedAs env q).bind (mkUpperEntry st)

theorem upperEntries_ignored (hi : env.includeIgnored = true) (st : State) : upperEntries env st = st.upper.keys.filterMap (upperOf env st) := by
  unfold upperEntries
  rw [kept_ignored hi, List.filterMap_filterMap]
  rfl

theorem upperOf_path {q : Path} {u : UpperEntry} (h : upperOf env st q = some u) : u.upperPath = q ∧ st.upper.get q = some u.node := by
  unfold upperOf at h
  rw [Option.bind_eq_some_iff] at h
  obtain ⟨⟨m, mp, sub⟩, h1, h2⟩ := h
  cases q with
  | nil => simp [listedAs] at h1
  | cons x r =>
    simp only [listedAs] at h1
    split at h1
    · cases h1
    · split at h1
      · cases h1
      · cases h1
        simp only [mkUpperEntry] at h2
        split at h2
        · cases h2
        · rename_i n hn
          cases h2
          exact ⟨rfl, hn⟩

/-- Nothing stored was moved. -/
def Spec.NothingMoved (st : State) : Prop := ∀ q n, st.upper.get q = some n → n.redirect = none

theorem nothingMoved_renamed (h : Spec.NothingMoved st) (env : Env) : renamedPaths (upperEntries env st) = [] := by
  unfold renamedPaths
  rw [List.filterMap_eq_nil_iff]
  intro ue hue
  obtain ⟨m, mp, sub, _, hi⟩ := mem_upperEntries hue
  rw [h _ _ hi.node]
  rfl

theorem upperOf_same {st' : State} (hl : st'.lower = st.lower) (hw : st.upper.WF) (hw' : st'.upper.WF) (hm : Spec.NothingMoved st) {q : Path}
    (hq : ∀ y, y <+: q → st'.upper.get y = st.upper.get y) : upperOf env st' q = upperOf env st q := by
  cases q with
  | nil => rfl
  | cons m sub =>
    unfold upperOf
    simp only [listedAs]
    cases env.decode m with
    | none => rfl
    | some mp =>
      simp only
      split
      · rfl
      · simp only [Option.bind_some, mkUpperEntry, hq _ (List.prefix_refl _)]
        cases hg : st.upper.get (m :: sub) with
        | none => rfl
        | some n =>
          have hg' : st'.upper.get (m :: sub) = some n := by rw [hq _ (List.prefix_refl _), hg]
          simp only [sourcePath_plain hw hg (fun q n _ h => hm q n h), sourcePath_plain hw' hg' (fun y n hy h => hm y n (by rw [← hq y hy]; exact h)), hl]

theorem setsOf_same {st' : State} (u : UpperEntry) (hq : ∀ y, y <+: u.upperPath → st'.upper.get y = st.upper.get y) : setsOf st' u = setsOf st u := by
  have : hasOpaqueAncestor st' u.upperPath = hasOpaqueAncestor st u.upperPath := by
    unfold hasOpaqueAncestor
    rw [Bool.eq_iff_iff, List.any_eq_true, List.any_eq_true]
    have h : ∀ y ∈ u.upperPath.inits.dropLast, st'.upper.get y = st.upper.get y := fun y hy => hq y ((List.mem_inits _ _).1 (List.dropLast_subset _ hy))
    exact ⟨fun ⟨y, hy, hp⟩ => ⟨y, hy, by rw [h y hy] at hp; exact hp⟩, fun ⟨y, hy, hp⟩ => ⟨y, hy, by rw [h y hy]; exact hp⟩⟩
  unfold setsOf
  rw [this]

theorem removesOf_same {st' : State} (hl : st'.lower = st.lower) (ren : List Path) (u : UpperEntry) : removesOf st' ren u = removesOf st ren u := by
  unfold removesOf
  rw [hl]

/-- What is rejected takes with it what is below. -/
theorem rejected_below (hw : st.upper.WF) (hok : (reject envR st).2 = none) {p q : Path} (h : Spec.Rejected envR st p) (hpq : p <+: q) : (reject envR st).1.upper.get q = none := by
  obtain ⟨e, he, s, hs, rfl⟩ := h
  have h0 := reject_gone hw hok he hs
  have hwf : (reject envR st).1.upper.WF := by rw [← rejectUpTo_all]; exact rejectUpTo_wf hw _
  obtain ⟨r, rfl⟩ := hpq
  by_cases hr : r = []
  · subst hr; simpa using h0
  · exact hwf.none_below h0 ⟨r, hr, rfl⟩

theorem reject_same (hw : st.upper.WF) {q : Path} (h : ¬ Spec.Rejected envR st q) : (reject envR st).1.upper.get q = st.upper.get q := by
  rcases (C17_reject_keeps_host envR st).2 hw q with h1 | ⟨_, h1⟩
  · exact h1
  · exact absurd h1 h

theorem not_rejected_above (hw : st.upper.WF) (hok : (reject envR st).2 = none) {q : Path} {n : Node} (hg : st.upper.get q = some n) (h : ¬ Spec.Rejected envR st q) {y : Path} (hy : y <+: q) :
    ¬ Spec.Rejected envR st y := by
  intro hr
  have := rejected_below hw hok hr hy
  rw [reject_same hw h, hg] at this
  cases this

theorem upperEntries_rest (hw : st.upper.WF) (hm : Spec.NothingMoved st) (hok : (reject envR st).2 = none) (hi : env.includeIgnored = true) [DecidablePred (Spec.Rejected envR st)] :
    upperEntries env (reject envR st).1 = (upperEntries env st).filter (fun u => decide (¬ Spec.Rejected envR st u.upperPath)) := by
  have hw' : (reject envR st).1.upper.WF := by rw [← rejectUpTo_all]; exact rejectUpTo_wf hw _
  rw [upperEntries_ignored hi, upperEntries_ignored hi, FS.keys, FS.keys, reject_filter hw hok]
  have hsub : ∀ x ∈ st.upper, st.upper.get x.1 = some x.2 := fun x hx => FS.get_of_mem hw.nodup hx
  generalize hup : st.upper = up at hsub
  have main : ∀ l : List (Path × Node), (∀ x ∈ l, st.upper.get x.1 = some x.2) →
      ((l.filter (fun x => decide (¬ Spec.Rejected envR st x.1))).map Prod.fst).filterMap (upperOf env (reject envR st).1) =
      ((l.map Prod.fst).filterMap (upperOf env st)).filter (fun u => decide (¬ Spec.Rejected envR st u.upperPath)) := by
    intro l
    induction l with
    | nil => intro _; rfl
    | cons x l ih =>
      intro hl
      have ih := ih (fun y hy => hl y (List.mem_cons_of_mem _ hy))
      have hx := hl x (by simp)
      rw [List.map_cons, List.filterMap_cons]
      by_cases hr : Spec.Rejected envR st x.1
      · rw [List.filter_cons_of_neg (by simp [hr]), ih]
        cases hu : upperOf env st x.1 with
        | none => rfl
        | some u =>
          simp only
          rw [List.filter_cons_of_neg]
          rw [(upperOf_path hu).1]; simp [hr]
      · rw [List.filter_cons_of_pos (by simp [hr]), List.map_cons, List.filterMap_cons,
          upperOf_same (st := st) (st' := (reject envR st).1) rfl hw hw' hm (fun y hy => reject_same hw (not_rejected_above hw hok hx hr hy)), ih]
        cases hu : upperOf env st x.1 with
        | none => rfl
        | some u =>
          simp only
          rw [List.filter_cons_of_pos]
          rw [(upperOf_path hu).1]; simp [hr]
  exact main up (fun x hx => by rw [hup]; exact hsub x hx)

/-- A directory that is deleted with what is in it is itself in the list, with the mark that is stored for it. -/
theorem removes_root {u : UpperEntry} {ren : List Path} {e : Entry} (h : e ∈ removesOf st ren u) (hs : e.staged = none) :
    ∃ e0 ∈ removesOf st ren u, e0.op = .remove ∧ e0.dest <+: e.dest ∧ e0.staged = some ⟨u.upperPath, u.node⟩ := by
  unfold removesOf at h ⊢
  cases hsp : u.sourcePath with
  | none => rw [hsp] at h; simp at h
  | some sp =>
    rw [hsp] at h
    simp only at h ⊢
    split at h
    · rename_i h1
      rw [if_pos h1]
      split at h
      · simp at h
      · rename_i h2
        rw [if_neg h2]
        split at h
        · rename_i hd
          rw [if_pos hd]
          obtain ⟨q, hq, rfl⟩ := List.mem_map.1 h
          have hself : sp ∈ st.lower.walkDir sp := by
            unfold FS.pisDir FS.stat at hd
            unfold FS.walkDir
            cases hrp : st.lower.realpath sp with
            | error e => rw [hrp] at hd; simp at hd
            | ok c =>
              rw [hrp] at hd
              simp only at hd ⊢
              cases hg : st.lower.get c with
              | none => rw [hg] at hd; simp at hd
              | some n => exact List.mem_filterMap.2 ⟨(c, n), FS.mem_of_get hg, by simp⟩
          exact ⟨_, List.mem_map.2 ⟨sp, hself, rfl⟩, rfl, mem_walkDir_prefix hq, by simp⟩
        · rw [List.mem_singleton] at h
          subst h; cases hs
    · simp at h

theorem setsOf_staged {u : UpperEntry} {e : Entry} (h : e ∈ setsOf st u) : e.staged = some ⟨u.upperPath, u.node⟩ := by
  unfold setsOf at h
  split at h
  · simp at h
  · simp only at h
    split at h
    · split at h <;> (rw [List.mem_singleton] at h; subst h; rfl)
    · split at h <;> (rw [List.mem_singleton] at h; subst h; rfl)

/-- **What is listed after a reject is what was wanted before it.** -/
theorem changes_rest (hw : st.upper.WF) (hm : Spec.NothingMoved st) (hok : (reject envR st).2 = none) (hi : env.includeIgnored = true) (hrest : Spec.Rest env envR st) :
    changes env (reject envR st).1 = selected env st := by
  classical
  have hm' : Spec.NothingMoved (reject envR st).1 := by
    intro q n h
    rcases (C17_reject_keeps_host envR st).2 hw q with h1 | ⟨h1, _⟩
    · exact hm q n (by rw [← h1]; exact h)
    · rw [h1] at h; cases h
  obtain ⟨f, hf⟩ : ∃ f : Entry → Bool, selected env st = (changes env st).filter f := ⟨_, rfl⟩
  have hmem : ∀ e ∈ changes env st, (f e = true ↔ e ∈ selected env st) := fun e he => by rw [hf, List.mem_filter]; exact ⟨fun h => ⟨he, h⟩, fun h => h.2⟩
  rw [hf]
  have hch : changes env st = (upperEntries env st).flatMap (fun u => removesOf st [] u ++ setsOf st u) := by
    unfold changes
    simp only
    rw [nothingMoved_renamed hm]
  have hch' : changes env (reject envR st).1 = (upperEntries env (reject envR st).1).flatMap (fun u => removesOf (reject envR st).1 [] u ++ setsOf (reject envR st).1 u) := by
    unfold changes
    simp only
    rw [nothingMoved_renamed hm']
  have hue : ∀ u ∈ upperEntries env st, st.upper.get u.upperPath = some u.node := by
    intro u hu
    obtain ⟨m, mp, sub, _, hi⟩ := mem_upperEntries hu
    rw [hi.upperPath]; exact hi.node
  have hall : ∀ u ∈ upperEntries env st, ∀ e ∈ removesOf st [] u ++ setsOf st u, (f e = true ↔ ¬ Spec.Rejected envR st u.upperPath) := by
    intro u hu e he
    have hec : e ∈ changes env st := by rw [hch]; exact List.mem_flatMap.2 ⟨u, hu, he⟩
    rw [hmem e hec]
    cases hs : e.staged with
    | some s =>
      have : s.path = u.upperPath := by
        rcases List.mem_append.1 he with h | h
        · obtain ⟨sp, _, _, _, _, h5, _⟩ := mem_removesOf h
          rcases h5 with ⟨_, _, _, h5⟩ | ⟨_, _, _, h5⟩
          · split at h5 <;> rw [hs] at h5 <;> cases h5; rfl
          · rw [hs] at h5; cases h5; rfl
        · have := setsOf_staged h; rw [hs] at this; cases this; rfl
      rw [← this]
      exact hrest.own e hec s hs
    | none =>
      rcases List.mem_append.1 he with h | h
      · obtain ⟨e0, h0, h1, h2, h3⟩ := removes_root h hs
        exact hrest.below e hec hs e0 (by rw [hch]; exact List.mem_flatMap.2 ⟨u, hu, List.mem_append_left _ h0⟩) h1 h2 _ h3
      · have := setsOf_staged h; rw [hs] at this; cases this
  rw [hch, hch', upperEntries_rest hw hm hok hi]
  generalize upperEntries env st = l at hall hue
  induction l with
  | nil => rfl
  | cons u l ih =>
    have ih := ih (fun v hv => hall v (List.mem_cons_of_mem _ hv)) (fun v hv => hue v (List.mem_cons_of_mem _ hv))
    have hu := hall u (by simp)
    rw [List.flatMap_cons, List.filter_append]
    by_cases hr : Spec.Rejected envR st u.upperPath
    · rw [List.filter_cons_of_neg (by simp [hr]), ih]
      have : (removesOf st [] u ++ setsOf st u).filter f = [] := by
        rw [List.filter_eq_nil_iff]
        intro e he hfe
        exact (hu e he).1 hfe hr
      rw [this, List.nil_append]
    · rw [List.filter_cons_of_pos (by simp [hr]), List.flatMap_cons, ih]
      have : (removesOf st [] u ++ setsOf st u).filter f = removesOf st [] u ++ setsOf st u := by
        rw [List.filter_eq_self]
        intro e he
        exact (hu e he).2 hr
      rw [this, removesOf_same (st := st) (st' := (reject envR st).1) rfl, setsOf_same u (fun y hy => reject_same hw (not_rejected_above hw hok (hue u (by simp)) hr hy))]

theorem assignTmps_patterns (env : Env) (ps : List Str) : ∀ (l : List Entry) (i : Nat), assignTmps { env with patterns := ps } i l = assignTmps env i l
  | [], _ => rfl
  | e :: r, i => by
    simp only [assignTmps]
    split
    · rw [assignTmps_patterns env ps r]
    · rw [assignTmps_patterns env ps r]

theorem applyOps_patterns (env : Env) (ps : List Str) : ∀ (l : List Entry) (i : Nat), applyOps { env with patterns := ps } i l = applyOps env i l
  | [], _ => rfl
  | e :: r, i => by
    simp only [applyOps]
    rw [applyOps_patterns env ps r]

theorem realOrders_patterns (env : Env) (ps : List Str) (l : List Entry) : realOrders { env with patterns := ps } l = realOrders env l := by
  unfold realOrders afterPretend
  simp only [assignTmps_patterns]

theorem applyPlan_patterns (env : Env) (ps : List Str) (l : List Entry) : applyPlan { env with patterns := ps } l = applyPlan env l := by
  unfold applyPlan
  simp only [realOrders_patterns, applyOps_patterns]

theorem pretend_patterns (env : Env) (ps : List Str) (st st' : State) (hl : st'.lower = st.lower) (l : List Entry) : pretendCheck { env with patterns := ps } st' l = pretendCheck env st l := by
  unfold pretendCheck
  simp only [assignTmps_patterns, hl]

theorem changes_patterns (env : Env) (ps : List Str) (st : State) (hi : env.includeIgnored = true) : changes { env with patterns := ps } st = changes env st := by
  have h : upperEntries { env with patterns := ps } st = upperEntries env st := by
    rw [upperEntries_ignored hi, upperEntries_ignored (env := { env with patterns := ps }) hi]
    refine List.filterMap_congr (fun q _ => ?_)
    cases q with
    | nil => rfl
    | cons m sub => rfl
  unfold changes
  simp only [h]

/-- The stored file that an operation reads is in both storages. -/
def ReadsSame (U U' : FS) : Op → Prop
  | .cp s _ => U'.get s = U.get s
  | .ln s _ => U'.get s = U.get s
  | _ => True

theorem exec_reads {L U U' : FS} {op : Op} (hc : op.isClean = false) (h : ReadsSame U U' op) :
    exec op ⟨L, U'⟩ = ({ (exec op ⟨L, U⟩).1 with upper := U' }, (exec op ⟨L, U⟩).2) := by
  have lift : ∀ r : Except Errno FS, liftLower ⟨L, U'⟩ r = ({ (liftLower ⟨L, U⟩ r).1 with upper := U' }, (liftLower ⟨L, U⟩ r).2) := fun r => by cases r <;> rfl
  cases op <;> simp only [exec, lift]
  case cp s t =>
    rw [show U'.get s = U.get s from h]
    cases U.get s with
    | none => rfl
    | some n => cases hk : n.kind <;> simp only [hk]
  case ln s t =>
    rw [show U'.get s = U.get s from h]
    cases U.get s with
    | none => rfl
    | some n => cases hk : n.kind <;> simp only [hk]
  case rmIfExists p =>
    cases L.lstat p with
    | ok n => rfl
    | error e => cases e <;> rfl
  case mkdirIfNeeded p => split <;> rfl
  case clean p => simp [Op.isClean] at hc

theorem run_reads {U U' : FS} : ∀ (ops : List Op) (L : FS), (∀ op ∈ ops, op.isClean = false ∧ ReadsSame U U' op) →
    (run ops ⟨L, U'⟩).1.lower = (run ops ⟨L, U⟩).1.lower ∧ (run ops ⟨L, U'⟩).2 = (run ops ⟨L, U⟩).2
  | [], L, _ => ⟨rfl, rfl⟩
  | op :: r, L, h => by
    obtain ⟨hc, hs⟩ := h op (by simp)
    have hu := exec_upper hc ⟨L, U⟩
    have hx := exec_reads (L := L) hc hs
    simp only [run, hx]
    cases he : exec op ⟨L, U⟩ with
    | mk s e =>
      rw [he] at hu
      cases e with
      | some e => exact ⟨rfl, rfl⟩
      | none =>
        simp only
        obtain ⟨L1, U1⟩ := s
        simp only at hu
        subst hu
        exact run_reads r L1 (fun o ho => h o (List.mem_cons_of_mem _ ho))

theorem nothingMoved_op (h : Spec.NothingMoved st) {e : Entry} (he : e ∈ changes env st) : e.op ≠ .rename := by
  unfold changes at he
  simp only at he
  obtain ⟨u, hu, he⟩ := List.mem_flatMap.1 he
  obtain ⟨m, mp, sub, _, hi⟩ := mem_upperEntries hu
  have hr := h _ _ hi.node
  rcases List.mem_append.1 he with he | he
  · obtain ⟨_, _, _, _, h4, _⟩ := mem_removesOf he
    rw [h4]; simp
  · unfold setsOf at he
    split at he
    · simp at he
    · simp only [hr, Option.isSome_none, Bool.false_eq_true, if_false] at he
      split at he <;> (rw [List.mem_singleton] at he; subst he; simp)

theorem plan_reads (hw : st.upper.WF) (hm : Spec.NothingMoved st) {U' : FS} (h : ∀ e ∈ selected env st, ∀ s, e.staged = some s → U'.get s.path = st.upper.get s.path) :
    ∀ op ∈ applyPlan env (selected env st), op.isClean = false ∧ ReadsSame st.upper U' op := by
  intro op hop
  refine ⟨applyPlan_noClean env _ op hop, ?_⟩
  unfold applyPlan at hop
  simp only [List.mem_append] at hop
  rcases hop with (hop | hop) | hop
  · obtain ⟨_, _, _, _, _, h⟩ := opFrom_remove hop
    rcases h with rfl | rfl <;> trivial
  · unfold premoveOps at hop
    obtain ⟨e, _, hop⟩ := List.mem_flatMap.1 hop
    split at hop
    · rw [List.mem_singleton] at hop; subst hop; trivial
    · simp at hop
  · obtain ⟨e, he, h1 | ⟨_, _, _, _, rfl⟩⟩ := opFrom_apply (fun e he ho => absurd ho (nothingMoved_op hm (mem_selected he))) hop
    · obtain ⟨ty, s, j, _, hs, h1⟩ := h1
      have hr := h e he s hs
      have hperm : ∀ (d : Path) (n : Node), op ∈ permOps d n → ReadsSame st.upper U' op := by
        intro d n hh
        rcases mem_permOps hh with ⟨_, _, rfl⟩ | ⟨_, rfl⟩ <;> trivial
      unfold setOps at h1
      split at h1
      · simp only [List.mem_cons] at h1
        rcases h1 with rfl | rfl | h1
        · exact hr
        · trivial
        · exact hperm _ _ h1
      · split at h1
        · simp only [List.mem_cons] at h1
          rcases h1 with rfl | rfl | h1
          · trivial
          · exact hr
          · exact hperm _ _ h1
        · simp only [List.mem_cons] at h1
          rcases h1 with rfl | h1
          · trivial
          · exact hperm _ _ h1
    · trivial

/-- The host after an accept is that after its operations on the host. -/
theorem accept_lower (env : Env) (st : State) (hne : selected env st ≠ []) (hp : pretendCheck env st (selected env st) = none) :
    (accept env st).state.lower = (run (applyPlan env (selected env st)) st).1.lower := by
  have hne' : ¬ matching env.glob env.cwd env.patterns (changes env st) = [] := hne
  have hp' : pretendCheck env st (matching env.glob env.cwd env.patterns (changes env st)) = none := hp
  unfold accept
  simp only [hne', if_false, hp', plan]
  rw [run_append]
  change _ = (run (applyPlan env (matching env.glob env.cwd env.patterns (changes env st))) st).1.lower
  cases hr : run (applyPlan env (matching env.glob env.cwd env.patterns (changes env st))) st with
  | mk s e =>
    cases e with
    | some e => rfl
    | none => exact crash_clean_lower (fun op ho => cleanOps_isClean ho) crash_of_run

theorem accept_unselected (env : Env) (st : State) (h : selected env st = []) : (accept env st).state = st ∧ (accept env st).error = none := by
  have : matching env.glob env.cwd env.patterns (changes env st) = [] := h
  simp [accept, this]

theorem accept_refused (env : Env) (st : State) (hne : selected env st ≠ []) {x : AccErr} (h : pretendCheck env st (selected env st) = some x) : (accept env st).state = st := by
  have h3 : matching env.glob env.cwd env.patterns (changes env st) ≠ [] := hne
  have h4 : pretendCheck env st (matching env.glob env.cwd env.patterns (changes env st)) = some x := h
  simp [accept, h3, h4]

theorem selected_whole {env : Env} {st : State} (hi : env.includeIgnored = true) (h : Spec.AllSelected env st) : selected env st = changes env st := by
  have henv : { env with includeIgnored := true } = env := by cases env; simp only at hi; rw [hi]
  unfold Spec.AllSelected at h
  rw [henv] at h
  obtain ⟨f, hf⟩ : ∃ f : Entry → Bool, selected env st = (changes env st).filter f := ⟨_, rfl⟩
  rw [hf]
  refine List.filter_eq_self.2 (fun e he => ?_)
  have := h e he
  rw [hf] at this
  exact (List.mem_filter.1 this).2

/-- Two accepts of the same selection on the same host, with storages that agree on what is selected. -/
theorem accept_alike (env env' : Env) (st st' : State) (hl : st'.lower = st.lower) (hw' : st'.upper.WF) (hsel : selected env' st' = selected env st)
    (hpre : pretendCheck env' st' (selected env st) = pretendCheck env st (selected env st)) (hplan : applyPlan env' (selected env st) = applyPlan env (selected env st))
    (hreads : ∀ op ∈ applyPlan env (selected env st), op.isClean = false ∧ ReadsSame st.upper st'.upper op) :
    (accept env' st').state.lower = (accept env st).state.lower ∧ (Spec.OneDevice st'.upper → (accept env st).error = none → (accept env' st').error = none) := by
  have hrun := run_reads _ st.lower hreads
  have e1 : (⟨st.lower, st'.upper⟩ : State) = st' := by rw [← hl]
  have e2 : (⟨st.lower, st.upper⟩ : State) = st := rfl
  rw [e1, e2] at hrun
  by_cases hne : selected env st = []
  · have h2 := accept_unselected env' st' (hsel.trans hne)
    rw [(accept_unselected env st hne).1, h2.1, hl]
    exact ⟨rfl, fun _ _ => h2.2⟩
  · have hne' : selected env' st' ≠ [] := by rw [hsel]; exact hne
    constructor
    · cases hp : pretendCheck env st (selected env st) with
      | some x =>
        rw [accept_refused env st hne hp, accept_refused env' st' hne' (x := x) (by rw [hsel, hpre, hp]), hl]
      | none =>
        rw [accept_lower env st hne hp, accept_lower env' st' hne' (by rw [hsel, hpre, hp]), hsel, hplan]
        exact hrun.1
    · intro hdev herr
      obtain ⟨hp, st1, h1, _, _⟩ := accept_ok herr hne
      rw [h1] at hrun
      refine accept_of_run hw' hdev hne' (by rw [hsel, hpre, hp]) (st1 := (run (applyPlan env (selected env st)) st').1) ?_ (run_upper (applyPlan_noClean env _) _)
      rw [hsel, hplan]
      exact Prod.ext rfl hrun.2

end

/-- **C121 (partial)**: rejecting the changes that are not wanted and then accepting all the others has exactly the effect on the host of accepting the wanted ones (whether or not it succeeds), lists
the same changes, and succeeds if that does.
Missing: sandboxes in which something was moved; what is hidden by ignore rules (both are done with `--ignored`); selections that take a part of what vanishes with a directory. -/
theorem C121_partial (env envR : Env) (st : State) (ps : List Str) (hw : st.upper.WF) (hm : Spec.NothingMoved st) (hi : env.includeIgnored = true) (hok : (reject envR st).2 = none)
    (hrest : Spec.Rest env envR st) (hall : Spec.AllSelected { env with patterns := ps } (reject envR st).1) :
    selected { env with patterns := ps } (reject envR st).1 = selected env st ∧
    (accept { env with patterns := ps } (reject envR st).1).state.lower = (accept env st).state.lower ∧
    (Spec.OneDevice st.upper → (accept env st).error = none → (accept { env with patterns := ps } (reject envR st).1).error = none) := by
  have hch := changes_rest hw hm hok hi hrest
  have hsel : selected { env with patterns := ps } (reject envR st).1 = selected env st := by
    rw [selected_whole (env := { env with patterns := ps }) hi hall, changes_patterns env ps (reject envR st).1 hi, hch]
  have hw' : (reject envR st).1.upper.WF := by rw [← rejectUpTo_all]; exact rejectUpTo_wf hw _
  have hreads : ∀ op ∈ applyPlan env (selected env st), op.isClean = false ∧ ReadsSame st.upper (reject envR st).1.upper op :=
    plan_reads hw hm (fun e he s hs => reject_same hw ((hrest.own e (mem_selected he) s hs).1 he))
  obtain ⟨h1, h2⟩ := accept_alike env { env with patterns := ps } st (reject envR st).1 rfl hw' hsel (pretend_patterns env ps st (reject envR st).1 rfl _) (applyPlan_patterns env ps _) hreads
  refine ⟨hsel, h1, fun ⟨D, hD⟩ => h2 ⟨D, fun q n hq => ?_⟩⟩
  rcases (C17_reject_keeps_host envR st).2 hw q with h | ⟨h, _⟩
  · exact hD q n (by rw [← h]; exact hq)
  · rw [h] at hq; cases hq

/-- `Spec.Rejected`, computed. -/
def rejectedCheck (env : Env) (st : State) (p : Path) : Bool := (selected env st).any (fun e => match e.staged with | some s => s.path == p | none => false)

theorem rejectedCheck_iff {env : Env} {st : State} {p : Path} : rejectedCheck env st p = true ↔ Spec.Rejected env st p := by
  unfold rejectedCheck Spec.Rejected
  rw [List.any_eq_true]
  constructor
  · rintro ⟨e, he, h⟩
    cases hs : e.staged with
    | none => rw [hs] at h; cases h
    | some s => rw [hs] at h; exact ⟨e, he, s, hs, by simpa using h⟩
  · rintro ⟨e, he, s, hs, rfl⟩
    exact ⟨e, he, by rw [hs]; simp⟩

/-- `Spec.Rest`, computed. -/
def restCheck (env envR : Env) (st : State) : Bool :=
  (changes env st).all (fun e => match e.staged with
    | some s => decide (e ∈ selected env st) == !rejectedCheck envR st s.path
    | none => (changes env st).all (fun e0 => match e0.staged with
      | some s => !(e0.isRemove && e0.dest.isPrefixOf e.dest) || decide (e ∈ selected env st) == !rejectedCheck envR st s.path
      | none => true))

theorem rest_of_check {env envR : Env} {st : State} (h : restCheck env envR st = true) : Spec.Rest env envR st := by
  unfold restCheck at h
  rw [List.all_eq_true] at h
  have conv : ∀ (e : Entry) (p : Path), (decide (e ∈ selected env st) == !rejectedCheck envR st p) = true → (e ∈ selected env st ↔ ¬ Spec.Rejected envR st p) := by
    intro e p hh
    rw [← rejectedCheck_iff]
    by_cases h1 : e ∈ selected env st <;> cases h2 : rejectedCheck envR st p <;> simp_all
  constructor
  · intro e he s hs
    have := h e he
    rw [hs] at this
    exact conv e _ this
  · intro e he hs e0 h0 hop hpre s hs0
    have := h e he
    rw [hs] at this
    simp only at this
    rw [List.all_eq_true] at this
    have := this e0 h0
    rw [hs0] at this
    simp only [Entry.isRemove, hop, List.isPrefixOf_iff_prefix.2 hpre, Bool.and_self, Bool.not_true, Bool.false_or] at this
    exact conv e _ this

/-- In the sandbox of `exRepDone` (`rm d/x; echo new > f; echo y > d/g; rm -r o; mkdir o; echo z > o/y`): `sandbox reject f o "o*"`, and the wanted changes. -/
def exRestR : Env := { exViewEnv with patterns := [str "/f", str "/o", str "/o*"], glob := globRef, includeIgnored := true }
def exRestA : Env := { exViewEnv with patterns := [str "/d", str "/d*"], glob := globRef, includeIgnored := true }

/-- The hypotheses of `C121_partial` hold: some changes are rejected, others are wanted, and accepting the rest deletes `d/x` and makes `d/g`, and leaves `f` and `o` alone. -/
example : exRepDone.upper.WF ∧ Spec.NothingMoved exRepDone ∧ (reject exRestR exRepDone).2 = none ∧ Spec.Rest exRestA exRestR exRepDone ∧
    Spec.AllSelected { exRestA with patterns := [str "/**"] } (reject exRestR exRepDone).1 ∧ Spec.OneDevice exRepDone.upper ∧ (accept exRestA exRepDone).error = none ∧
    (selected exRestR exRepDone).length = 5 ∧ (selected exRestA exRepDone).length = 3 ∧
    (accept exRestA exRepDone).state.lower.get [str "d", str "x"] = none ∧ exRepDone.lower.get [str "d", str "x"] ≠ none ∧
    (accept exRestA exRepDone).state.lower.get [str "f"] = exRepDone.lower.get [str "f"] := by
  refine ⟨by decide +kernel, ?_, by decide +kernel, rest_of_check (by decide +kernel), ?_, oneDevice_of_check 0 (by decide +kernel), by decide +kernel, by decide +kernel, by decide +kernel,
    by decide +kernel, by decide +kernel, by decide +kernel⟩
  · intro q n hg
    have : ∀ x ∈ exRepDone.upper, x.2.redirect = none := by decide +kernel
    exact this _ (FS.mem_of_get hg)
  · have : selected { exRestA with patterns := [str "/**"] } (reject exRestR exRepDone).1 = changes { exRestA with patterns := [str "/**"] } (reject exRestR exRepDone).1 := by decide +kernel
    exact fun e he => by rw [this]; exact he

/-- `echo x > d/.gitignore; echo 1 > d/x; echo 2 > d/y` in a sandbox; `d` is there on the host. -/
def exHides : State := ⟨[([], { kind := .dir }), ([str "d"], { kind := .dir })],
  [([], { kind := .dir }), ([str "F4"], { kind := .dir }), ([str "F4", str "d"], { kind := .dir }), ([str "F4", str "d", str ".gitignore"], { kind := .reg (str "x\n") }),
   ([str "F4", str "d", str "x"], { kind := .reg (str "1") }), ([str "F4", str "d", str "y"], { kind := .reg (str "2") })]⟩
def exHidesR : Env := { exViewEnv with patterns := [str "/d/.gitignore"], glob := globRef, includeIgnored := false }
def exHidesA : Env := { exViewEnv with patterns := [str "/d*", str "/d/y"], glob := globRef, includeIgnored := false }

/-- **C121 refuted** for ignore files: one that was made in the sandbox hides changes as long as it is stored.  `status` lists `d`, `d/.gitignore` and `d/y`; after `sandbox reject d/.gitignore`, accepting
all that is listed also makes `d/x`, which was neither wanted nor listed; accepting the wanted changes `d` and `d/y` does not. -/
theorem C121_refuted_ignored : (changes exHidesA exHides).map (·.dest) = [[str "d"], [str "d", str ".gitignore"], [str "d", str "y"]] ∧ Spec.Rest exHidesA exHidesR exHides ∧
    (reject exHidesR exHides).2 = none ∧ (accept exHidesA exHides).error = none ∧ (accept exHidesA exHides).state.lower.get [str "d", str "x"] = none ∧
    (let st := (accept { exHidesA with patterns := [str "/**"] } (reject exHidesR exHides).1).state
     st.lower.get [str "d", str "x"] = some { kind := .reg (str "1") }) := by
  refine ⟨by decide +kernel, rest_of_check (by decide +kernel), by decide +kernel, by decide +kernel, by decide +kernel, by decide +kernel⟩

end SB
