import Verif.Lib.Crash

/-! From hypotheses on the sandbox state to the hypotheses of the accept machinery (proof machinery). -/

namespace SB

theorem pairwise_forall {α} {R : α → α → Prop} (hs : ∀ a b, R a b → R b a) {l : List α} (h : l.Pairwise R) {a b : α} (ha : a ∈ l) (hb : b ∈ l)
    (hne : a ≠ b) : R a b := by
  obtain ⟨i, hi, rfl⟩ := List.getElem_of_mem ha
  obtain ⟨k, hk, rfl⟩ := List.getElem_of_mem hb
  rcases Nat.lt_trichotomy i k with hik | hik | hik
  · exact List.pairwise_iff_getElem.1 h i k hi hk hik
  · subst hik; exact absurd rfl hne
  · exact hs _ _ (List.pairwise_iff_getElem.1 h k i hk hi hik)

theorem changes_rename_source {env : Env} {st : State} {e : Entry} (h : e ∈ changes env st) (ho : e.op = .rename) :
    ∃ s, e.source = some s := by
  obtain ⟨ue, hue, h⟩ := mem_changes.1 h
  rcases h with h | h
  · obtain ⟨sp, _, _, _, hop, _⟩ := mem_removesOf h
    rw [hop] at ho; cases ho
  · obtain ⟨h1, h2, h3, h4, _, h5⟩ := mem_setsOf h
    rcases h5 with ⟨_, _, h5⟩ | ⟨_, h6, h5⟩ | ⟨_, _, h5⟩ | ⟨_, _, h5⟩
    · rw [h5] at ho; cases ho
    · rw [h4]; exact Option.isSome_iff_exists.1 h6
    · rw [h5] at ho; cases ho
    · rw [h5] at ho; cases ho

theorem ready_of_state {env : Env} {st : State} (hw : st.lower.WF) (hp : Spec.PlainHost env st.lower (selected env st))
    (hf : Spec.FreshTemps env st.lower (selected env st)) : Ready env st (selected env st) :=
  ⟨⟨hw, hp, hf, fun _ he ho => changes_rename_source (mem_selected he) ho⟩, fun _ he ⟨_, ho⟩ => by
    obtain ⟨s, h1, h2, h3, _⟩ := changes_set_staged (mem_selected he) ho
    exact ⟨s, h1, h3, h2⟩⟩

/-- The storage path a creation, modification or rename comes from. -/
theorem puts_upper {env : Env} {st : State} {ue : UpperEntry} {e : Entry} (h : e ∈ removesOf st (renamedPaths (upperEntries env st)) ue ++ setsOf st ue)
    (hp : Puts e) : e ∈ setsOf st ue ∧ e.dest = ue.lowerPath := by
  rcases List.mem_append.1 h with h | h
  · obtain ⟨_, _, _, _, ho, _⟩ := mem_removesOf h
    rcases hp with ⟨t, hp⟩ | hp <;> rw [ho] at hp <;> cases hp
  · exact ⟨h, (mem_setsOf h).2.1⟩

theorem keepLoop_sublist (env : Env) (st : State) (ks : List Path) (c : IgnoreCache) :
    ((keepLoop env st ks c).map (fun k => k.1 :: k.2.2)).Sublist ks := by
  induction ks generalizing c with
  | nil => simp [keepLoop]
  | cons q ks ih =>
    cases q with
    | nil => simp only [keepLoop]; exact (ih c).cons _
    | cons m sub =>
      simp only [keepLoop]
      split
      · exact (ih c).cons _
      · split
        · exact (ih c).cons _
        · split
          · simp only [List.map_cons]; exact (ih c).cons_cons _
          · split
            · exact (ih _).cons _
            · simp only [List.map_cons]; exact (ih _).cons_cons _

theorem upperEntries_paths (env : Env) (st : State) : ((upperEntries env st).map (·.upperPath)).Sublist st.upper.keys := by
  refine List.Sublist.trans ?_ (keepLoop_sublist env st st.upper.keys [])
  unfold upperEntries kept
  generalize keepLoop env st st.upper.keys [] = l
  induction l with
  | nil => simp
  | cons k l ih =>
    obtain ⟨m, mp, sub⟩ := k
    simp only [List.filterMap_cons]
    unfold mkUpperEntry
    simp only
    split
    · exact ih.cons _
    · next h => 
      revert h
      split
      · simp
      · simp only [Option.some.injEq]
        rintro rfl
        simp only [List.map_cons]
        exact ih.cons_cons _

theorem distinctDests_of_state {env : Env} {st : State} (hn : st.upper.keys.Nodup) (hs : Spec.SeparateMounts env st.upper) :
    Spec.DistinctDests (selected env st) := by
  unfold selected matching
  refine List.Pairwise.filter _ ?_
  unfold changes
  simp only
  have hnd : (upperEntries env st).Pairwise (fun a b => a.upperPath ≠ b.upperPath) := by
    have := (upperEntries_paths env st).nodup hn
    rwa [List.Nodup, List.pairwise_map] at this
  rw [List.pairwise_flatMap]
  constructor
  · intro ue hue
    have h1 : (setsOf st ue).length ≤ 1 := by
      cases hr : ue.node.isRemoved with
      | true => unfold setsOf; simp [hr]
      | false => obtain ⟨e, he⟩ := setsOf_singleton (st := st) hr; simp [he]
    rw [List.pairwise_append]
    refine ⟨?_, ?_, ?_⟩
    · rw [List.pairwise_iff_forall_sublist]
      intro a b hsub hpa
      have ha := hsub.subset (a := a) (by simp)
      obtain ⟨_, _, _, _, ho, _⟩ := mem_removesOf ha
      rcases hpa with ⟨t, hp⟩ | hp <;> rw [ho] at hp <;> cases hp
    · cases hso : setsOf st ue with
      | nil => simp
      | cons a l => cases l with
        | nil => simp
        | cons b l => rw [hso] at h1; simp at h1
    · intro a ha b hb hpa
      obtain ⟨_, _, _, _, ho, _⟩ := mem_removesOf ha
      rcases hpa with ⟨t, hp⟩ | hp <;> rw [ho] at hp <;> cases hp
  · refine hnd.imp_of_mem ?_
    intro a b ha hb hab x hx y hy hpx hpy heq
    obtain ⟨_, hdx⟩ := puts_upper hx hpx
    obtain ⟨_, hdy⟩ := puts_upper hy hpy
    obtain ⟨m, mp, sub, hk, hu⟩ := mem_upperEntries ha
    obtain ⟨m', mp', sub', hk', hu'⟩ := mem_upperEntries hb
    have hd : mp ++ sub = mp' ++ sub' := by rw [← hu.lowerPath, ← hu'.lowerPath, ← hdx, ← hdy, heq]
    have hm := hs m m' sub sub' mp mp' (mem_kept hk).1 (mem_kept hk').1 hu.decode hu'.decode hu.sub_ne hu'.sub_ne hd
    subst hm
    have hmp : mp = mp' := Option.some.inj (hu.decode.symm.trans hu'.decode)
    subst hmp
    have := List.append_cancel_left hd
    subst this
    exact hab (by rw [hu.upperPath, hu'.upperPath])

/-! Sufficient condition for fresh temporary names, for concrete examples. -/

theorem withExtension_suffix (n : Name) (u : Str) : u <:+ withExtension n u := by
  unfold withExtension
  simp only
  exact (List.suffix_cons _ _).trans (List.suffix_append _ _)

theorem freshTemps_of_marks {env : Env} {host : FS} {sel : List Entry} {a b : Char} (hab : a ≠ b)
    (ha : a ≠ '/') (hb : b ≠ '/')
    (hR : ∀ i, env.uuidR i = List.replicate (i + 1) a) (hC : ∀ i, env.uuidC i = List.replicate (i + 1) b)
    (hta : a ∉ str ".rename-" ++ str "-to-" ++ str "-") (htb : b ∉ str ".rename-" ++ str "-to-" ++ str "-")
    (hh : ∀ q ∈ host.keys, ∀ x ∈ q, a ∉ x ∧ b ∉ x) (hd : ∀ e ∈ sel, ∀ x ∈ e.dest, a ∉ x ∧ b ∉ x)
    (hs : ∀ e ∈ sel, ∀ s, e.source = some s → ∀ x ∈ s.path, a ∉ x ∧ b ∉ x) (hc : ∀ x ∈ env.cwd, a ∉ x ∧ b ∉ x) :
    Spec.FreshTemps env host sel := by
  have hfn : ∀ p : Path, (∀ x ∈ p, a ∉ x ∧ b ∉ x) → a ∉ fileName p ∧ b ∉ fileName p := by
    intro p hp
    unfold fileName
    cases h : p.getLast? with
    | none => simp
    | some x => exact hp x (List.mem_of_getLast? h)
  have hcb : ∀ i, ∀ d : Path, b ∈ Spec.copyName d (env.uuidC i) := fun i d => by
    refine (withExtension_suffix (fileName d) _).subset ?_
    rw [hC]; simp
  have hra : ∀ i, ∀ s d : Path, a ∈ Spec.renName s d (env.uuidR i) := fun i s d => by
    unfold Spec.renName; rw [hR]; simp
  have hcnt : ∀ i, ∀ e ∈ sel, ∀ s, e.source = some s → (Spec.renName s.path e.dest (env.uuidR i)).count a = i + 1 := by
    intro i e he s hse
    unfold Spec.renName
    simp only [List.mem_append, not_or] at hta
    simp only [List.count_append, hR, List.count_replicate_self, List.count_eq_zero_of_not_mem hta.1.1, List.count_eq_zero_of_not_mem hta.1.2,
      List.count_eq_zero_of_not_mem hta.2, List.count_eq_zero_of_not_mem (hfn _ (hs e he s hse)).1, List.count_eq_zero_of_not_mem (hfn _ (hd e he)).1]
    omega
  have hrb : ∀ i, ∀ e ∈ sel, ∀ s, e.source = some s → b ∉ Spec.renName s.path e.dest (env.uuidR i) := by
    intro i e he s hse
    unfold Spec.renName
    simp only [List.mem_append, not_or] at htb
    simp only [List.mem_append, not_or, hR, List.mem_replicate]
    exact ⟨⟨⟨⟨⟨htb.1.1, (hfn _ (hs e he s hse)).2⟩, htb.1.2⟩, (hfn _ (hd e he)).2⟩, htb.2⟩, fun h => hab h.2.symm⟩
  have new : ∀ x : Name, (a ∈ x ∨ b ∈ x) → Spec.NewName env host sel x := by
    intro x hx
    refine ⟨fun q hq h => ?_, fun e he h => ?_, fun e he s hse h => ?_, fun h => ?_⟩
    · rcases hx with hx | hx
      · exact (hh q hq x h).1 hx
      · exact (hh q hq x h).2 hx
    · rcases hx with hx | hx
      · exact (hd e he x h).1 hx
      · exact (hd e he x h).2 hx
    · rcases hx with hx | hx
      · exact (hs e he s hse x h).1 hx
      · exact (hs e he s hse x h).2 hx
    · rcases hx with hx | hx
      · exact (hc x h).1 hx
      · exact (hc x h).2 hx
  refine ⟨fun i => ?_, fun i => ?_, fun i e he => new _ (Or.inr (hcb i _)), fun i e he s hse => new _ (Or.inl (hra i _ _)), ?_, ?_⟩
  · rw [hR]; exact ⟨by simp, by simp [List.mem_replicate, Ne.symm ha]⟩
  · rw [hC]; exact ⟨by simp, by simp [List.mem_replicate, Ne.symm hb]⟩
  · intro i j hij e he e' he' s s' hse hse' heq
    have h1 := hcnt i e he s hse
    rw [heq, hcnt j e' he' s' hse'] at h1
    omega
  · intro i j e he e' he' s hse heq
    exact hrb i e he s hse (by rw [heq]; exact hcb j _)

/-! Every state accept can be found in, in terms of the host-changing part. -/

theorem accept_final (env : Env) (st : State) : AcceptState env st (accept env st).state := by
  unfold accept
  simp only
  split
  · exact .before
  · split
    · exact .before
    · next h => exact .during h crash_of_run

theorem acceptState_lower {env : Env} {st st' : State} (h : AcceptState env st st') :
    ∃ st1, CrashState (applyPlan env (selected env st)) st st1 ∧ st'.lower = st1.lower := by
  cases h with
  | before => exact ⟨st, .here, rfl⟩
  | during _ hc =>
    unfold plan at hc
    rcases crash_append hc with h | ⟨st1, h1, h2⟩
    · exact ⟨st', h, rfl⟩
    · have := crash_of_run (ops := applyPlan env (selected env st)) (st := st)
      rw [h1] at this
      exact ⟨st1, this, crash_clean_lower (fun op ho => cleanOps_isClean ho) h2⟩

theorem accept_ok {env : Env} {st : State} (h : (accept env st).error = none) (hne : selected env st ≠ []) :
    pretendCheck env st (selected env st) = none ∧
    ∃ st1, run (applyPlan env (selected env st)) st = (st1, none) ∧ (accept env st).state.lower = st1.lower ∧
      run (cleanOps (realOrders env (selected env st)).2.2) st1 = ((accept env st).state, none) := by
  have hne' : ¬ matching env.glob env.cwd env.patterns (changes env st) = [] := hne
  unfold accept at h ⊢
  simp only [hne', if_false] at h ⊢
  cases hp : pretendCheck env st (matching env.glob env.cwd env.patterns (changes env st)) with
  | some e => rw [hp] at h; simp at h
  | none =>
    rw [hp] at h
    simp only at h ⊢
    refine ⟨hp, ?_⟩
    have hrun : run (plan env (selected env st)) st = ((run (plan env (selected env st)) st).1, none) := by
      rw [← h]; rfl
    have hx : (run (plan env (matching env.glob env.cwd env.patterns (changes env st))) st).1 = (run (plan env (selected env st)) st).1 := rfl
    rw [hx]
    generalize (run (plan env (selected env st)) st).1 = st' at hrun
    unfold plan at hrun
    rw [run_append] at hrun
    cases h1 : run (applyPlan env (selected env st)) st with
    | mk st1 x =>
      rw [h1] at hrun
      cases x with
      | some e => simp at hrun
      | none =>
        simp only at hrun
        refine ⟨st1, rfl, ?_, hrun⟩
        have := crash_of_run (ops := cleanOps (realOrders env (selected env st)).2.2) (st := st1)
        rw [hrun] at this
        exact crash_clean_lower (fun op ho => cleanOps_isClean ho) this

/-! A decidable form of `Spec.PlainHost`, for concrete examples. -/

def FS.notLink (fs : FS) (y : Path) : Bool := match fs.get y with | some n => !n.isLnk | none => true

theorem FS.notLink_iff {fs : FS} {y : Path} : fs.notLink y = true ↔ ∀ n, fs.get y = some n → Spec.ftype n.kind ≠ .symlink := by
  unfold FS.notLink
  cases fs.get y with
  | none => simp
  | some n => simp only [Option.some.injEq, forall_eq']; rw [not_symlink_iff]; simp

def belowB (a b : Path) : Bool := a.isPrefixOf b && a != b

theorem belowB_iff {a b : Path} : belowB a b = true ↔ Below a b := by
  unfold belowB
  rw [below_iff]; simp

def plainCheck (env : Env) (host : FS) (sel : List Entry) : Bool :=
  let puts := fun e : Entry => match e.op with | .set _ => true | .rename => true | _ => false
  sel.all (fun e => decide (NormalPath e.dest) && e.dest != [] && e.dest.inits.all (fun y => y == e.dest || host.notLink y)) &&
  sel.all (fun e => match e.source with
    | none => true
    | some s => decide (NormalPath s.path) && s.path.inits.all (fun y => y == s.path || host.notLink y)) &&
  decide (NormalPath env.cwd) && env.cwd.inits.all host.notLink &&
  sel.all (fun e => match e.op, e.source with
    | .rename, some s => host.keys.all (fun k => !s.path.isPrefixOf k || host.notLink k ||
        (sel.all (fun e' => !puts e' || !belowB (e.dest ++ k.drop s.path.length) e'.dest) && !(e.dest ++ k.drop s.path.length).isPrefixOf env.cwd))
    | _, _ => true) &&
  sel.all (fun e => match e.op, e.staged with
    | .set _, some s => !s.node.isLnk || (sel.all (fun e' => !puts e' || !belowB e.dest e'.dest) &&
        sel.all (fun e' => e'.op != .rename || !e.dest.isPrefixOf env.cwd))
    | _, _ => true)

theorem plainHost_of_check {env : Env} {host : FS} {sel : List Entry} (h : plainCheck env host sel = true) : Spec.PlainHost env host sel := by
  unfold plainCheck at h
  simp only [Bool.and_eq_true] at h
  obtain ⟨⟨⟨⟨⟨h1, h2⟩, h3⟩, h4⟩, h5⟩, h6⟩ := h
  rw [List.all_eq_true] at h1 h2 h4 h5 h6
  have putsB : ∀ e : Entry, (Spec.IsSet e ∨ e.op = .rename) → (match e.op with | .set _ => true | .rename => true | _ => false) = true := by
    rintro e (⟨t, h⟩ | h) <;> rw [h]
  refine ⟨fun e he => ?_, fun e he s hs => ?_, ?_, fun e he ho s hs r n hn hl => ?_, fun e he ht s hs hl => ?_⟩
  · have := h1 e he
    simp only [Bool.and_eq_true, decide_eq_true_eq, bne_iff_ne, List.all_eq_true, List.mem_inits, Bool.or_eq_true, beq_iff_eq] at this
    refine ⟨this.1.1, this.1.2, fun y hy => FS.notLink_iff.1 ?_⟩
    rcases this.2 y hy.prefix with h | h
    · exact absurd h hy.ne
    · exact h
  · have := h2 e he
    rw [hs] at this
    simp only [Bool.and_eq_true, decide_eq_true_eq, List.all_eq_true, List.mem_inits, Bool.or_eq_true, beq_iff_eq] at this
    refine ⟨this.1, fun y hy => FS.notLink_iff.1 ?_⟩
    rcases this.2 y hy.prefix with h | h
    · exact absurd h hy.ne
    · exact h
  · exact ⟨by simpa using h3, fun y hy => FS.notLink_iff.1 (h4 y (List.mem_inits _ _ |>.2 hy))⟩
  · have := h5 e he
    rw [ho, hs] at this
    simp only [List.all_eq_true] at this
    have := this (s.path ++ r) (FS.mem_keys.2 ⟨n, hn⟩)
    have hnl : host.notLink (s.path ++ r) = false := by
      unfold FS.notLink; rw [hn]; simp [symlink_iff.1 hl]
    have hpr : s.path.isPrefixOf (s.path ++ r) = true := by simp
    rw [hnl, hpr, List.drop_left] at this
    simp only [Bool.not_true, Bool.false_or, Bool.and_eq_true, List.all_eq_true, Bool.or_eq_true, Bool.not_eq_true'] at this
    refine ⟨fun e' he' hp hb => ?_, fun hp => ?_⟩
    · rcases this.1 e' he' with h | h
      · rw [putsB e' hp] at h; cases h
      · rw [belowB_iff.2 hb] at h; cases h
    · rw [List.isPrefixOf_iff_prefix.2 hp] at this; simp at this
  · obtain ⟨t, ht⟩ := ht
    have := h6 e he
    rw [ht, hs] at this
    simp only [symlink_iff.1 hl, Bool.not_true, Bool.false_or, Bool.and_eq_true, List.all_eq_true, Bool.or_eq_true, Bool.not_eq_true',
      bne_iff_ne] at this
    refine ⟨fun e' he' hp hb => ?_, fun e' he' ho hp => ?_⟩
    · rcases this.1 e' he' with h | h
      · rw [putsB e' hp] at h; cases h
      · rw [belowB_iff.2 hb] at h; cases h
    · rcases this.2 e' he' with h | h
      · exact h ho
      · rw [List.isPrefixOf_iff_prefix.2 hp] at h; cases h

/-- A decidable form of the conditions of `freshTemps_of_marks` for the marks `#` and `@`. -/
def marksCheck (env : Env) (host : FS) (sel : List Entry) : Bool :=
  let clean := fun x : Name => !x.contains '#' && !x.contains '@'
  host.keys.all (fun q => q.all clean) && sel.all (fun e => e.dest.all clean) &&
  sel.all (fun e => match e.source with | none => true | some s => s.path.all clean) && env.cwd.all clean

theorem freshTemps_of_check {env : Env} {host : FS} {sel : List Entry} (hR : ∀ i, env.uuidR i = List.replicate (i + 1) '#')
    (hC : ∀ i, env.uuidC i = List.replicate (i + 1) '@') (h : marksCheck env host sel = true) : Spec.FreshTemps env host sel := by
  unfold marksCheck at h
  simp only [Bool.and_eq_true, List.all_eq_true, Bool.not_eq_true', List.contains_eq_mem, decide_eq_false_iff_not] at h
  obtain ⟨⟨⟨h1, h2⟩, h3⟩, h4⟩ := h
  refine freshTemps_of_marks (a := '#') (b := '@') (by decide) (by decide) (by decide) hR hC (by decide) (by decide) h1 h2 (fun e he s hs => ?_) h4
  have := h3 e he
  rw [hs] at this
  simpa using this

theorem Spec.Ordinary.ready {env : Env} {st : State} (h : Spec.Ordinary env st) : Ready env st (selected env st) :=
  ready_of_state h.wf h.plain h.fresh

theorem Spec.Ordinary.distinct {env : Env} {st : State} (h : Spec.Ordinary env st) : Spec.DistinctDests (selected env st) :=
  distinctDests_of_state h.nodup h.mounts

/-- A decidable form of `Spec.SeparateMounts`. -/
def separateCheck (env : Env) (upper : FS) : Bool :=
  upper.keys.all (fun a => upper.keys.all (fun b => match a, b with
    | m :: sub, m' :: sub' => match env.decode m, env.decode m' with
      | some mp, some mp' => sub == [] || sub' == [] || mp ++ sub != mp' ++ sub' || m == m'
      | _, _ => true
    | _, _ => true))

theorem separate_of_check {env : Env} {upper : FS} (h : separateCheck env upper = true) : Spec.SeparateMounts env upper := by
  intro m m' sub sub' mp mp' h1 h2 hd hd' hs hs' heq
  unfold separateCheck at h
  simp only [List.all_eq_true] at h
  have := h _ h1 _ h2
  simp only [hd, hd'] at this
  simp only [Bool.or_eq_true, beq_iff_eq, bne_iff_ne] at this
  rcases this with ((h | h) | h) | h
  · exact absurd h hs
  · exact absurd h hs'
  · exact absurd heq h
  · exact h

theorem ordinary_of_check {env : Env} {st : State} (hR : ∀ i, env.uuidR i = List.replicate (i + 1) '#')
    (hC : ∀ i, env.uuidC i = List.replicate (i + 1) '@') (hw : st.lower.WF) (hn : st.upper.keys.Nodup)
    (h : (marksCheck env st.lower (selected env st) && plainCheck env st.lower (selected env st) && separateCheck env st.upper) = true) :
    Spec.Ordinary env st := by
  simp only [Bool.and_eq_true] at h
  exact ⟨hw, plainHost_of_check h.1.2, freshTemps_of_check hR hC h.1.1, hn, separate_of_check h.2⟩

end SB
