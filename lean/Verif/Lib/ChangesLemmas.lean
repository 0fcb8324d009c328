import Verif.Model.Actions
import Verif.Lib.FSOps

/-! Helper lemmas about change detection (proof machinery). -/

namespace SB

theorem mem_keepLoop {env : Env} {st : State} {ks : List Path} {cache : IgnoreCache} {k : Name × Path × Path}
    (h : k ∈ keepLoop env st ks cache) : (k.1 :: k.2.2) ∈ ks ∧ env.decode k.1 = some k.2.1 ∧ k.2.2 ≠ [] := by
  induction ks generalizing cache with
  | nil => simp [keepLoop] at h
  | cons q ks ih =>
    cases q with
    | nil =>
      simp only [keepLoop] at h
      obtain ⟨h1, h2⟩ := ih h
      exact ⟨List.mem_cons_of_mem _ h1, h2⟩
    | cons m sub =>
      simp only [keepLoop] at h
      cases hd : env.decode m with
      | none =>
        rw [hd] at h
        obtain ⟨h1, h2⟩ := ih h
        exact ⟨List.mem_cons_of_mem _ h1, h2⟩
      | some mp =>
        rw [hd] at h
        simp only at h
        have fin : ∀ c, k ∈ (m, mp, sub) :: keepLoop env st ks c → sub ≠ [] →
            (k.1 :: k.2.2) ∈ (m :: sub) :: ks ∧ env.decode k.1 = some k.2.1 ∧ k.2.2 ≠ [] := by
          intro c hk hs
          rcases List.mem_cons.1 hk with rfl | hk
          · exact ⟨List.mem_cons_self, hd, hs⟩
          · obtain ⟨h1, h2⟩ := ih hk
            exact ⟨List.mem_cons_of_mem _ h1, h2⟩
        have fin' : ∀ c, k ∈ keepLoop env st ks c →
            (k.1 :: k.2.2) ∈ (m :: sub) :: ks ∧ env.decode k.1 = some k.2.1 ∧ k.2.2 ≠ [] := by
          intro c hk
          obtain ⟨h1, h2⟩ := ih hk
          exact ⟨List.mem_cons_of_mem _ h1, h2⟩
        by_cases hs : sub = []
        · rw [if_pos hs] at h; exact fin' _ h
        · rw [if_neg hs] at h
          by_cases hi : env.includeIgnored = true
          · rw [if_pos hi] at h; exact fin _ h hs
          · rw [if_neg hi] at h
            split at h
            · exact fin' _ h
            · exact fin _ h hs

theorem mem_kept {env : Env} {st : State} {k : Name × Path × Path} (h : k ∈ kept env st) :
    (k.1 :: k.2.2) ∈ st.upper.keys ∧ env.decode k.1 = some k.2.1 ∧ k.2.2 ≠ [] := mem_keepLoop h

/-- What a kept storage entry looks like. -/
structure IsUpper (env : Env) (st : State) (ue : UpperEntry) (m : Name) (mp sub : Path) : Prop where
  decode : env.decode m = some mp
  sub_ne : sub ≠ []
  lowerPath : ue.lowerPath = mp ++ sub
  upperPath : ue.upperPath = m :: sub
  node : st.upper.get (m :: sub) = some ue.node
  source : ue.sourcePath = sourcePath st m mp sub
  details : ue.sourceDetails = ue.sourcePath.bind (details st.lower)

theorem mem_upperEntries {env : Env} {st : State} {ue : UpperEntry} (h : ue ∈ upperEntries env st) :
    ∃ m mp sub, (m, mp, sub) ∈ kept env st ∧ IsUpper env st ue m mp sub := by
  unfold upperEntries at h
  rw [List.mem_filterMap] at h
  obtain ⟨⟨m, mp, sub⟩, hk, hue⟩ := h
  refine ⟨m, mp, sub, hk, ?_⟩
  obtain ⟨_, h2, h3⟩ := mem_kept hk
  unfold mkUpperEntry at hue
  simp only at hue
  cases hg : st.upper.get (m :: sub) with
  | none => rw [hg] at hue; cases hue
  | some n =>
    rw [hg] at hue
    simp only [Option.some.injEq] at hue
    subst hue
    exact ⟨h2, h3, rfl, rfl, hg, rfl, rfl⟩

theorem upperEntries_of_kept {env : Env} {st : State} {m : Name} {mp sub : Path} {n : Node}
    (h : (m, mp, sub) ∈ kept env st) (hg : st.upper.get (m :: sub) = some n) :
    ∃ ue ∈ upperEntries env st, IsUpper env st ue m mp sub ∧ ue.node = n := by
  obtain ⟨_, h2, h3⟩ := mem_kept h
  refine ⟨{ lowerPath := mp ++ sub, upperPath := m :: sub, node := n, sourcePath := sourcePath st m mp sub,
            sourceDetails := (sourcePath st m mp sub).bind (details st.lower) }, ?_, ⟨h2, h3, rfl, rfl, hg, rfl, rfl⟩, rfl⟩
  unfold upperEntries
  rw [List.mem_filterMap]
  exact ⟨_, h, by simp [mkUpperEntry, hg]⟩

theorem mem_changes {env : Env} {st : State} {e : Entry} :
    e ∈ changes env st ↔ ∃ ue ∈ upperEntries env st,
      e ∈ removesOf st (renamedPaths (upperEntries env st)) ue ∨ e ∈ setsOf st ue := by
  unfold changes
  simp only [List.mem_flatMap, List.mem_append]

theorem mem_removesOf {st : State} {ren : List Path} {ue : UpperEntry} {e : Entry} (h : e ∈ removesOf st ren ue) :
    ∃ sp, ue.sourcePath = some sp ∧ sp ∉ ren ∧
      (ue.node.opq = true ∨ ue.node.isRemoved = true ∨ (ue.node.isDir = false ∧ st.lower.pisDir sp = true)) ∧
      e.op = .remove ∧
      ((st.lower.pisDir sp = true ∧ e.dest ∈ st.lower.walkDir sp ∧ e.source = details st.lower e.dest ∧
          e.staged = if e.dest = sp then some ⟨ue.upperPath, ue.node⟩ else none) ∨
       (st.lower.pisDir sp = false ∧ e.dest = sp ∧ e.source = ue.sourceDetails ∧
          e.staged = some ⟨ue.upperPath, ue.node⟩)) ∧ e.tmp = none := by
  unfold removesOf at h
  cases hsp : ue.sourcePath with
  | none => rw [hsp] at h; simp at h
  | some sp =>
    rw [hsp] at h
    simp only at h
    split at h
    · next hc =>
      split at h
      · simp at h
      · next hr =>
        refine ⟨sp, rfl, hr, ?_, ?_⟩
        · simp only [Bool.or_eq_true, Bool.and_eq_true, Bool.not_eq_true'] at hc
          rcases hc with (hc | hc) | hc
          · exact Or.inl hc
          · exact Or.inr (Or.inl hc)
          · exact Or.inr (Or.inr hc)
        · split at h
          · next hd =>
            obtain ⟨q, hq, rfl⟩ := List.mem_map.1 h
            exact ⟨rfl, Or.inl ⟨hd, hq, rfl, rfl⟩, rfl⟩
          · next hd =>
            simp only [List.mem_singleton] at h
            subst h
            exact ⟨rfl, Or.inr ⟨by simpa using hd, rfl, rfl, rfl⟩, rfl⟩
    · simp at h

theorem mem_setsOf {st : State} {ue : UpperEntry} {e : Entry} (h : e ∈ setsOf st ue) :
    ue.node.isRemoved = false ∧ e.dest = ue.lowerPath ∧ e.staged = some ⟨ue.upperPath, ue.node⟩ ∧
    e.source = ue.sourceDetails ∧ e.tmp = none ∧
    ((ue.node.redirect.isSome = true ∧ ue.sourceDetails = none ∧ e.op = .error .redirectPathNotFound) ∨
     (ue.node.redirect.isSome = true ∧ ue.sourceDetails.isSome = true ∧ e.op = .rename) ∨
     (ue.node.redirect = none ∧ ue.node.supported = false ∧ e.op = .error .unsupportedFileType) ∨
     (ue.node.redirect = none ∧ ue.node.supported = true ∧
       e.op = .set (if ue.sourceDetails.isSome && !hasOpaqueAncestor st ue.upperPath then .modify else .create))) := by
  unfold setsOf at h
  split at h
  · simp at h
  · next hrm =>
    have hrm' : ue.node.isRemoved = false := by simpa using hrm
    refine ⟨hrm', ?_⟩
    simp only at h
    split at h
    · next hr =>
      split at h
      · next hs =>
        simp only [List.mem_singleton] at h; subst h
        refine ⟨rfl, rfl, rfl, rfl, Or.inl ⟨hr, ?_, rfl⟩⟩
        simpa using hs
      · next hs =>
        simp only [List.mem_singleton] at h; subst h
        refine ⟨rfl, rfl, rfl, rfl, Or.inr (Or.inl ⟨hr, ?_, rfl⟩)⟩
        cases hx : ue.sourceDetails <;> simp_all
    · next hr =>
      have hr' : ue.node.redirect = none := by simpa using hr
      split at h
      · next hs =>
        simp only [List.mem_singleton] at h; subst h
        refine ⟨rfl, rfl, rfl, rfl, Or.inr (Or.inr (Or.inl ⟨hr', by simpa using hs, rfl⟩))⟩
      · next hs =>
        simp only [List.mem_singleton] at h; subst h
        refine ⟨rfl, rfl, rfl, rfl, Or.inr (Or.inr (Or.inr ⟨hr', by simpa using hs, rfl⟩))⟩

/-- Every storage path that is not a whiteout has exactly one entry of its own (not a removal). -/
theorem setsOf_singleton {st : State} {ue : UpperEntry} (h : ue.node.isRemoved = false) : ∃ e, setsOf st ue = [e] := by
  unfold setsOf
  rw [if_neg (by simp [h])]
  simp only
  split
  · split <;> exact ⟨_, rfl⟩
  · split <;> exact ⟨_, rfl⟩

/-- Sets always carry staged details. -/
theorem changes_set_staged {env : Env} {st : State} {e : Entry} {t : SetType} (h : e ∈ changes env st) (ho : e.op = .set t) :
    ∃ s, e.staged = some s ∧ st.upper.get s.path = some s.node ∧ s.node.supported = true ∧ s.node.isRemoved = false ∧
      s.node.redirect = none := by
  obtain ⟨ue, hue, h⟩ := mem_changes.1 h
  obtain ⟨m, mp, sub, _, hu⟩ := mem_upperEntries hue
  rcases h with h | h
  · obtain ⟨sp, _, _, _, hop, _⟩ := mem_removesOf h
    rw [hop] at ho; cases ho
  · obtain ⟨h1, h2, h3, h4, _, h5⟩ := mem_setsOf h
    refine ⟨_, h3, by simp only; rw [hu.upperPath]; exact hu.node, ?_, h1, ?_⟩
    · rcases h5 with ⟨_, _, h5⟩ | ⟨_, _, h5⟩ | ⟨_, _, h5⟩ | ⟨_, h5, _⟩
      · rw [h5] at ho; cases ho
      · rw [h5] at ho; cases ho
      · rw [h5] at ho; cases ho
      · exact h5
    · rcases h5 with ⟨_, _, h5⟩ | ⟨_, _, h5⟩ | ⟨_, _, h5⟩ | ⟨h5, _, _⟩
      · rw [h5] at ho; cases ho
      · rw [h5] at ho; cases ho
      · rw [h5] at ho; cases ho
      · exact h5

/-- Staged details always describe a storage node. -/
theorem changes_staged {env : Env} {st : State} {e : Entry} {s : Details} (h : e ∈ changes env st) (hs : e.staged = some s) :
    st.upper.get s.path = some s.node ∧ s.path ≠ [] := by
  obtain ⟨ue, hue, h⟩ := mem_changes.1 h
  obtain ⟨m, mp, sub, _, hu⟩ := mem_upperEntries hue
  have key : ∀ s : Details, s = ⟨ue.upperPath, ue.node⟩ → st.upper.get s.path = some s.node ∧ s.path ≠ [] := by
    rintro s rfl
    simp only; rw [hu.upperPath]; exact ⟨hu.node, by simp⟩
  rcases h with h | h
  · obtain ⟨sp, _, _, _, _, h, _⟩ := mem_removesOf h
    rcases h with ⟨_, _, _, h⟩ | ⟨_, _, _, h⟩
    · rw [hs] at h; split at h
      · exact key _ (by simpa using h)
      · cases h
    · rw [hs] at h; exact key _ (by simpa using h)
  · obtain ⟨_, _, h, _⟩ := mem_setsOf h
    rw [hs] at h; exact key _ (by simpa using h)

theorem changes_tmp {env : Env} {st : State} {e : Entry} (h : e ∈ changes env st) : e.tmp = none := by
  obtain ⟨ue, hue, h⟩ := mem_changes.1 h
  rcases h with h | h
  · obtain ⟨_, _, _, _, _, _, h⟩ := mem_removesOf h; exact h
  · obtain ⟨_, _, _, _, h, _⟩ := mem_setsOf h; exact h

theorem mem_selected {env : Env} {st : State} {e : Entry} (h : e ∈ selected env st) : e ∈ changes env st :=
  (List.mem_filter.1 h).1

theorem FS.walk_init (fs : FS) (ol : Path → Path → Except Errno Path) (l : Name) (hl : l ≠ ['.', '.'])
    (hol : ∀ cur todo c, ol cur (todo ++ [l]) = .ok c → ∃ d, ol cur todo = .ok d ∧ fs.isDirAt d = true ∧ (fs.get (d ++ [l])).isSome) :
    ∀ (todo cur c : Path), fs.walk ol cur (todo ++ [l]) = .ok c → ∃ d, fs.walk ol cur todo = .ok d ∧ fs.isDirAt d = true ∧ (fs.get (d ++ [l])).isSome
  | [], cur, c, h => by
    simp only [List.nil_append, FS.walk] at h
    refine ⟨cur, by simp [FS.walk], ?_⟩
    cases hg : fs.get cur with
    | none => simp [hg] at h
    | some d =>
      rw [hg] at h
      simp only at h
      split at h
      · rename_i hd
        refine ⟨by simp [FS.isDirAt, hg, hd], ?_⟩
        cases hg2 : fs.get (cur ++ [l]) with
        | none => simp [hg2] at h
        | some m => rfl
      · cases h
  | x :: todo, cur, c, h => by
    rw [List.cons_append] at h
    unfold FS.walk at h ⊢
    cases hg : fs.get cur with
    | none => simp [hg] at h
    | some d =>
      rw [hg] at h
      simp only at h ⊢
      split at h
      · rename_i hd
        rw [if_pos hd]
        split at h
        · rename_i hx
          rw [if_pos hx]
          exact FS.walk_init fs ol l hl hol todo _ c h
        · rename_i hx
          rw [if_neg hx]
          cases hg2 : fs.get (cur ++ [x]) with
          | none => simp [hg2] at h
          | some m =>
            rw [hg2] at h
            simp only at h ⊢
            cases hk : m.kind with
            | lnk t =>
              rw [hk] at h
              simp only at h ⊢
              rw [← List.append_assoc] at h
              exact hol _ _ _ h
            | _ =>
              rw [hk] at h
              exact FS.walk_init fs ol l hl hol todo _ c h
      · cases h

theorem FS.resolveN_init (fs : FS) (l : Name) (hl : l ≠ ['.', '.']) : ∀ (n : Nat) (cur todo c : Path),
    fs.resolveN n cur (todo ++ [l]) = .ok c → ∃ d, fs.resolveN n cur todo = .ok d ∧ fs.isDirAt d = true ∧ (fs.get (d ++ [l])).isSome
  | 0, cur, todo, c, h => FS.walk_init fs _ l hl (fun _ _ _ h => by cases h) todo cur c h
  | n + 1, cur, todo, c, h => FS.walk_init fs _ l hl (fun cur todo c h => FS.resolveN_init fs l hl n cur todo c h) todo cur c h

/-- What `exists` finds, `lstat` finds: the error branch of `FileDetails::from_path` is not taken for a path that exists. -/
theorem details_of_pexists {fs : FS} (hr : fs.isDirAt [] = true) {p : Path} (hl : p.getLast? ≠ some ['.', '.']) (h : fs.pexists p = true) : ∃ n, fs.lstat p = .ok n := by
  unfold FS.pexists FS.stat at h
  cases hp : fs.realpath p with
  | error e => simp [hp] at h
  | ok c =>
    rcases List.eq_nil_or_concat p with rfl | ⟨q, l, rfl⟩
    · obtain ⟨n, hn, -⟩ := FS.isDirAt_iff.1 hr
      exact ⟨n, by simp [FS.lstat, FS.canon, hn]⟩
    · rw [List.concat_eq_append] at *
      obtain ⟨d, hd, hdir, hs⟩ := FS.resolveN_init fs l (by simpa using hl) 40 [] q c hp
      obtain ⟨n, hn⟩ := Option.isSome_iff_exists.1 hs
      refine ⟨n, ?_⟩
      have hd' : fs.realpath q = .ok d := hd
      simp [FS.lstat, FS.canon, hd', hdir, hn]
end SB
