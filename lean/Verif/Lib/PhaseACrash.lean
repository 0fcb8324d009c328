import Verif.Lib.PhaseARun

/-! Crash points of the ascending pass (proof machinery). -/

namespace SB

/-- File type and content at a path. -/
def FS.kindAt (fs : FS) (q : Path) : Option Kind := (fs.get q).map (·.kind)

section
variable {env : Env} {host : FS} {st : State} {sel l : List Entry} {all : List Op} {G : FS}

/-- Exact temporaries. -/
def ETmp (env : Env) (l : List Entry) (q : Path) : Prop :=
  (∃ e ∈ l, e.op = .rename ∧ ∃ t, e.tmp = some t ∧ t <+: q) ∨ ∃ e ∈ l, Spec.IsSet e ∧ ∃ j, copyTmp e.dest (env.uuidC j) = q

/-- Possible contents of `q` while the pass runs from `a`. -/
def AKind (l : List Entry) (a : FS) (q : Path) (k : Option Kind) : Prop :=
  k = a.kindAt q ∨ (k = none ∧ ∃ e ∈ l, Spec.IsSet e ∧ e.dest = q ∧ ∃ s, e.staged = some s ∧ s.node.isLnk = true) ∨ (∃ e ∈ l, e.op = .rename ∧ ∃ t r, e.tmp = some t ∧ q = e.dest ++ r ∧ k = a.kindAt (t ++ r)) ∨
  ∃ e ∈ l, Spec.IsSet e ∧ e.dest = q ∧ ∃ s, e.staged = some s ∧ k = some s.node.kind

structure ACrash (env : Env) (l : List Entry) (a b : FS) : Prop where
  wf : b.WF
  other : ∀ q, (∀ e ∈ l, Spec.IsSet e → e.dest ≠ q) → (∀ e ∈ l, e.op = .rename → ¬ e.dest <+: q) → ¬ ETmp env l q → b.get q = a.get q
  kind : ∀ q, ¬ ETmp env l q → AKind l a q (b.kindAt q)

theorem ETmp_tail {e : Entry} {r : List Entry} {q : Path} (h : ¬ ETmp env (e :: r) q) : ¬ ETmp env r q := by
  rintro (⟨e', he', h'⟩ | ⟨e', he', h'⟩)
  · exact h (Or.inl ⟨e', by simp [he'], h'⟩)
  · exact h (Or.inr ⟨e', by simp [he'], h'⟩)

/-- A finished block as a special case of an interrupted pass. -/
theorem BlockOK.crash {e : Entry} {r : List Entry} {i : Nat} {a b : FS} (hb : BlockOK env i e a b) (hw : b.WF) : ACrash env (e :: r) a b := by
  cases hb with
  | set s hset hs hag hn ht =>
    refine ⟨hw, fun q h1 _ h3 => hag q (fun h => h1 e (by simp) hset h.symm)
      (fun h => h3 (Or.inr ⟨e, by simp, hset, i, h.symm⟩)), fun q hq => ?_⟩
    by_cases hd : q = e.dest
    · right; right; right
      obtain ⟨n, hn, hk, _⟩ := hn
      exact ⟨e, by simp, hset, hd.symm, s, hs, by rw [hd, FS.kindAt, hn]; simp [hk]⟩
    · left
      unfold FS.kindAt
      rw [hag q hd (fun h => hq (Or.inr ⟨e, by simp, hset, i, h.symm⟩))]
  | ren t ho ht hR =>
    refine ⟨hw, fun q _ h2 h3 => ?_, fun q hq => ?_⟩
    · rw [hR.get, if_neg (h2 e (by simp) ho), if_neg (fun h => h3 (Or.inl ⟨e, by simp, ho, t, ht, h⟩))]
    · by_cases hd : e.dest <+: q
      · obtain ⟨r', rfl⟩ := hd
        right; right; left
        exact ⟨e, by simp, ho, t, r', ht, rfl, by unfold FS.kindAt; rw [hR.get, if_pos (List.prefix_append _ _), List.drop_left]⟩
      · left
        unfold FS.kindAt
        rw [hR.get, if_neg hd, if_neg (fun h => hq (Or.inl ⟨e, by simp, ho, t, ht, h⟩))]
  | skip _ _ h => rw [h] at hw ⊢; exact ⟨hw, fun _ _ _ _ => rfl, fun _ _ => Or.inl rfl⟩

/-- Crash points inside one block. -/
theorem block_crash {e : Entry} {r : List Entry} {i : Nat} (hg : Good env host sel) (hp : PlainOps all G) (ha : AList env st sel (e :: r))
    (hi : AInv env sel all G (e :: r) st.lower) (hin : ∀ op ∈ blockOps env i e, op ∈ all) {st' : State}
    (h : CrashState (blockOps env i e) st st') : ACrash env (e :: r) st.lower st'.lower := by
  have hf := ha.fr e (by simp)
  have same : ∀ x : State, x.lower = st.lower → ACrash env (e :: r) st.lower x.lower := by
    intro x hx; rw [hx]; exact ⟨hi.wf, fun _ _ _ _ => rfl, fun _ _ => Or.inl rfl⟩
  have whole : ∀ st1, run (blockOps env i e) st = (st1, none) → ACrash env (e :: r) st.lower st1.lower :=
    fun st1 h1 => (block_run hg hp ha hi hin h1).crash (block_inv hg hp ha hi hin h1).wf
  cases ho : e.op with
  | set ty =>
    obtain ⟨s, hs, hsup, hup⟩ := ha.set e (by simp) ⟨ty, ho⟩
    have hset : Spec.IsSet e := ⟨ty, ho⟩
    have hbo : blockOps env i e = setOps e.dest s (copyTmp e.dest (env.uuidC i)) := by unfold blockOps; simp only [ho, hs]
    rw [hbo] at h hin
    obtain ⟨_, _, e0, h0, _, h2, _⟩ := dest_facts hg hf
    have ht : st.lower.get (copyTmp e.dest (env.uuidC i)) = none :=
      hi.noCopy _ ⟨i, e0, h0, rfl⟩ _ (by rw [copyTmp_eq, h2]; simp)
    obtain ⟨hw, hag, hd, _, _⟩ := setOps_crash (slot_of hg hp hi hf hin) hup ht hsup h
    refine ⟨hw, fun q h1 _ h3 => hag q (fun h => h1 e (by simp) hset h.symm)
      (fun h => h3 (Or.inr ⟨e, by simp, hset, i, h.symm⟩)), fun q hq => ?_⟩
    by_cases hqd : q = e.dest
    · subst hqd
      rcases hd with hd | ⟨hd, hlk⟩ | ⟨n', hn', hk | ⟨n0, hn0, hk⟩⟩
      · left; unfold FS.kindAt; rw [hd]
      · right; left; exact ⟨by unfold FS.kindAt; rw [hd]; rfl, e, by simp, hset, rfl, s, hs, hlk⟩
      · right; right; right; exact ⟨e, by simp, hset, rfl, s, hs, by unfold FS.kindAt; rw [hn']; simp [hk]⟩
      · left; unfold FS.kindAt; rw [hn', hn0]; simp [hk]
    · left
      unfold FS.kindAt
      rw [hag q hqd (fun h => hq (Or.inr ⟨e, by simp, hset, i, h.symm⟩))]
  | rename =>
    obtain ⟨s, j, hs, ht⟩ := ha.ren e (by simp) ho
    have hbo : blockOps env i e = [.mv (renameTmp env.cwd s.path e.dest (env.uuidR j)) e.dest] := by unfold blockOps; simp only [ho, ht]
    rw [hbo] at h
    rcases crash_cons h with rfl | hm | ⟨x, he⟩ | ⟨st1, he, h⟩
    · exact same _ rfl
    · cases hm
    · simp only [exec] at he
      rcases exec_lift he with ⟨_, _, _, hx⟩ | ⟨_, _, rfl, _⟩
      · cases hx
      · exact same _ rfl
    · cases crash_nil h
      exact whole st' (by rw [hbo]; simp [run, he])
  | remove =>
    have hbo : blockOps env i e = [] := by unfold blockOps; simp only [ho]
    rw [hbo] at h; cases crash_nil h; exact same _ rfl
  | error x =>
    have hbo : blockOps env i e = [] := by unfold blockOps; simp only [ho]
    rw [hbo] at h; cases crash_nil h; exact same _ rfl

theorem phaseA_crash (hg : Good env host sel) (hp : PlainOps all G) : ∀ {l : List Entry} {i : Nat} {st st' : State}, AList env st sel l →
    AInv env sel all G l st.lower → (∀ op ∈ applyOps env i l, op ∈ all) → CrashState (applyOps env i l) st st' →
    ACrash env l st.lower st'.lower := by
  intro l
  induction l with
  | nil =>
    intro i st st' ha hi _ h
    simp only [applyOps] at h
    cases crash_nil h
    exact ⟨hi.wf, fun _ _ _ _ => rfl, fun _ _ => Or.inl rfl⟩
  | cons e r ih =>
    intro i st st' ha hi hin h
    rw [applyOps_cons] at h
    have hin1 : ∀ op ∈ blockOps env i e, op ∈ all := fun op ho => hin op (by rw [applyOps_cons]; simp [ho])
    have hin2 : ∀ op ∈ applyOps env (i + 1) r, op ∈ all := fun op ho => hin op (by rw [applyOps_cons]; simp [ho])
    rcases crash_append h with h | ⟨st1, hb, h⟩
    · exact block_crash hg hp ha hi hin1 h
    · have hB := block_run hg hp ha hi hin1 hb
      have hi1 := block_inv hg hp ha hi hin1 hb
      have hC1 : ACrash env (e :: r) st.lower st1.lower := hB.crash hi1.wf
      have hu1 : st1.upper = st.upper := by have := run_upper (blockOps_noClean env i e) st; rw [hb] at this; exact this
      have hC2 := ih (ha.tail hu1) hi1 hin2 h
      refine ⟨hC2.wf, fun q h1 h2 h3 => ?_, fun q hq => ?_⟩
      · rw [hC2.other q (fun e' he' => h1 e' (by simp [he'])) (fun e' he' => h2 e' (by simp [he'])) (ETmp_tail h3), hC1.other q h1 h2 h3]
      · rcases hC2.kind q (ETmp_tail hq) with h | ⟨h, e', he', h'⟩ | ⟨e', he', ho', t, r', ht, rfl, h⟩ | ⟨e', he', hs', hd, s, hs, h⟩
        · rw [h]; exact hC1.kind q hq
        · right; left; exact ⟨h, e', by simp [he'], h'⟩
        · right; right; left
          refine ⟨e', by simp [he'], ho', t, r', ht, rfl, ?_⟩
          rw [h]
          unfold FS.kindAt
          rw [block_tmps hg ha hB he' ho' ht (hi.exist e' (by simp [he']) ho' t ht) _ (List.prefix_append _ _)]
        · right; right; right; exact ⟨e', by simp [he'], hs', hd, s, hs, h⟩

end

end SB
