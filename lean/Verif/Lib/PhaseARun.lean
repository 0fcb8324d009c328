import Verif.Lib.PhaseA

/-! The whole ascending pass: result on success, crash points (proof machinery). -/

namespace SB

section
variable {env : Env} {host : FS} {st : State} {sel l : List Entry} {all : List Op} {G : FS}

/-- Temporaries of the pass: a rename's temporary (and everything below), or a copy's. -/
def ATmp (env : Env) (sel l : List Entry) (q : Path) : Prop :=
  (∃ e ∈ l, e.op = .rename ∧ ∃ t, e.tmp = some t ∧ t <+: q) ∨ ∃ x, CopyName env sel x ∧ x ∈ q

theorem copyTmp_ATmp (hg : Good env host sel) {e : Entry} (hf : From sel e) (i : Nat) :
    ∃ x, CopyName env sel x ∧ x ∈ copyTmp e.dest (env.uuidC i) := by
  obtain ⟨_, _, e0, h0, _, h2, _⟩ := dest_facts hg hf
  exact ⟨_, ⟨i, e0, h0, rfl⟩, by rw [copyTmp_eq, h2]; simp⟩

/-- A block leaves alone what is neither its destination nor a temporary. -/
theorem block_other {e : Entry} {r : List Entry} {i : Nat} (hg : Good env host sel) (hf : From sel e) {a b : FS}
    (hb : BlockOK env i e a b) {q : Path} (hs : Spec.IsSet e → e.dest ≠ q) (hr : e.op = .rename → ¬ e.dest <+: q)
    (ht : ¬ ATmp env sel (e :: r) q) : b.get q = a.get q := by
  cases hb with
  | set s hset _ hag _ _ =>
    refine hag q (fun h => hs hset h.symm) ?_
    rintro rfl
    exact ht (Or.inr (copyTmp_ATmp hg hf i))
  | ren t ho htm hR =>
    rw [hR.get, if_neg (hr ho), if_neg (fun h => ht (Or.inl ⟨e, by simp, ho, t, htm, h⟩))]
  | skip _ _ h => rw [h]

theorem ATmp_tail {e : Entry} {r : List Entry} {q : Path} (h : ¬ ATmp env sel (e :: r) q) : ¬ ATmp env sel r q := by
  rintro (⟨e', he', h'⟩ | h')
  · exact h (Or.inl ⟨e', by simp [he'], h'⟩)
  · exact h (Or.inr h')

/-- Result of the pass: every `Set` ends as staged; below the deepest renamed destination is what was in its temporary; other paths
are untouched; no temporary is left. -/
structure ADone (env : Env) (sel l : List Entry) (a b : FS) : Prop where
  wf : b.WF
  sets : ∀ e ∈ l, Spec.IsSet e → ∃ s n, e.staged = some s ∧ b.get e.dest = some n ∧ Spec.SameNode n s.node
  moved : ∀ e ∈ l, e.op = .rename → ∀ t, e.tmp = some t → ∀ r, (∀ e' ∈ l, Spec.IsSet e' → e'.dest ≠ e.dest ++ r) →
    (∀ e' ∈ l, e'.op = .rename → Below e.dest e'.dest → ¬ e'.dest <+: e.dest ++ r) → ¬ ATmp env sel l (e.dest ++ r) →
    b.get (e.dest ++ r) = a.get (t ++ r)
  other : ∀ q, (∀ e ∈ l, Spec.IsSet e → e.dest ≠ q) → (∀ e ∈ l, e.op = .rename → ¬ e.dest <+: q) → ¬ ATmp env sel l q →
    b.get q = a.get q
  tmps : ∀ q, ATmp env sel l q → b.get q = none
  cwd : ∀ e ∈ l, e.op = .rename → ¬ e.dest <+: env.cwd

/-- Creating and moving changes: sorted by destination, all destinations different. -/
def Ascending (l : List Entry) : Prop :=
  l.Pairwise (fun e e' => (Spec.IsSet e ∨ e.op = .rename) → (Spec.IsSet e' ∨ e'.op = .rename) → e.dest < e'.dest)

theorem phaseA_run (hg : Good env host sel) (hp : PlainOps all G) : ∀ {l : List Entry} {i : Nat} {st st' : State}, AList env st sel l →
    AInv env sel all G l st.lower → Ascending l → (∀ op ∈ applyOps env i l, op ∈ all) →
    run (applyOps env i l) st = (st', none) → ADone env sel l st.lower st'.lower := by
  intro l
  induction l with
  | nil =>
    intro i st st' ha hi _ _ h
    simp only [applyOps, run, Prod.mk.injEq, and_true] at h
    subst h
    refine ⟨hi.wf, by simp, by simp, fun _ _ _ _ => rfl, ?_, by simp⟩
    rintro q (⟨_, h, _⟩ | ⟨x, hx, hq⟩)
    · cases h
    · exact hi.noCopy x hx q hq
  | cons e r ih =>
    intro i st st' ha hi has hin h
    rw [applyOps_cons, run_append] at h
    have hin1 : ∀ op ∈ blockOps env i e, op ∈ all := fun op ho => hin op (by rw [applyOps_cons]; simp [ho])
    have hin2 : ∀ op ∈ applyOps env (i + 1) r, op ∈ all := fun op ho => hin op (by rw [applyOps_cons]; simp [ho])
    cases hb : run (blockOps env i e) st with
    | mk st1 x =>
    rw [hb] at h
    cases x with
    | some x => simp at h
    | none =>
    simp only at h
    have hB := block_run hg hp ha hi hin1 hb
    have hi1 := block_inv hg hp ha hi hin1 hb
    have hu1 : st1.upper = st.upper := by have := run_upper (blockOps_noClean env i e) st; rw [hb] at this; exact this
    have hD := ih (ha.tail hu1) hi1 (List.pairwise_cons.1 has).2 hin2 h
    have hf := ha.fr e (by simp)
    have hasc := (List.pairwise_cons.1 has).1
    have hex := fun e' (he' : e' ∈ r) ho' t ht => hi.exist e' (List.mem_cons_of_mem _ he') ho' t ht
    -- later changes do not concern this destination or anything above it
    have later : ∀ q, e.dest <+: q → (Spec.IsSet e ∨ e.op = .rename) → ∀ e' ∈ r, e'.op = .rename → e'.dest <+: q → Below e.dest e'.dest := by
      intro q hq hs e' he' ho' h
      have hlt := hasc e' he' hs (Or.inr ho')
      refine below_iff.2 ⟨?_, hlt.ne⟩
      rcases prefix_total hq h with h | h
      · exact h
      · exact absurd (path_le_of_prefix h) (not_le_of_gt hlt)
    have hcwd : ∀ e' ∈ e :: r, e'.op = .rename → ¬ e'.dest <+: env.cwd := by
      intro e' he' ho'
      rcases List.mem_cons.1 he' with rfl | he'
      · cases hB with
        | set _ h _ _ _ _ => obtain ⟨ty, h⟩ := h; rw [ho'] at h; cases h
        | ren t' _ ht' hR =>
          obtain ⟨s, j, hs, ht''⟩ := ha.ren e' (by simp) ho'
          rw [ht'] at ht''; cases ht''
          intro h
          exact hR.notba (by rw [renameTmp_eq]; exact h.trans (List.prefix_append _ _))
        | skip _ h _ => exact absurd ho' h
      · exact hD.cwd e' he' ho'
    refine ⟨hD.wf, ?_, ?_, ?_, ?_, hcwd⟩
    · intro e' he' hs'
      rcases List.mem_cons.1 he' with rfl | he'
      · cases hB with
        | set s _ hst _ hn _ =>
          obtain ⟨n, hn, hsame⟩ := hn
          refine ⟨s, n, hst, ?_, hsame⟩
          rw [hD.other, hn]
          · intro e'' he'' hs''
            exact (hasc e'' he'' (Or.inl hs') (Or.inl hs'')).ne'
          · intro e'' he'' ho'' hpre
            exact (later _ (List.prefix_refl _) (Or.inl hs') e'' he'' ho'' hpre).not_prefix hpre
          · rintro (⟨e'', he'', ho'', t, ht, hpre⟩ | ⟨x, hx, hm⟩)
            · obtain ⟨s'', j'', hs'', ht''⟩ := ha.ren e'' (by simp [he'']) ho''
              rw [ht] at ht''; cases ht''
              exact renTmp_ne_dest hg (ha.fr e'' (by simp [he''])) hf hs'' hpre rfl
            · exact copyName_notin_dest hg hx hf hm
        | ren _ ho _ _ => obtain ⟨ty, h⟩ := hs'; rw [ho] at h; cases h
        | skip h _ _ => exact absurd hs' h
      · exact hD.sets e' he' hs'
    · intro e' he' ho' t ht q hset hren hat
      rcases List.mem_cons.1 he' with rfl | he'
      · cases hB with
        | set _ h _ _ _ _ => obtain ⟨ty, h⟩ := h; rw [ho'] at h; cases h
        | ren t' _ ht' hR =>
          rw [ht] at ht'; cases ht'
          rw [hD.other, hR.get, if_pos (List.prefix_append _ _), List.drop_left]
          · intro e'' he'' hs''; exact hset e'' (by simp [he'']) hs''
          · intro e'' he'' ho'' hpre
            exact hren e'' (by simp [he'']) ho'' (later _ (List.prefix_append _ _) (Or.inr ho') e'' he'' ho'' hpre) hpre
          · exact ATmp_tail hat
        | skip _ h _ => exact absurd ho' h
      · rw [hD.moved e' he' ho' t ht q (fun e'' he'' => hset e'' (by simp [he''])) (fun e'' he'' => hren e'' (by simp [he''])) (ATmp_tail hat)]
        exact block_tmps hg ha hB he' ho' ht (hex e' he' ho' t ht) _ (List.prefix_append _ _)
    · intro q hs hr hat
      rw [hD.other q (fun e' he' => hs e' (by simp [he'])) (fun e' he' => hr e' (by simp [he'])) (ATmp_tail hat)]
      exact block_other hg hf hB (hs e (by simp)) (hr e (by simp)) hat
    · intro q hq
      by_cases hq' : ATmp env sel r q
      · exact hD.tmps q hq'
      · -- the temporary of this rename, which the move emptied
        rcases hq with ⟨e', he', ho', t, ht, hpre⟩ | h
        · rcases List.mem_cons.1 he' with rfl | he'
          · cases hB with
            | set _ h _ _ _ _ => obtain ⟨ty, h⟩ := h; rw [ho'] at h; cases h
            | ren t' _ ht' hR =>
              rw [ht] at ht'; cases ht'
              obtain ⟨s, j, hs, ht'⟩ := ha.ren e' (by simp) ho'
              rw [ht] at ht'; cases ht'
              have hnd : ∀ e'' ∈ e' :: r, e''.op = .rename → ¬ e''.dest <+: q := by
                intro e'' he'' ho'' h
                rcases prefix_total h hpre with h | h
                · refine hcwd e'' he'' ho'' ?_
                  have hb := below_iff.2 ⟨h, renTmp_ne_dest hg hf (ha.fr e'' he'') hs (List.prefix_refl _)⟩
                  have := prefix_dropLast_of_below hb
                  rwa [renameTmp_eq, List.dropLast_concat] at this
                · exact renTmp_ne_dest hg hf (ha.fr e'' he'') hs h rfl
              rw [hD.other q (fun e'' he'' _ => renTmp_ne_dest hg hf (ha.fr e'' (by simp [he''])) hs hpre)
                (fun e'' he'' => hnd e'' (by simp [he''])) hq', hR.get, if_neg (hnd e' (by simp) ho'), if_pos hpre]
            | skip _ h _ => exact absurd ho' h
          · exact absurd (Or.inl ⟨e', he', ho', t, ht, hpre⟩) hq'
        · exact absurd (Or.inr h) hq'

end

end SB
