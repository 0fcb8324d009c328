import Verif.Lib.Clean

/-! Crash points of accept's clean-up pass, and well-formedness at the crash points of its host-changing part (proof machinery). -/

namespace SB

/-- Crash points while stored paths are cleared, given that everything stored below a path to clear is itself to be cleared. -/
theorem clean_crash : ∀ (L : List Path) (st st' : State), st.upper.WF → L.Pairwise (fun a b => b < a) → (∀ p ∈ L, p ≠ []) →
    (∀ p ∈ L, ∀ q n, st.upper.get q = some n → p <+: q → q ∈ L) → CrashState (L.map .clean) st st' →
    st'.lower = st.lower ∧ st'.upper.WF ∧ ∀ q, st'.upper.get q = st.upper.get q ∨ (st'.upper.get q = none ∧ q ∈ L) := by
  intro L
  induction L with
  | nil =>
    intro st st' hw _ _ _ h
    cases crash_nil h
    exact ⟨rfl, hw, fun q => Or.inl rfl⟩
  | cons p L ih =>
    intro st st' hw hpw hne hcl h
    obtain ⟨hlt, hpw'⟩ := List.pairwise_cons.1 hpw
    have hp : p ≠ [] := hne p (by simp)
    have leaf : ∀ q n, st.upper.get q = some n → p <+: q → q = p := by
      intro q n hq hpre
      rcases List.mem_cons.1 (hcl p (by simp) q n hq hpre) with h | h
      · exact h
      · exact absurd (path_le_of_prefix hpre) (not_le_of_gt (hlt q h))
    have hbelow : ∀ q, Below p q → st.upper.get q = none := by
      intro q hq
      cases hg : st.upper.get q with
      | none => rfl
      | some n => exact absurd (leaf q n hg hq.prefix) (fun h => hq.ne h.symm)
    rw [List.map_cons] at h
    rcases crash_cons h with rfl | hm | ⟨x, he⟩ | ⟨st1, he, h⟩
    · exact ⟨rfl, hw, fun q => Or.inl rfl⟩
    · cases hm with
      | @clean _ _ keep hk =>
        refine ⟨rfl, ?_⟩
        simp only
        cases hkp : keep p with
        | true =>
          have : st.upper.filter (fun e => keep e.1) = st.upper := by
            rw [List.filter_eq_self]
            rintro ⟨q, n⟩ he
            by_cases hpq : p <+: q
            · rw [leaf q n (FS.get_of_mem hw.nodup he) hpq, hkp]
            · exact hk q hpq
          rw [this]
          exact ⟨hw, fun q => Or.inl rfl⟩
        | false =>
          have : st.upper.filter (fun e => keep e.1) = st.upper.del p := by
            unfold FS.del
            refine List.filter_congr ?_
            rintro ⟨q, n⟩ he
            by_cases hpq : q = p
            · subst hpq; simp [hkp]
            · have := hk q (fun h => hpq (leaf q n (FS.get_of_mem hw.nodup he) h))
              simp [hpq, this]
          rw [this]
          refine ⟨hw.del hp hbelow, fun q => ?_⟩
          rw [FS.get_del]
          by_cases hpq : p = q
          · right; subst hpq; simp
          · left; rw [if_neg hpq]
    · simp only [exec] at he
      cases hg : st.upper.get p with
      | none =>
        rw [hg] at he; simp only [Prod.mk.injEq] at he
        obtain ⟨rfl, _⟩ := he
        exact ⟨rfl, hw, fun q => Or.inl rfl⟩
      | some n =>
        rw [hg] at he
        simp only at he
        by_cases hd : n.isDir = true
        · rw [if_pos hd] at he
          have h1 := C53_stays_inside (fun _ => none) st.upper p n hw hg hp
          have heq : rmdirRecursiveF (fun _ => none) st.upper p = rmdirRecursive st.upper p := rfl
          rw [heq] at h1
          cases hr : rmdirRecursive st.upper p with
          | mk up y =>
            rw [hr] at he h1
            obtain ⟨h1, h2, _, h4⟩ := h1
            simp only at h1 h2 h4
            have fin : ∀ q, up.get q = st.upper.get q ∨ (up.get q = none ∧ q ∈ p :: L) := by
              intro q
              rcases h2 q with h | h
              · exact Or.inl h
              · by_cases hpq : p <+: q
                · cases hgq : st.upper.get q with
                  | none => left; exact h
                  | some k => right; exact ⟨h, by rw [leaf q k hgq hpq]; simp⟩
                · exact Or.inl (h1 q hpq)
            cases y with
            | none => simp at he
            | some e =>
              simp only [Prod.mk.injEq] at he
              obtain ⟨rfl, _⟩ := he
              exact ⟨rfl, h4, fin⟩
        · rw [if_neg hd, hw.unlink_eq hg (by simpa using hd)] at he
          simp at he
    · obtain ⟨hl1, hw1, hok, _⟩ := clean_step hw hp he
      have hget := hok rfl
      have hsub : ∀ q n, st1.upper.get q = some n → st.upper.get q = some n ∧ ¬ p <+: q := by
        intro q n hq
        rw [hget q] at hq
        split at hq
        · cases hq
        · exact ⟨hq, by assumption⟩
      obtain ⟨a, b, c⟩ := ih st1 st' hw1 hpw' (fun q hq => hne q (by simp [hq])) (fun p' hp' q n hq hpre => by
        obtain ⟨h1, h2⟩ := hsub q n hq
        rcases List.mem_cons.1 (hcl p' (by simp [hp']) q n h1 hpre) with h | h
        · subst h; exact absurd (List.prefix_refl _) h2
        · exact h) h
      refine ⟨a.trans hl1, b, fun q => ?_⟩
      rcases c q with h | ⟨h, hm⟩
      · rw [h, hget q]
        by_cases hpq : p <+: q
        · rw [if_pos hpq]
          cases hgq : st.upper.get q with
          | none => left; rfl
          | some k => right; exact ⟨rfl, by rw [leaf q k hgq hpq]; simp⟩
        · left; rw [if_neg hpq]
      · right; exact ⟨h, by simp [hm]⟩

section
variable {env : Env} {st : State} {sel : List Entry}

theorem crash_wf (h : Ready env st sel) {st' : State} (hc : CrashState (applyPlan env sel) st st') : st'.lower.WF := by
  have hg := h.good
  rcases crash_phases hc with hc | ⟨st1, h1, hc⟩ | ⟨st1, st2, h1, h2, hc⟩
  · exact (crash_region hg.wf (plain_R hg) hc).wf
  · obtain ⟨_, _, _, hA⟩ := afterRM_crash hg h1 hc
    exact hA.wf
  · obtain ⟨hA, _⟩ := afterRM_run hg h1 h2
    exact (phaseA_crash hg (plain_A hg (hA.links (fun _ h => h))) (alist_c5 h (by rw [upper_M h2, upper_R h1])) (ainv_start h h1 h2) (fun _ h => h) hc).wf

end

section
variable {env : Env} {host : FS} {sel : List Entry} {all : List Op} {G : FS}

/-- Whatever bears the name of a copy while the ascending pass runs is a regular file. -/
theorem phaseA_temps (hg : Good env host sel) (hp : PlainOps all G) : ∀ {l : List Entry} {i : Nat} {st st' : State}, AList env st sel l →
    AInv env sel all G l st.lower → (∀ op ∈ applyOps env i l, op ∈ all) → CrashState (applyOps env i l) st st' →
    ∀ x, CopyName env sel x → ∀ q, x ∈ q → ∀ n, st'.lower.get q = some n → n.isReg = true := by
  intro l
  induction l with
  | nil =>
    intro i st st' ha hi _ h x hx q hq n hn
    simp only [applyOps] at h
    cases crash_nil h
    rw [hi.noCopy x hx q hq] at hn; cases hn
  | cons e r ih =>
    intro i st st' ha hi hin h x hx q hq n hn
    rw [applyOps_cons] at h
    have hin1 : ∀ op ∈ blockOps env i e, op ∈ all := fun op ho => hin op (by rw [applyOps_cons]; simp [ho])
    have hin2 : ∀ op ∈ applyOps env (i + 1) r, op ∈ all := fun op ho => hin op (by rw [applyOps_cons]; simp [ho])
    have same : st'.lower = st.lower → n.isReg = true := by
      intro h; rw [h, hi.noCopy x hx q hq] at hn; cases hn
    rcases crash_append h with h | ⟨st1, hb, h⟩
    · have hf := ha.fr e (by simp)
      cases ho : e.op with
      | set ty =>
        obtain ⟨s, hs, hsup, hup⟩ := ha.set e (by simp) ⟨ty, ho⟩
        have hbo : blockOps env i e = setOps e.dest s (copyTmp e.dest (env.uuidC i)) := by unfold blockOps; simp only [ho, hs]
        rw [hbo] at h hin1
        obtain ⟨_, _, e0, h0, _, h2, _⟩ := dest_facts hg hf
        have ht : st.lower.get (copyTmp e.dest (env.uuidC i)) = none :=
          hi.noCopy _ ⟨i, e0, h0, rfl⟩ _ (by rw [copyTmp_eq, h2]; simp)
        obtain ⟨_, hag, _, htt, _⟩ := setOps_crash (slot_of hg hp hi hf hin1) hup ht hsup h
        by_cases hqt : q = copyTmp e.dest (env.uuidC i)
        · subst hqt; exact htt n hn
        · rw [hag q (fun h => copyName_notin_dest hg hx hf (h ▸ hq)) hqt, hi.noCopy x hx q hq] at hn; cases hn
      | rename =>
        obtain ⟨s, j, hs, ht⟩ := ha.ren e (by simp) ho
        have hbo : blockOps env i e = [.mv (renameTmp env.cwd s.path e.dest (env.uuidR j)) e.dest] := by unfold blockOps; simp only [ho, ht]
        rw [hbo] at h
        rcases crash_cons h with rfl | hm | ⟨x, he⟩ | ⟨st1, he, h⟩
        · exact same rfl
        · cases hm
        · simp only [exec] at he
          rcases exec_lift he with ⟨_, _, _, hx⟩ | ⟨_, _, rfl, _⟩
          · cases hx
          · exact same rfl
        · cases crash_nil h
          have := (block_inv hg hp ha hi hin1 (st' := st') (by rw [hbo]; simp [run, he])).noCopy x hx q hq
          rw [this] at hn; cases hn
      | remove =>
        have hbo : blockOps env i e = [] := by unfold blockOps; simp only [ho]
        rw [hbo] at h; cases crash_nil h; exact same rfl
      | error x =>
        have hbo : blockOps env i e = [] := by unfold blockOps; simp only [ho]
        rw [hbo] at h; cases crash_nil h; exact same rfl
    · have hi1 := block_inv hg hp ha hi hin1 hb
      have hu1 : st1.upper = st.upper := by have := run_upper (blockOps_noClean env i e) st; rw [hb] at this; exact this
      exact ih (ha.tail hu1) hi1 hin2 h x hx q hq n hn

end

section
variable {env : Env} {st : State} {sel : List Entry}

theorem crash_temps (h : Ready env st sel) {st' : State} (hc : CrashState (applyPlan env sel) st st') : ∀ x, CopyName env sel x → ∀ q, x ∈ q → ∀ n, st'.lower.get q = some n → n.isReg = true := by
  have hg := h.good
  intro x hx q hq n hn
  have none0 : st.lower.get q = none := by
    cases hk : st.lower.get q with
    | none => rfl
    | some k =>
      obtain ⟨i, e, he, rfl⟩ := hx
      exact absurd hq ((hg.fresh.copy i e he).host q (FS.mem_keys.2 ⟨k, hk⟩))
  rcases crash_phases hc with hc | ⟨st1, h1, hc⟩ | ⟨st1, st2, h1, h2, hc⟩
  · have hR := phaseR_crash (plain_R hg) (fun _ h => h) (fun op hop => by
      obtain ⟨e, _, s, _, _, h⟩ := opFrom_remove hop; exact ⟨_, h⟩) hg.wf (fun q h => .init h) hc
    rcases hR q with h | ⟨_, h⟩
    · rw [h, none0] at hn; cases hn
    · rw [h] at hn; cases hn
  · obtain ⟨L1, L2, hL, hA⟩ := afterRM_crash hg h1 hc
    rw [hA.noCopy hg (fun p hp => by rw [hL]; simp [hp]) x hx q hq] at hn; cases hn
  · obtain ⟨hA, _⟩ := afterRM_run hg h1 h2
    exact phaseA_temps hg (plain_A hg (hA.links (fun _ h => h))) (alist_c5 h (by rw [upper_M h2, upper_R h1])) (ainv_start h h1 h2) (fun _ h => h) hc x hx q hq n hn

end

/-! ### All nodes of the host on one device -/

theorem devOf_one {fs : FS} {d : Nat} (h : ∀ q n, fs.get q = some n → n.dev = d) {p : Path} {n : Node} (hg : fs.get p = some n) : fs.devOf p = d := by
  unfold FS.devOf; rw [hg]; exact h p n hg

end SB
