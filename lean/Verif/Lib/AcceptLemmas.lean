import Verif.Lib.ChangesLemmas

/-! Helper lemmas about the accept program (proof machinery). -/

namespace SB

/-- Entries equal up to the temporary path. -/
def Entry.core (e : Entry) : Entry := { e with tmp := none }

theorem assignTmps_core (env : Env) (i : Nat) (l : List Entry) : (assignTmps env i l).map Entry.core = l.map Entry.core := by
  induction l generalizing i with
  | nil => rfl
  | cons e r ih =>
    simp only [assignTmps]
    split
    · simp only [List.map_cons, ih]; rfl
    · simp only [List.map_cons, ih]

theorem mem_assignTmps {env : Env} {i : Nat} {l : List Entry} {e : Entry} (h : e ∈ assignTmps env i l) :
    ∃ e' ∈ l, e.core = e'.core := by
  have : e.core ∈ (assignTmps env i l).map Entry.core := List.mem_map.2 ⟨e, h, rfl⟩
  rw [assignTmps_core] at this
  obtain ⟨e', h1, h2⟩ := List.mem_map.1 this
  exact ⟨e', h1, h2.symm⟩

theorem mem_assignTmps' {env : Env} {i : Nat} {l : List Entry} {e : Entry} (h : e ∈ l) :
    ∃ e' ∈ assignTmps env i l, e'.core = e.core := by
  have : e.core ∈ l.map Entry.core := List.mem_map.2 ⟨e, h, rfl⟩
  rw [← assignTmps_core env i] at this
  obtain ⟨e', h1, h2⟩ := List.mem_map.1 this
  exact ⟨e', h1, h2⟩

theorem core_op {e e' : Entry} (h : e.core = e'.core) :
    e.op = e'.op ∧ e.dest = e'.dest ∧ e.source = e'.source ∧ e.staged = e'.staged := by
  cases e; cases e'; simp [Entry.core] at h ⊢; tauto

theorem checkRemoves_none {l : List Entry} : checkRemoves l = none ↔
    ∀ e ∈ l, e.op = .remove → ∃ s, e.source = some s ∧ (s.node.isReg || s.node.isLnk || s.node.isDir) = true := by
  induction l with
  | nil => simp [checkRemoves]
  | cons e r ih =>
    simp only [checkRemoves, List.forall_mem_cons]
    cases ho : e.op <;> simp only [ih, reduceCtorEq, false_implies, true_and, true_implies]
    cases hs : e.source with
    | none => simp
    | some s =>
      simp only [Option.some.injEq, exists_eq_left']
      by_cases h : (s.node.isReg || s.node.isLnk || s.node.isDir) = true
      · rw [if_pos h, ih]; simp only [h, true_and]
      · rw [if_neg h]; simp only [h]; simp

theorem checkApply_none {l : List Entry} : checkApply l = none ↔
    ∀ e ∈ l, (∀ x, e.op ≠ .error x) ∧ (∀ t, e.op = .set t → ∃ s, e.staged = some s ∧
      (s.node.isReg || s.node.isLnk || s.node.isDir) = true) := by
  induction l with
  | nil => simp [checkApply]
  | cons e r ih =>
    simp only [checkApply, List.forall_mem_cons]
    cases ho : e.op with
    | error x => simp
    | remove => simp [ih]
    | rename => simp [ih]
    | set t =>
      simp only [ne_eq, reduceCtorEq, not_false_eq_true, implies_true, EntryOp.set.injEq, forall_eq', true_and]
      cases hs : e.staged with
      | none => simp
      | some s =>
        simp only [Option.some.injEq, exists_eq_left']
        by_cases h : (s.node.isReg || s.node.isLnk || s.node.isDir) = true
        · rw [if_pos h, ih]; simp only [h, true_and]
        · rw [if_neg h]; simp only [h]; simp

theorem checkRenames_none {fs : FS} {l : List Entry} : checkRenames fs l = none ↔
    ∀ e ∈ l, e.op = .rename → ∀ s t, e.source = some s → e.tmp = some t →
      findMountPoint fs s.path = findMountPoint fs t ∧ findMountPoint fs t = findMountPoint fs e.dest := by
  induction l with
  | nil => simp [checkRenames]
  | cons e r ih =>
    simp only [checkRenames, List.forall_mem_cons]
    cases ho : e.op <;> simp only [ih, reduceCtorEq, false_implies, true_and, true_implies]
    cases hs : e.source with
    | none => simp [ih]
    | some s =>
      cases ht : e.tmp with
      | none => simp [ih]
      | some t =>
        have hq : (∀ (s_1 : Details) (t_1 : Path), some s = some s_1 → some t = some t_1 →
            findMountPoint fs s_1.path = findMountPoint fs t_1 ∧ findMountPoint fs t_1 = findMountPoint fs e.dest) ↔
            (findMountPoint fs s.path = findMountPoint fs t ∧ findMountPoint fs t = findMountPoint fs e.dest) :=
          ⟨fun h => h s t rfl rfl, by rintro h _ _ ⟨⟩ ⟨⟩; exact h⟩
        rw [hq]
        dsimp only
        by_cases h : findMountPoint fs s.path = findMountPoint fs t ∧ findMountPoint fs t = findMountPoint fs e.dest
        · rw [if_pos h, ih]; simp only [h, true_and]
        · rw [if_neg h]; simp only [h]; simp

theorem assignTmps_rename {env : Env} {i : Nat} {l : List Entry} {e : Entry} {s : Details} (h : e ∈ assignTmps env i l)
    (ho : e.op = .rename) (hs : e.source = some s) : ∃ j, e.tmp = some (renameTmp env.cwd s.path e.dest (env.uuidR j)) := by
  induction l generalizing i with
  | nil => simp [assignTmps] at h
  | cons a r ih =>
    simp only [assignTmps] at h
    split at h
    · next h1 h2 =>
      rcases List.mem_cons.1 h with rfl | h
      · simp only at hs; rw [h2] at hs
        cases hs; exact ⟨i, rfl⟩
      · exact ih h
    · next hno =>
      rcases List.mem_cons.1 h with rfl | h
      · exact absurd hs (hno s ho)
      · exact ih h

/-! ### which side operations touch -/

def Op.isClean : Op → Bool | .clean _ => true | _ => false

theorem liftLower_upper (st : State) (r : Except Errno FS) : (liftLower st r).1.upper = st.upper := by
  cases r <;> rfl

theorem exec_upper {op : Op} (h : op.isClean = false) (st : State) : (exec op st).1.upper = st.upper := by
  cases op <;> simp only [exec] <;> try exact liftLower_upper _ _
  case cp s t =>
    split
    · rfl
    · split
      · exact liftLower_upper _ _
      · rfl
  case rmIfExists p =>
    split
    · exact liftLower_upper _ _
    · rfl
    · rfl
  case ln s p =>
    split
    · rfl
    · split
      · exact liftLower_upper _ _
      · rfl
  case mkdirIfNeeded p =>
    split
    · rfl
    · exact liftLower_upper _ _
  case clean p => simp [Op.isClean] at h

theorem exec_lower_clean (p : Path) (st : State) : (exec (.clean p) st).1.lower = st.lower := by
  simp only [exec]
  split
  · rfl
  · split
    · split <;> rfl
    · split <;> rfl

theorem applyPlan_noClean (env : Env) (sel : List Entry) : ∀ op ∈ applyPlan env sel, op.isClean = false := by
  intro op h
  unfold applyPlan at h
  simp only [List.mem_append] at h
  rcases h with (h | h) | h
  · unfold removeOps at h
    obtain ⟨e, _, h⟩ := List.mem_flatMap.1 h
    split at h
    · split at h <;> (simp only [List.mem_singleton] at h; subst h; rfl)
    · simp at h
  · unfold premoveOps at h
    obtain ⟨e, _, h⟩ := List.mem_flatMap.1 h
    split at h
    · simp only [List.mem_singleton] at h; subst h; rfl
    · simp at h
  · generalize (realOrders env sel).2.2 = l at h
    generalize 0 = i at h
    induction l generalizing i with
    | nil => simp [applyOps] at h
    | cons e r ih =>
      simp only [applyOps, List.mem_append] at h
      rcases h with h | h
      · have hperm : ∀ p n, op ∈ permOps p n → op.isClean = false := by
          intro p n h
          unfold permOps at h
          rcases List.mem_cons.1 h with rfl | h
          · rfl
          · split at h
            · simp at h
            · simp only [List.mem_singleton] at h; subst h; rfl
        split at h
        · unfold setOps at h
          split at h
          · rcases List.mem_cons.1 h with rfl | h
            · rfl
            · rcases List.mem_cons.1 h with rfl | h
              · rfl
              · exact hperm _ _ h
          · split at h
            · rcases List.mem_cons.1 h with rfl | h
              · rfl
              · rcases List.mem_cons.1 h with rfl | h
                · rfl
                · exact hperm _ _ h
            · rcases List.mem_cons.1 h with rfl | h
              · rfl
              · exact hperm _ _ h
        · simp only [List.mem_singleton] at h; subst h; rfl
        · simp at h
      · exact ih _ h

theorem run_append (a b : List Op) (st : State) :
    run (a ++ b) st = match run a st with | (st', none) => run b st' | (st', some e) => (st', some e) := by
  induction a generalizing st with
  | nil => rfl
  | cons op a ih =>
    simp only [List.cons_append, run]
    cases h : exec op st with
    | mk st' err => cases err with
      | none => simp only [ih]
      | some e => rfl

theorem run_upper {ops : List Op} (h : ∀ op ∈ ops, op.isClean = false) (st : State) : (run ops st).1.upper = st.upper := by
  induction ops generalizing st with
  | nil => rfl
  | cons op ops ih =>
    have h1 := exec_upper (h op (by simp)) st
    simp only [run]
    cases hx : exec op st with
    | mk st' err =>
      rw [hx] at h1
      cases err with
      | none => simp only; rw [ih (fun o ho => h o (by simp [ho]))]; exact h1
      | some e => exact h1

theorem crash_upper {ops : List Op} (h : ∀ op ∈ ops, op.isClean = false) {st st' : State} (hc : CrashState ops st st') :
    st'.upper = st.upper := by
  induction hc with
  | here => rfl
  | mid hm =>
    cases hm with
    | cp _ _ _ => rfl
    | clean _ => exact absurd (h _ List.mem_cons_self) (by simp [Op.isClean])
  | @failed op ops st st' e hx =>
    have := exec_upper (h op List.mem_cons_self) st
    rw [hx] at this; exact this
  | @later op ops st st' st'' hx _ ih =>
    have h1 := exec_upper (h op (by simp)) st
    rw [hx] at h1
    rw [ih (fun o ho => h o (by simp [ho]))]; exact h1

theorem crash_append {a b : List Op} {st st' : State} (h : CrashState (a ++ b) st st') :
    CrashState a st st' ∨ ∃ st1, run a st = (st1, none) ∧ CrashState b st1 st' := by
  induction a generalizing st with
  | nil => right; exact ⟨st, rfl, h⟩
  | cons op a ih =>
    simp only [List.cons_append] at h
    cases h with
    | here => left; exact .here
    | mid hm => left; exact .mid hm
    | failed hx => left; exact .failed hx
    | later hx hc =>
      rcases ih hc with h | ⟨st1, h1, h2⟩
      · left; exact .later hx h
      · right; exact ⟨st1, by simp only [run, hx]; exact h1, h2⟩

theorem crash_of_run {ops : List Op} {st : State} : CrashState ops st (run ops st).1 := by
  induction ops generalizing st with
  | nil => exact .here
  | cons op ops ih =>
    simp only [run]
    cases hx : exec op st with
    | mk st' err =>
      cases err with
      | none => exact .later hx ih
      | some e => exact .failed hx

theorem cleanOps_isClean {cs : List Entry} {op : Op} (h : op ∈ cleanOps cs) : ∃ p, op = .clean p := by
  unfold cleanOps at h
  obtain ⟨p, _, rfl⟩ := List.mem_map.1 h
  exact ⟨p, rfl⟩

theorem crash_clean_lower {ops : List Op} (h : ∀ op ∈ ops, ∃ p, op = .clean p) {st st' : State}
    (hc : CrashState ops st st') : st'.lower = st.lower := by
  induction hc with
  | here => rfl
  | @mid op ops st st' hm =>
    obtain ⟨p, rfl⟩ := h _ (List.mem_cons_self)
    cases hm; rfl
  | @failed op ops st st' e hx =>
    obtain ⟨p, rfl⟩ := h op (by simp)
    have := exec_lower_clean p st
    rw [hx] at this; exact this
  | @later op ops st st' st'' hx _ ih =>
    obtain ⟨p, rfl⟩ := h op (by simp)
    have h1 := exec_lower_clean p st
    rw [hx] at h1
    rw [ih (fun o ho => h o (by simp [ho]))]; exact h1

/-- The state after an accept is the old one or the result of running the plan. -/
theorem accept_state (env : Env) (st : State) :
    (accept env st).state = st ∨ (accept env st).state = (run (plan env (selected env st)) st).1 := by
  unfold accept
  simp only
  split
  · left; rfl
  · split
    · left; rfl
    · right; rfl

end SB
