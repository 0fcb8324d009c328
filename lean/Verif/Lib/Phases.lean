import Verif.Lib.Region
import Verif.Spec.Host

/-! The operations of an accept and the selected changes they come from (proof machinery). -/

namespace SB

theorem copyTmp_eq (d : Path) (u : Str) : copyTmp d u = d.dropLast ++ [Spec.copyName d u] := rfl
theorem renameTmp_eq (cwd s d : Path) (u : Str) : renameTmp cwd s d u = cwd ++ [Spec.renName s d u] := rfl

/-- A change in one of the program's working lists comes from the selection. -/
def From (sel : List Entry) (e : Entry) : Prop := ∃ e0 ∈ sel, e.core = e0.core

theorem From.of_mem {sel : List Entry} {e : Entry} (h : e ∈ sel) : From sel e := ⟨e, h, rfl⟩

theorem From.sort {sel l : List Entry} {le} (h : ∀ e ∈ l, From sel e) : ∀ e ∈ stableSort le l, From sel e :=
  fun e he => h e (mem_stableSort.1 he)

theorem From.assign {sel l : List Entry} {env : Env} {i : Nat} (h : ∀ e ∈ l, From sel e) : ∀ e ∈ assignTmps env i l, From sel e := by
  intro e he
  obtain ⟨e', he', hc⟩ := mem_assignTmps he
  obtain ⟨e0, h0, hc0⟩ := h e' he'
  exact ⟨e0, h0, hc.trans hc0⟩

theorem from_afterPretend {env : Env} {sel : List Entry} : ∀ e ∈ afterPretend env sel, From sel e :=
  From.sort (From.assign (From.sort (From.sort (fun _ h => From.of_mem h))))

theorem from_c3 {env : Env} {sel : List Entry} : ∀ e ∈ (realOrders env sel).1, From sel e := From.sort from_afterPretend
theorem from_c4 {env : Env} {sel : List Entry} : ∀ e ∈ (realOrders env sel).2.1, From sel e := From.assign (From.sort from_c3)
theorem from_c5 {env : Env} {sel : List Entry} : ∀ e ∈ (realOrders env sel).2.2, From sel e := From.sort from_c4

theorem c4_tmp {env : Env} {sel : List Entry} {e : Entry} {s : Details} (h : e ∈ (realOrders env sel).2.1) (ho : e.op = .rename)
    (hs : e.source = some s) : ∃ j, e.tmp = some (renameTmp env.cwd s.path e.dest (env.uuidR j)) := assignTmps_rename h ho hs

theorem c5_tmp {env : Env} {sel : List Entry} {e : Entry} {s : Details} (h : e ∈ (realOrders env sel).2.2) (ho : e.op = .rename)
    (hs : e.source = some s) : ∃ j, e.tmp = some (renameTmp env.cwd s.path e.dest (env.uuidR j)) := c4_tmp (mem_stableSort.1 h) ho hs

theorem mem_removeOps {l : List Entry} {op : Op} (h : op ∈ removeOps l) :
    ∃ e ∈ l, ∃ s, e.op = .remove ∧ e.source = some s ∧ (op = .rm s.path ∨ op = .rmdir s.path) := by
  unfold removeOps at h
  obtain ⟨e, he, h⟩ := List.mem_flatMap.1 h
  refine ⟨e, he, ?_⟩
  cases ho : e.op <;> rw [ho] at h <;> try simp at h
  cases hs : e.source with
  | none => rw [hs] at h; simp at h
  | some s =>
    rw [hs] at h
    refine ⟨s, rfl, rfl, ?_⟩
    simp only at h
    split at h
    · left; simpa using h
    · right; simpa using h

theorem mem_premoveOps {l : List Entry} {op : Op} (h : op ∈ premoveOps l) :
    ∃ e ∈ l, ∃ s t, e.op = .rename ∧ e.source = some s ∧ e.tmp = some t ∧ op = .mv s.path t := by
  unfold premoveOps at h
  obtain ⟨e, he, h⟩ := List.mem_flatMap.1 h
  refine ⟨e, he, ?_⟩
  cases ho : e.op <;> rw [ho] at h <;> try simp at h
  cases hs : e.source with
  | none => rw [hs] at h; simp at h
  | some s =>
    rw [hs] at h
    cases ht : e.tmp with
    | none => rw [ht] at h; simp at h
    | some t => rw [ht] at h; exact ⟨s, t, rfl, rfl, rfl, by simpa using h⟩

theorem mem_applyOps {env : Env} {l : List Entry} {i : Nat} {op : Op} (h : op ∈ applyOps env i l) :
    ∃ e ∈ l, (∃ ty s j, e.op = .set ty ∧ e.staged = some s ∧ op ∈ setOps e.dest s (copyTmp e.dest (env.uuidC j))) ∨
      (∃ t, e.op = .rename ∧ e.tmp = some t ∧ op = .mv t e.dest) := by
  induction l generalizing i with
  | nil => simp [applyOps] at h
  | cons e r ih =>
    simp only [applyOps, List.mem_append] at h
    rcases h with h | h
    · refine ⟨e, by simp, ?_⟩
      cases ho : e.op with
      | set ty =>
        rw [ho] at h
        cases hs : e.staged with
        | none => rw [hs] at h; simp at h
        | some s => rw [hs] at h; left; exact ⟨ty, s, i, rfl, rfl, h⟩
      | rename =>
        rw [ho] at h
        cases ht : e.tmp with
        | none => rw [ht] at h; simp at h
        | some t => rw [ht] at h; right; exact ⟨t, rfl, rfl, by simpa using h⟩
      | remove => rw [ho] at h; simp at h
      | error x => rw [ho] at h; simp at h
    · obtain ⟨e', he', h'⟩ := ih h
      exact ⟨e', List.mem_cons_of_mem _ he', h'⟩

theorem opFrom_remove {env : Env} {sel : List Entry} {op : Op} (h : op ∈ removeOps (realOrders env sel).1) :
    ∃ e ∈ sel, ∃ s, e.op = .remove ∧ e.source = some s ∧ (op = .rm s.path ∨ op = .rmdir s.path) := by
  obtain ⟨e, he, s, ho, hs, h⟩ := mem_removeOps h
  obtain ⟨e0, h0, hc⟩ := from_c3 e he
  obtain ⟨h1, h2, h3, h4⟩ := core_op hc
  exact ⟨e0, h0, s, by rw [← h1, ho], by rw [← h3, hs], h⟩

theorem opFrom_premove {env : Env} {sel : List Entry} {op : Op} (h : op ∈ premoveOps (realOrders env sel).2.1) :
    ∃ e ∈ sel, ∃ s j, e.op = .rename ∧ e.source = some s ∧ op = .mv s.path (renameTmp env.cwd s.path e.dest (env.uuidR j)) := by
  obtain ⟨e, he, s, t, ho, hs, ht, h⟩ := mem_premoveOps h
  obtain ⟨j, hj⟩ := c4_tmp he ho hs
  obtain ⟨e0, h0, hc⟩ := from_c4 e he
  obtain ⟨h1, h2, h3, h4⟩ := core_op hc
  rw [ht] at hj
  cases hj
  exact ⟨e0, h0, s, j, by rw [← h1, ho], by rw [← h3, hs], by rw [h, h2]⟩

theorem opFrom_apply {env : Env} {sel : List Entry} (hsrc : ∀ e ∈ sel, e.op = .rename → ∃ s, e.source = some s) {op : Op}
    (h : op ∈ applyOps env 0 (realOrders env sel).2.2) :
    ∃ e ∈ sel, (∃ ty s j, e.op = .set ty ∧ e.staged = some s ∧ op ∈ setOps e.dest s (copyTmp e.dest (env.uuidC j))) ∨
      (∃ s j, e.op = .rename ∧ e.source = some s ∧ op = .mv (renameTmp env.cwd s.path e.dest (env.uuidR j)) e.dest) := by
  obtain ⟨e, he, h⟩ := mem_applyOps h
  obtain ⟨e0, h0, hc⟩ := from_c5 e he
  obtain ⟨h1, h2, h3, h4⟩ := core_op hc
  refine ⟨e0, h0, ?_⟩
  rcases h with ⟨ty, s, j, ho, hs, h⟩ | ⟨t, ho, ht, h⟩
  · left; exact ⟨ty, s, j, by rw [← h1, ho], by rw [← h4, hs], by rw [← h2]; exact h⟩
  · right
    obtain ⟨s, hs⟩ := hsrc e0 h0 (by rw [← h1, ho])
    obtain ⟨j, hj⟩ := c5_tmp he ho (by rw [h3, hs])
    rw [ht] at hj; cases hj
    exact ⟨s, j, by rw [← h1, ho], hs, by rw [h, h2]⟩

theorem mem_permOps {d : Path} {n : Node} {op : Op} (h : op ∈ permOps d n) : (∃ u g, op = .chown d u g) ∨ ∃ m, op = .chmod d m := by
  unfold permOps at h
  rcases List.mem_cons.1 h with h | h
  · left; exact ⟨_, _, h⟩
  · split at h
    · cases h
    · right; exact ⟨_, by simpa using h⟩

/-- The operations of one `Set`. -/
theorem mem_setOps {d tmp : Path} {s : Details} {op : Op} (h : op ∈ setOps d s tmp) :
    (s.node.isReg = true ∧ (op = .cp s.path tmp ∨ op = .mv tmp d)) ∨
    (s.node.isLnk = true ∧ (op = .rmIfExists d ∨ op = .ln s.path d)) ∨
    op = .mkdirIfNeeded d ∨ (∃ u g, op = .chown d u g) ∨ ∃ m, op = .chmod d m := by
  unfold setOps at h
  split at h
  · rename_i hr
    simp only [List.mem_cons] at h
    rcases h with h | h | h
    · left; exact ⟨hr, Or.inl h⟩
    · left; exact ⟨hr, Or.inr h⟩
    · right; right; right; exact mem_permOps h
  · split at h
    · rename_i hl
      simp only [List.mem_cons] at h
      rcases h with h | h | h
      · right; left; exact ⟨hl, Or.inl h⟩
      · right; left; exact ⟨hl, Or.inr h⟩
      · right; right; right; exact mem_permOps h
    · simp only [List.mem_cons] at h
      rcases h with h | h
      · right; right; left; exact h
      · right; right; right; exact mem_permOps h

/-- Host paths named by the operations of one `Set`. -/
theorem setOps_paths {d tmp : Path} {s : Details} {op : Op} (h : op ∈ setOps d s tmp) :
    ∀ x ∈ op.paths, x = d ∨ (x = tmp ∧ s.node.isReg = true) := by
  intro x hx
  rcases mem_setOps h with ⟨hr, rfl | rfl⟩ | ⟨_, rfl | rfl⟩ | rfl | ⟨u, g, rfl⟩ | ⟨m, rfl⟩ <;> simp [Op.paths] at hx
  · right; exact ⟨hx, hr⟩
  · rcases hx with hx | hx
    · right; exact ⟨hx, hr⟩
    · left; exact hx
  all_goals (left; exact hx)

theorem setOps_mv {d tmp : Path} {s : Details} {a b : Path} (h : Op.mv a b ∈ setOps d s tmp) : a = tmp ∧ b = d ∧ s.node.isReg = true := by
  rcases mem_setOps h with ⟨hr, h | h⟩ | ⟨_, h | h⟩ | h | ⟨u, g, h⟩ | ⟨m, h⟩ <;> simp at h
  exact ⟨h.1, h.2, hr⟩

theorem setOps_ln {d tmp : Path} {s : Details} {a b : Path} (h : Op.ln a b ∈ setOps d s tmp) :
    a = s.path ∧ b = d ∧ s.node.isLnk = true := by
  rcases mem_setOps h with ⟨hr, h | h⟩ | ⟨hl, h | h⟩ | h | ⟨u, g, h⟩ | ⟨m, h⟩ <;> simp at h
  exact ⟨h.1, h.2, hl⟩

end SB
