import Verif.Model.Lock
import Mathlib.Data.List.Perm.Subperm
import Mathlib.Tactic.Tauto

/-! # C45, C46, C48, C62: locking and starting -/

namespace SB

open scoped List

namespace LockM

/-- The processes that are between acquiring and releasing the lock. -/
def M.holders (m : M) : List Ofd := m.ofds.filter Ofd.locked

theorem mem_close {p : Nat} {l : List Ofd} {o : Ofd} (h : o ∈ close p l) : ∃ x ∈ l, o = { x with procs := x.procs.filter (· ≠ p) } := by
  unfold close at h
  obtain ⟨x, hx, rfl⟩ := List.mem_map.1 (List.mem_filter.1 h).1
  exact ⟨x, hx, rfl⟩

/-- inodes of the descriptions that hold a lock -/
def M.lockedInodes (m : M) : List Nat := m.holders.map Ofd.inode

theorem lockedInodes_close (p : Nat) (l : List Ofd) : ((close p l).filter Ofd.locked).map Ofd.inode <+ (l.filter Ofd.locked).map Ofd.inode := by
  induction l with
  | nil => exact List.Sublist.refl _
  | cons o r ih =>
    have : close p (o :: r) = (if o.procs.filter (· ≠ p) ≠ [] then [{ o with procs := o.procs.filter (· ≠ p) }] else []) ++ close p r := by
      unfold close
      rw [List.map_cons, List.filter_cons]
      split <;> rename_i h
      · rw [if_pos (by simpa using h)]; rfl
      · rw [if_neg (by simpa using h)]; rfl
    rw [this, List.filter_append, List.map_append, List.filter_cons]
    split
    · cases hl : o.locked
      · simp; simpa using ih
      · simp; simpa using ih
    · cases hl : o.locked
      · simp; simpa using ih
      · simp only [List.filter_nil, List.map_nil, List.nil_append, if_true, List.map_cons]; exact ih.cons _

structure Inv (b : Nat) (m : M) : Prop where
  nodup : m.lockedInodes.Nodup
  ofds : ∀ o ∈ m.ofds, b ≤ o.inode ∧ o.inode < m.next
  file : ∀ i, m.file = some i → b ≤ i ∧ i < m.next
  le : b ≤ m.next
  count : m.next + (if m.file.isSome then 0 else 1) ≤ b + 1 + m.unlinks

theorem lockedInodes_mid (pre post : List Ofd) (o : Ofd) :
    ((pre ++ o :: post).filter Ofd.locked).map Ofd.inode = (pre.filter Ofd.locked).map Ofd.inode ++ ((if o.locked then [o.inode] else []) ++ (post.filter Ofd.locked).map Ofd.inode) := by
  rw [List.filter_append, List.map_append, List.filter_cons]
  split <;> simp

theorem inv_step {b : Nat} {m m' : M} (h : Inv b m) (hs : Step m m') : Inv b m' := by
  cases hs with
  | openOld p i hf =>
    refine ⟨by simpa [M.lockedInodes, M.holders] using h.nodup, ?_, h.file, h.le, h.count⟩
    intro o ho
    rcases List.mem_cons.1 ho with rfl | ho
    · exact h.file i hf
    · exact h.ofds o ho
  | openNew p hf =>
    refine ⟨by simpa [M.lockedInodes, M.holders] using h.nodup, ?_, ?_, Nat.le_succ_of_le h.le, ?_⟩
    · intro o ho
      rcases List.mem_cons.1 ho with rfl | ho
      · exact ⟨h.le, Nat.lt_succ_self _⟩
      · exact ⟨(h.ofds o ho).1, Nat.lt_succ_of_lt (h.ofds o ho).2⟩
    · intro i hi; cases hi; exact ⟨h.le, Nat.lt_succ_self _⟩
    · have := h.count; rw [hf] at this; simpa using this
  | acquire pre post o he hfree =>
    have hn := h.nodup
    unfold M.lockedInodes M.holders at hn
    refine ⟨?_, ?_, h.file, h.le, h.count⟩
    · unfold M.lockedInodes M.holders
      dsimp only
      rw [he, lockedInodes_mid] at hn
      rw [lockedInodes_mid]
      have hol : o.locked = false := hfree o (by rw [he]; simp) rfl
      simp only [hol, Bool.false_eq_true, if_false, List.nil_append, if_true] at hn ⊢
      rw [List.singleton_append, List.nodup_middle, List.nodup_cons]
      refine ⟨?_, hn⟩
      intro hmem
      rcases List.mem_append.1 hmem with hm | hm
      · obtain ⟨x, hx, hxi⟩ := List.mem_map.1 hm
        have := hfree x (by rw [he]; simp [(List.mem_filter.1 hx).1]) hxi
        rw [(List.mem_filter.1 hx).2] at this; cases this
      · obtain ⟨x, hx, hxi⟩ := List.mem_map.1 hm
        have := hfree x (by rw [he]; simp [(List.mem_filter.1 hx).1]) hxi
        rw [(List.mem_filter.1 hx).2] at this; cases this
    · intro x hx
      rcases List.mem_append.1 hx with hx | hx
      · exact h.ofds x (by rw [he]; simp [hx])
      · rcases List.mem_cons.1 hx with rfl | hx
        · exact h.ofds o (by rw [he]; simp)
        · exact h.ofds x (by rw [he]; simp [hx])
  | release pre post o he _ _ =>
    have hn := h.nodup
    unfold M.lockedInodes M.holders at hn
    rw [he, lockedInodes_mid] at hn
    refine ⟨?_, ?_, h.file, h.le, h.count⟩
    · unfold M.lockedInodes M.holders
      dsimp only
      rw [List.filter_append, List.filter_append, List.map_append, List.map_append, List.append_assoc]
      refine hn.sublist ((List.Sublist.refl _).append (List.Sublist.append ?_ (List.Sublist.refl _)))
      refine (lockedInodes_close o.opener [{ o with locked := false }]).trans ?_
      simp
    · intro x hx
      rcases List.mem_append.1 hx with hx | hx
      · rcases List.mem_append.1 hx with hx | hx
        · exact h.ofds x (by rw [he]; simp [hx])
        · obtain ⟨y, hy, rfl⟩ := mem_close hx
          rw [List.mem_singleton] at hy; subst hy
          exact h.ofds o (by rw [he]; simp)
      · exact h.ofds x (by rw [he]; simp [hx])
  | fork pre post o c he hl _ _ =>
    have hn := h.nodup
    unfold M.lockedInodes M.holders at hn
    rw [he, lockedInodes_mid] at hn
    refine ⟨?_, ?_, h.file, h.le, h.count⟩
    · unfold M.lockedInodes M.holders
      dsimp only
      rw [lockedInodes_mid]; exact hn
    · intro x hx
      rcases List.mem_append.1 hx with hx | hx
      · exact h.ofds x (by rw [he]; simp [hx])
      · rcases List.mem_cons.1 hx with rfl | hx
        · exact h.ofds o (by rw [he]; simp)
        · exact h.ofds x (by rw [he]; simp [hx])
  | unlink o ho hl hf =>
    refine ⟨h.nodup, h.ofds, by simp, h.le, ?_⟩
    have := h.count
    simp only [hf, if_true] at this
    simp; omega
  | exit p =>
    refine ⟨?_, ?_, h.file, h.le, h.count⟩
    · exact h.nodup.sublist (lockedInodes_close p m.ofds)
    · intro x hx
      obtain ⟨y, hy, rfl⟩ := mem_close hx
      exact h.ofds y hy

theorem inv_init {m : M} (h : m.Init) : ∃ b, Inv b m := by
  obtain ⟨h1, h2, h3⟩ := h
  cases hf : m.file with
  | none => exact ⟨m.next, by simp [M.lockedInodes, M.holders, h1], by simp [h1], by simp [hf], le_refl _, by simp [hf]⟩
  | some i =>
    obtain ⟨h4, h5⟩ := h3 i hf
    exact ⟨i, by simp [M.lockedInodes, M.holders, h1], by simp [h1], by simp [hf]; omega, by omega, by simp [hf]; omega⟩

theorem inv_reach {b : Nat} {m0 m : M} (h : Inv b m0) (hr : Reach m0 m) : Inv b m := by
  induction hr with
  | start => exact h
  | step _ hs ih => exact inv_step ih hs

end LockM

open LockM in
/-- **C45**: however many processes open, lock, unlock, fork and die in whatever order: at most one process is between acquiring and releasing the lock, plus one for
each time the lock file has been unlinked (by `delete`) in the meantime. -/
theorem C45_holders (m0 m : M) (h : m0.Init) (hr : Reach m0 m) : m.holders.length ≤ 1 + m.unlinks := by
  obtain ⟨b, hb⟩ := inv_init h
  have hi := inv_reach hb hr
  have hsub : m.lockedInodes ⊆ List.range' b (1 + m.unlinks) := by
    intro i hm
    obtain ⟨o, ho, rfl⟩ := List.mem_map.1 hm
    have := hi.ofds o (List.mem_filter.1 ho).1
    have hc := hi.count
    rw [List.mem_range'_1]
    split at hc <;> omega
  have := (List.subperm_of_subset hi.nodup hsub).length_le
  simpa [M.lockedInodes] using this

open LockM in
/-- **C45** without `delete`: one holder at a time. -/
theorem C45_one_holder_partial (m0 m : M) (h : m0.Init) (hr : Reach m0 m) (hu : m.unlinks = 0) (o o' : Ofd) (ho : o ∈ m.ofds) (ho' : o' ∈ m.ofds)
    (hl : o.locked = true) (hl' : o'.locked = true) : o = o' := by
  have := C45_holders m0 m h hr
  rw [hu] at this
  have h1 : o ∈ m.holders := List.mem_filter.2 ⟨ho, hl⟩
  have h2 : o' ∈ m.holders := List.mem_filter.2 ⟨ho', hl'⟩
  generalize m.holders = l at this h1 h2
  match l, this with
  | [], _ => cases h1
  | [x], _ => rw [List.mem_singleton] at h1 h2; rw [h1, h2]
  | _ :: _ :: _, h => simp at h

open LockM in
/-- **C45** and `delete`: whoever unlinks the lock file for the first time is, at that moment, the only one between acquiring and releasing the lock. -/
theorem C45_delete_exclusive_partial (m0 m m' : M) (h : m0.Init) (hr : Reach m0 m) (hs : Step m m') (hu : m.unlinks = 0) (hd : m'.unlinks ≠ 0) :
    ∃ o ∈ m.ofds, o.locked = true ∧ ∀ o' ∈ m.ofds, o'.locked = true → o' = o := by
  cases hs with
  | unlink o ho hl _ => exact ⟨o, ho, hl, fun o' ho' hl' => C45_one_holder_partial m0 m h hr hu o' o ho' ho hl' hl⟩
  | openOld _ _ _ => exact absurd hu hd
  | openNew _ _ => exact absurd hu hd
  | acquire _ _ _ _ _ => exact absurd hu hd
  | release _ _ _ _ _ _ => exact absurd hu hd
  | fork _ _ _ _ _ _ _ _ => exact absurd hu hd
  | exit _ => exact absurd hu hd

namespace LockM

/-- Nothing has happened yet, no lock file. -/
def m0 : M := ⟨none, 0, [], 0⟩

theorem m0_init : m0.Init := ⟨rfl, rfl, by simp [m0]⟩

/-- The lock file may be there from the beginning. -/
example : M.Init ⟨some 4, 5, [], 0⟩ := ⟨rfl, rfl, by simp⟩

/-- Two processes have opened the lock file, the first one holds the lock. -/
theorem ex_wait : Reach m0 ⟨some 0, 1, [⟨0, 2, [2], false⟩, ⟨0, 1, [1], true⟩], 0⟩ := by
  have r1 : Reach m0 ⟨some 0, 1, [⟨0, 1, [1], false⟩], 0⟩ := .step .start (.openNew m0 1 rfl)
  have r2 : Reach m0 ⟨some 0, 1, [⟨0, 1, [1], true⟩], 0⟩ := .step r1 (.acquire _ [] [] ⟨0, 1, [1], false⟩ rfl (by decide))
  exact .step r2 (.openOld _ 2 0 rfl)

/-- Non-vacuity of C45: the second process gets the lock when the first one releases it. -/
example : Reach m0 ⟨some 0, 1, [⟨0, 2, [2], true⟩], 0⟩ := by
  have r1 : Reach m0 ⟨some 0, 1, [⟨0, 2, [2], false⟩], 0⟩ := .step ex_wait (.release _ [⟨0, 2, [2], false⟩] [] ⟨0, 1, [1], true⟩ rfl rfl (by simp))
  exact .step r1 (.acquire _ [] [] ⟨0, 2, [2], false⟩ rfl (by decide))

/-- Non-vacuity of C45 for `delete`: the first process deletes while the second one waits. -/
example : ∃ m', Step ⟨some 0, 1, [⟨0, 2, [2], false⟩, ⟨0, 1, [1], true⟩], 0⟩ m' ∧ m'.unlinks ≠ 0 :=
  ⟨_, .unlink _ ⟨0, 1, [1], true⟩ (by simp) rfl rfl, by simp⟩

/-- The same after the first process has deleted the sandbox: the waiting process gets the lock of the unlinked file, a third one creates a new lock file. -/
theorem ex_two : Reach m0 ⟨some 1, 2, [⟨1, 3, [3], true⟩, ⟨0, 2, [2], true⟩], 1⟩ := by
  have r1 : Reach m0 ⟨none, 1, [⟨0, 2, [2], false⟩, ⟨0, 1, [1], true⟩], 1⟩ := .step ex_wait (.unlink _ ⟨0, 1, [1], true⟩ (by simp) rfl rfl)
  have r2 : Reach m0 ⟨none, 1, [⟨0, 2, [2], false⟩], 1⟩ := .step r1 (.release _ [⟨0, 2, [2], false⟩] [] ⟨0, 1, [1], true⟩ rfl rfl (by simp))
  have r3 : Reach m0 ⟨none, 1, [⟨0, 2, [2], true⟩], 1⟩ := .step r2 (.acquire _ [] [] ⟨0, 2, [2], false⟩ rfl (by decide))
  have r4 : Reach m0 ⟨some 1, 2, [⟨1, 3, [3], false⟩, ⟨0, 2, [2], true⟩], 1⟩ := .step r3 (.openNew _ 3 rfl)
  exact .step r4 (.acquire _ [] [⟨0, 2, [2], true⟩] ⟨1, 3, [3], false⟩ rfl (by simp))

end LockM

open LockM in
/-- **C45 refuted** in general: with a concurrent `delete` two processes can be in charge of the same sandbox name at once. -/
theorem C45_refuted_delete : ∃ m, Reach LockM.m0 m ∧ ∃ o ∈ m.ofds, ∃ o' ∈ m.ofds, o.locked = true ∧ o'.locked = true ∧ o.opener ≠ o'.opener :=
  ⟨_, ex_two, ⟨1, 3, [3], true⟩, by simp, ⟨0, 2, [2], true⟩, by simp, rfl, rfl, by decide⟩

open LockM in
/-- **C62**: if the process that holds the lock ends or is killed before it has started the sandbox's first process, the lock is free. -/
theorem C62_released_partial (m0 m : M) (h : m0.Init) (hr : Reach m0 m) (o : Ofd) (ho : o ∈ m.ofds) (hl : o.locked = true) (p : Nat) (hp : o.procs = [p]) :
    ∀ x ∈ close p m.ofds, x.inode = o.inode → x.locked = false := by
  obtain ⟨b, hb⟩ := inv_init h
  have hi := inv_reach hb hr
  intro x hx hxi
  obtain ⟨y, hy, rfl⟩ := mem_close hx
  by_contra hlk
  have hyl : y.locked = true := by simpa using hlk
  have hnd := hi.nodup
  unfold M.lockedInodes at hnd
  have : y = o := List.inj_on_of_nodup_map hnd (List.mem_filter.2 ⟨hy, hyl⟩) (List.mem_filter.2 ⟨ho, hl⟩) hxi
  subst this
  have := (List.mem_filter.1 hx).2
  simp [hp] at this

namespace LockM

/-- The lock is held by a description whose opener is gone; `c` still has it. -/
def Stuck (c i : Nat) (m : M) : Prop := ∃ o ∈ m.ofds, o.inode = i ∧ o.locked = true ∧ o.opener ∉ o.procs ∧ c ∈ o.procs

theorem stuck_step {c i : Nat} {m m' : M} (h : Stuck c i m) (hs : Step m m') : Stuck c i m' ∨ m' = { m with ofds := close c m.ofds } := by
  obtain ⟨o, ho, hi, hl, hop, hc⟩ := h
  cases hs with
  | openOld p j hf => exact .inl ⟨o, List.mem_cons_of_mem _ ho, hi, hl, hop, hc⟩
  | openNew p hf => exact .inl ⟨o, List.mem_cons_of_mem _ ho, hi, hl, hop, hc⟩
  | acquire pre post x he hfree =>
    left
    have hx : o ≠ x := by
      rintro rfl
      have := hfree o ho rfl
      rw [hl] at this; cases this
    refine ⟨o, ?_, hi, hl, hop, hc⟩
    rw [he] at ho
    rcases List.mem_append.1 ho with ho | ho
    · simp [ho]
    · rcases List.mem_cons.1 ho with ho | ho
      · exact absurd ho hx
      · simp [ho]
  | release pre post x he _ hxp =>
    left
    have hx : o ≠ x := by rintro rfl; exact hop hxp
    refine ⟨o, ?_, hi, hl, hop, hc⟩
    rw [he] at ho
    rcases List.mem_append.1 ho with ho | ho
    · simp [ho]
    · rcases List.mem_cons.1 ho with ho | ho
      · exact absurd ho hx
      · simp [ho]
  | fork pre post x d he _ hxp _ =>
    left
    have hx : o ≠ x := by rintro rfl; exact hop hxp
    refine ⟨o, ?_, hi, hl, hop, hc⟩
    rw [he] at ho
    rcases List.mem_append.1 ho with ho | ho
    · simp [ho]
    · rcases List.mem_cons.1 ho with ho | ho
      · exact absurd ho hx
      · simp [ho]
  | unlink x _ _ _ => exact .inl ⟨o, ho, hi, hl, hop, hc⟩
  | exit p =>
    by_cases hp : p = c
    · subst hp; exact .inr rfl
    · left
      have hcf : c ∈ o.procs.filter (· ≠ p) := List.mem_filter.2 ⟨hc, by simpa using fun h => hp h.symm⟩
      refine ⟨{ o with procs := o.procs.filter (· ≠ p) }, ?_, hi, hl, ?_, hcf⟩
      · unfold close
        exact List.mem_filter.2 ⟨List.mem_map.2 ⟨o, ho, rfl⟩, by simpa using List.ne_nil_of_mem hcf⟩
      · intro hm; exact hop (List.mem_filter.1 hm).1

end LockM

open LockM in
/-- **C62 refuted**: a process that is killed while it starts a sandbox leaves the lock with the sandbox's first process, and from then on nobody gets the lock of this
file until that process is gone: whatever happens, in every later state the lock is still held, unless the first process has exited in between. -/
theorem C62_refuted_start_killed : ∃ m, Reach LockM.m0 m ∧ (∃ o ∈ m.ofds, o.locked = true ∧ o.opener = 1 ∧ ∀ o ∈ m.ofds, 1 ∉ o.procs) ∧
    ∀ m', Reach m m' → (∃ o ∈ m'.ofds, o.inode = 0 ∧ o.locked = true) ∨ ∃ m1, Reach m m1 ∧ Reach { m1 with ofds := close 9 m1.ofds } m' := by
  have r1 : Reach LockM.m0 ⟨some 0, 1, [⟨0, 1, [1], false⟩], 0⟩ := .step .start (.openNew LockM.m0 1 rfl)
  have r2 : Reach LockM.m0 ⟨some 0, 1, [⟨0, 1, [1], true⟩], 0⟩ := .step r1 (.acquire _ [] [] ⟨0, 1, [1], false⟩ rfl (by decide))
  have r3 : Reach LockM.m0 ⟨some 0, 1, [⟨0, 1, [9, 1], true⟩], 0⟩ := .step r2 (.fork _ [] [] ⟨0, 1, [1], true⟩ 9 rfl rfl (by simp) (by simp))
  have r4 : Reach LockM.m0 ⟨some 0, 1, [⟨0, 1, [9], true⟩], 0⟩ := .step r3 (.exit _ 1)
  refine ⟨_, r4, ⟨⟨0, 1, [9], true⟩, by simp, rfl, rfl, by simp⟩, ?_⟩
  intro m' hr
  have key : Stuck 9 0 m' ∨ ∃ m1, Reach ⟨some 0, 1, [⟨0, 1, [9], true⟩], 0⟩ m1 ∧ Reach { m1 with ofds := close 9 m1.ofds } m' := by
    induction hr with
    | start => exact .inl ⟨⟨0, 1, [9], true⟩, by simp, rfl, rfl, by simp, by simp⟩
    | step hr hs ih =>
      rcases ih with ih | ⟨m1, h1, h2⟩
      · rcases stuck_step ih hs with h | rfl
        · exact .inl h
        · exact .inr ⟨_, hr, .start⟩
      · exact .inr ⟨m1, h1, .step h2 hs⟩
  rcases key with ⟨o, ho, h1, h2, _⟩ | h
  · exact .inl ⟨o, ho, h1, h2⟩
  · exact .inr h

end SB
