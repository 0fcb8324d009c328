import Verif.Lib.OneDev

/-! Accept gives nothing on the host attributes of an overlay (proof machinery). -/

namespace SB

/-- No node is marked opaque, redirected or as a whiteout. -/
def HostPlain (fs : FS) : Prop := ∀ e ∈ fs, e.2.redirect = none ∧ e.2.opq = false ∧ e.2.whiteout = false

namespace HostPlain

variable {fs fs' : FS}

theorem get (h : HostPlain fs) {p : Path} {n : Node} (hg : fs.get p = some n) : n.redirect = none ∧ n.opq = false ∧ n.whiteout = false := h _ (FS.mem_of_get hg)

theorem set (h : HostPlain fs) {c : Path} {n : Node} (hn : n.redirect = none ∧ n.opq = false ∧ n.whiteout = false) : HostPlain (fs.set c n) := by
  intro e he
  rcases mem_fsSet he with h1 | h1
  · exact h e h1
  · rw [h1]; exact hn

theorem del (h : HostPlain fs) {c : Path} : HostPlain (fs.del c) := fun e he => h e (List.mem_filter.1 he).1

theorem move (h : HostPlain fs) {a b : Path} : HostPlain (fs.moveTree a b) := by
  intro e he
  obtain ⟨e0, h0, rfl⟩ := List.mem_map.1 he
  have := h e0 (List.mem_filter.1 h0).1
  split <;> exact this

theorem unlink (h : HostPlain fs) {p : Path} (hx : fs.unlink p = .ok fs') : HostPlain fs' := by
  unfold FS.unlink at hx
  repeat' (split at hx)
  all_goals first | (cases hx; done) | skip
  cases hx
  exact h.del

theorem rmdir (h : HostPlain fs) {p : Path} (hx : fs.rmdir p = .ok fs') : HostPlain fs' := by
  unfold FS.rmdir at hx
  repeat' (split at hx)
  all_goals first | (cases hx; done) | skip
  cases hx
  exact h.del

theorem rename (h : HostPlain fs) {p q : Path} (hx : fs.rename p q = .ok fs') : HostPlain fs' := by
  unfold FS.rename at hx
  repeat' (split at hx)
  all_goals first | (cases hx; done) | skip
  all_goals cases hx
  all_goals first
    | exact h
    | exact h.move

theorem symlink (h : HostPlain fs) {t : Str} {p : Path} (hx : fs.symlink t p = .ok fs') : HostPlain fs' := by
  unfold FS.symlink at hx
  repeat' (split at hx)
  all_goals first | (cases hx; done) | skip
  cases hx
  exact h.set ⟨rfl, rfl, rfl⟩

theorem mkdir (h : HostPlain fs) {p : Path} (hx : fs.mkdir p = .ok fs') : HostPlain fs' := by
  unfold FS.mkdir at hx
  repeat' (split at hx)
  all_goals first | (cases hx; done) | skip
  cases hx
  exact h.set ⟨rfl, rfl, rfl⟩

theorem writeFile (h : HostPlain fs) {p : Path} {d : Str} {m : Nat} (hx : fs.writeFile p d m = .ok fs') : HostPlain fs' := by
  unfold FS.writeFile at hx
  split at hx
  · cases hx
  · split at hx
    · cases hx
      exact h.set ⟨rfl, rfl, rfl⟩
    · rename_i n hn
      split at hx
      · cases hx
        exact h.set ⟨(h.get hn).1, (h.get hn).2.1, (h.get hn).2.2⟩
      all_goals cases hx

theorem chown (h : HostPlain fs) {p : Path} {u k : Nat} (hx : fs.chown p u k = .ok fs') : HostPlain fs' := by
  unfold FS.chown at hx
  split at hx
  · cases hx
  · split at hx
    · cases hx
    · rename_i n hn
      cases hx
      exact h.set ⟨(h.get hn).1, (h.get hn).2.1, (h.get hn).2.2⟩

theorem chmod (h : HostPlain fs) {p : Path} {m : Nat} (hx : fs.chmod p m = .ok fs') : HostPlain fs' := by
  unfold FS.chmod at hx
  split at hx
  · cases hx
  · split at hx
    · cases hx
    · rename_i n hn
      split at hx
      · cases hx
      · cases hx
        exact h.set ⟨(h.get hn).1, (h.get hn).2.1, (h.get hn).2.2⟩

end HostPlain

theorem exec_hostPlain {op : Op} {st st' : State} {x : Option AccErr} (h : HostPlain st.lower) (hx : exec op st = (st', x)) : HostPlain st'.lower := by
  have lift : ∀ {r : Except Errno FS}, liftLower st r = (st', x) → (∀ fs, r = .ok fs → HostPlain fs) → HostPlain st'.lower := by
    intro r h1 h2
    rcases liftLower_cases h1 with rfl | ⟨fs, h3, rfl⟩
    · exact h
    · exact h2 fs h3
  cases op with
  | rm p => exact lift hx (fun fs hf => h.unlink hf)
  | rmdir p => exact lift hx (fun fs hf => h.rmdir hf)
  | mv a b => exact lift hx (fun fs hf => h.rename hf)
  | chown p u k => exact lift hx (fun fs hf => h.chown hf)
  | chmod p m => exact lift hx (fun fs hf => h.chmod hf)
  | cp s t =>
    simp only [exec] at hx
    split at hx
    · cases hx; exact h
    · split at hx
      · exact lift hx (fun fs hf => h.writeFile hf)
      · cases hx; exact h
  | rmIfExists p =>
    simp only [exec] at hx
    split at hx
    · exact lift hx (fun fs hf => h.unlink hf)
    · cases hx; exact h
    · cases hx; exact h
  | ln s p =>
    simp only [exec] at hx
    split at hx
    · cases hx; exact h
    · split at hx
      · exact lift hx (fun fs hf => h.symlink hf)
      · cases hx; exact h
  | mkdirIfNeeded p =>
    simp only [exec] at hx
    split at hx
    · cases hx; exact h
    · exact lift hx (fun fs hf => h.mkdir hf)
  | clean p =>
    simp only [exec] at hx
    repeat' (split at hx)
    all_goals cases hx
    all_goals exact h

theorem crash_hostPlain {ops : List Op} {st st' : State} (hc : CrashState ops st st') (h : HostPlain st.lower) : HostPlain st'.lower := by
  induction hc with
  | here => exact h
  | @mid op ops st st' hm =>
    cases hm with
    | cp _ _ hf => exact h.writeFile hf
    | clean _ => exact h
  | @failed op ops st st' e hx => exact exec_hostPlain h hx
  | @later op ops st st' st'' hx _ ih => exact ih (exec_hostPlain h hx)

end SB
