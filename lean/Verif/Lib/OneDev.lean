import Verif.Lib.CleanCrash
import Verif.Props.Suid

/-! All nodes of the host stay on one device while accept runs (proof machinery). -/

namespace SB

/-- Every node is on device `D`, and there is a root directory. -/
structure OneDev (D : Nat) (fs : FS) : Prop where
  dev : ∀ e ∈ fs, e.2.dev = D
  root : ∃ n, fs.get [] = some n ∧ n.isDir = true

variable {D : Nat} {fs fs' : FS}

theorem OneDev.get (h : OneDev D fs) {p : Path} {n : Node} (hg : fs.get p = some n) : n.dev = D := h.dev _ (FS.mem_of_get hg)

theorem canon_parent {p c : Path} (h : fs.canon p = .ok c) : c = [] ∨ fs.isDirAt c.dropLast = true := by
  unfold FS.canon at h
  split at h
  · cases h; exact Or.inl rfl
  · split at h
    · cases h
    · split at h
      · cases h
        right
        simpa using by assumption
      · cases h

theorem OneDev.set (h : OneDev D fs) {c : Path} {n : Node} (hn : n.dev = D) (hr : c = [] → n.isDir = true) : OneDev D (fs.set c n) := by
  refine ⟨fun e he => ?_, ?_⟩
  · rcases mem_fsSet he with h1 | h1
    · exact h.dev e h1
    · rw [h1, hn]
  · rw [FS.get_set]
    split
    · next hc => exact ⟨n, rfl, hr hc⟩
    · exact h.root

theorem OneDev.del (h : OneDev D fs) {c : Path} (hc : c ≠ []) : OneDev D (fs.del c) := by
  refine ⟨fun e he => h.dev e (List.mem_filter.1 he).1, ?_⟩
  rw [FS.get_del, if_neg hc]
  exact h.root

theorem OneDev.create (h : OneDev D fs) {p c : Path} (hc : fs.canon p = .ok c) (hg : fs.get c = none) {n : Node} (hn : n.dev = fs.devOf c.dropLast) : OneDev D (fs.set c n) := by
  have hne : c ≠ [] := by
    rintro rfl
    obtain ⟨k, hk, _⟩ := h.root
    rw [hk] at hg; cases hg
  rcases canon_parent hc with h1 | h1
  · exact absurd h1 hne
  · obtain ⟨k, hk, _⟩ := FS.isDirAt_iff.1 h1
    exact h.set (by rw [hn]; unfold FS.devOf; rw [hk]; exact h.get hk) (fun h2 => absurd h2 hne)

theorem get_root_move {a b : Path} (ha : a ≠ []) (hb : b ≠ []) : (fs.moveTree a b).get [] = fs.get [] := by
  have ha' : a.isPrefixOf [] = false := by cases a <;> simp_all
  have hb' : b.isPrefixOf [] = false := by cases b <;> simp_all
  unfold FS.moveTree
  induction fs with
  | nil => rfl
  | cons e r ih =>
    obtain ⟨q, n⟩ := e
    by_cases hq : q = []
    · subst hq
      simp [ha, hb', FS.get]
    · simp only [FS.get, hq, if_false]
      rw [List.filter_cons]
      split
      · simp only [List.map_cons]
        split
        · simp only [FS.get]
          rw [if_neg (by simp [hb])]
          exact ih
        · simp only [FS.get, hq, if_false]
          exact ih
      · exact ih

theorem OneDev.move (h : OneDev D fs) {a b : Path} (ha : a ≠ []) (hb : b ≠ []) : OneDev D (fs.moveTree a b) := by
  refine ⟨fun e he => ?_, by rw [get_root_move ha hb]; exact h.root⟩
  obtain ⟨e0, h0, rfl⟩ := List.mem_map.1 he
  have := h.dev e0 (List.mem_filter.1 h0).1
  split <;> exact this

theorem OneDev.move' (h : OneDev D fs) {a b : Path} (hn : ¬ (a = [] ∨ b = [])) : OneDev D (fs.moveTree a b) := h.move (fun hh => hn (Or.inl hh)) (fun hh => hn (Or.inr hh))

theorem OneDev.unlink (h : OneDev D fs) {p : Path} (hx : fs.unlink p = .ok fs') : OneDev D fs' := by
  unfold FS.unlink at hx
  split at hx
  · cases hx
  · split at hx
    · cases hx
    · rename_i n hn
      split at hx
      · cases hx
      · next hd =>
        cases hx
        refine h.del ?_
        rintro rfl
        obtain ⟨k, hk, hkd⟩ := h.root
        rw [hk] at hn; cases hn
        exact hd hkd

theorem OneDev.rmdir (h : OneDev D fs) {p : Path} (hx : fs.rmdir p = .ok fs') : OneDev D fs' := by
  unfold FS.rmdir at hx
  repeat' (split at hx)
  all_goals first | (cases hx; done) | skip
  cases hx
  exact h.del (by assumption)

theorem OneDev.rename (h : OneDev D fs) {p q : Path} (hx : fs.rename p q = .ok fs') : OneDev D fs' := by
  unfold FS.rename at hx
  repeat' (split at hx)
  all_goals first | (cases hx; done) | skip
  all_goals cases hx
  all_goals first
    | exact h
    | exact h.move' (by assumption)

theorem OneDev.symlink (h : OneDev D fs) {t : Str} {p : Path} (hx : fs.symlink t p = .ok fs') : OneDev D fs' := by
  unfold FS.symlink at hx
  split at hx
  · cases hx
  · split at hx
    · cases hx
    · cases hx
      exact h.create (by assumption) (by assumption) rfl

theorem OneDev.mkdir (h : OneDev D fs) {p : Path} (hx : fs.mkdir p = .ok fs') : OneDev D fs' := by
  unfold FS.mkdir at hx
  split at hx
  · cases hx
  · split at hx
    · cases hx
    · cases hx
      exact h.create (by assumption) (by assumption) rfl

/-- Overwriting an existing node by one of the same kind of type. -/
theorem OneDev.over (h : OneDev D fs) {c : Path} {n n' : Node} (hg : fs.get c = some n) (hd : n'.dev = n.dev) (hk : n.isDir = true → n'.isDir = true) : OneDev D (fs.set c n') := by
  refine h.set (by rw [hd]; exact h.get hg) ?_
  rintro rfl
  obtain ⟨k, hk', hkd⟩ := h.root
  rw [hk'] at hg; cases hg
  exact hk hkd

theorem OneDev.writeFile (h : OneDev D fs) {p : Path} {d : Str} {m : Nat} (hx : fs.writeFile p d m = .ok fs') : OneDev D fs' := by
  unfold FS.writeFile at hx
  split at hx
  · cases hx
  · split at hx
    · cases hx
      exact h.create (by assumption) (by assumption) rfl
    · rename_i n hn
      split at hx
      · cases hx
        rename_i hk
        exact h.over hn rfl (fun hh => by simp [Node.isDir, hk] at hh)
      all_goals cases hx

theorem OneDev.chown (h : OneDev D fs) {p : Path} {u k : Nat} (hx : fs.chown p u k = .ok fs') : OneDev D fs' := by
  unfold FS.chown at hx
  split at hx
  · cases hx
  · split at hx
    · cases hx
    · rename_i n hn
      cases hx
      exact h.over hn rfl (fun hh => hh)

theorem OneDev.chmod (h : OneDev D fs) {p : Path} {m : Nat} (hx : fs.chmod p m = .ok fs') : OneDev D fs' := by
  unfold FS.chmod at hx
  split at hx
  · cases hx
  · split at hx
    · cases hx
    · rename_i n hn
      split at hx
      · cases hx
      · cases hx
        exact h.over hn rfl (fun hh => hh)

theorem exec_oneDev {op : Op} {st st' : State} {x : Option AccErr} (h : OneDev D st.lower) (hx : exec op st = (st', x)) : OneDev D st'.lower := by
  have lift : ∀ {r : Except Errno FS}, liftLower st r = (st', x) → (∀ fs, r = .ok fs → OneDev D fs) → OneDev D st'.lower := by
    intro r h1 h2
    rcases liftLower_cases h1 with rfl | ⟨fs, h3, rfl⟩
    · exact h
    · exact h2 fs h3
  cases op with
  | rm p => exact lift hx (fun fs hf => h.unlink hf)
  | rmdir p => exact lift hx (fun fs hf => h.rmdir hf)
  | mv a b => exact lift hx (fun fs hf => h.rename hf)
  | chown p u k => exact lift hx (fun fs hf => h.chown hf)
  | chmod p m => exact lift hx (fun fs hf => h.chmod hf)
  | cp s t =>
    simp only [exec] at hx
    split at hx
    · cases hx; exact h
    · split at hx
      · exact lift hx (fun fs hf => h.writeFile hf)
      · cases hx; exact h
  | rmIfExists p =>
    simp only [exec] at hx
    split at hx
    · exact lift hx (fun fs hf => h.unlink hf)
    · cases hx; exact h
    · cases hx; exact h
  | ln s p =>
    simp only [exec] at hx
    split at hx
    · cases hx; exact h
    · split at hx
      · exact lift hx (fun fs hf => h.symlink hf)
      · cases hx; exact h
  | mkdirIfNeeded p =>
    simp only [exec] at hx
    split at hx
    · cases hx; exact h
    · exact lift hx (fun fs hf => h.mkdir hf)
  | clean p =>
    simp only [exec] at hx
    repeat' (split at hx)
    all_goals cases hx
    all_goals exact h

theorem crash_oneDev {ops : List Op} {st st' : State} (hc : CrashState ops st st') (h : OneDev D st.lower) : OneDev D st'.lower := by
  induction hc with
  | here => exact h
  | @mid op ops st st' hm =>
    cases hm with
    | cp _ _ hf => exact h.writeFile hf
    | clean _ => exact h
  | @failed op ops st st' e hx => exact exec_oneDev h hx
  | @later op ops st st' st'' hx _ ih => exact ih (exec_oneDev h hx)

end SB
