import Verif.Lib.SetBlock

/-! A successful block of operations of one `Set` (proof machinery). -/

namespace SB

theorem run_liftLower {st st' : State} {r : Except Errno FS} (h : liftLower st r = (st', none)) :
    ∃ fs, r = .ok fs ∧ st' = { st with lower := fs } := by
  rcases exec_lift h with ⟨fs, h1, h2, _⟩ | ⟨_, _, _, h⟩
  · exact ⟨fs, h1, h2⟩
  · cases h

/-- If all operations of one `Set` succeed: the destination is as staged, the temporary is gone, everything else is as before. -/
theorem setOps_run {d t : Path} {s : Details} {st st' : State} (h : Slot d t st.lower) (hs : st.upper.get s.path = some s.node)
    (ht : st.lower.get t = none) (hsup : s.node.supported = true) (hr : run (setOps d s t) st = (st', none)) :
    st'.lower.WF ∧ Agree d t st.lower st'.lower ∧ (∃ n, st'.lower.get d = some n ∧ Spec.SameNode n s.node) ∧ st'.lower.get t = none := by
  have hc : CrashState (setOps d s t) st st' := by have := crash_of_run (ops := setOps d s t) (st := st); rw [hr] at this; exact this
  obtain ⟨hw', hag', _, _, htt⟩ := setOps_crash h hs ht hsup hc
  have fin : ∀ (st1 : State) (n1 : Node), Slot d t st1.lower → st1.lower.get d = some n1 →
      (s.node.isLnk = false → n1.isLnk = false → n1.kind = s.node.kind) → (s.node.isLnk = true → n1.kind = s.node.kind) →
      run (permOps d s.node) st1 = (st', none) → (∃ n, st'.lower.get d = some n ∧ Spec.SameNode n s.node) ∧
        (st1.lower.get t = none → st'.lower.get t = none) := by
    intro st1 n1 h1 hg hk1 hk2 hr
    obtain ⟨n', hn', hk', hu, hg', hp⟩ := permOps_run h1 hg hr
    have hc1 : CrashState (permOps d s.node) st1 st' := by
      have := crash_of_run (ops := permOps d s.node) (st := st1); rw [hr] at this; exact this
    obtain ⟨_, hout, _⟩ := permOps_crash h1 hg hc1
    refine ⟨⟨n', hn', ?_⟩, fun h0 => by rw [hout t h.ne, h0]⟩
    cases hl : s.node.isLnk with
    | true =>
      have hk := hk2 hl
      refine ⟨by rw [hk', hk], hu, hg', Or.inl ?_⟩
      rw [symlink_iff, isLnk_kind (hk'.trans hk), hl]
    | false =>
      obtain ⟨hp1, hl1⟩ := hp hl
      exact ⟨by rw [hk', hk1 hl hl1], hu, hg', Or.inr hp1⟩
  suffices (∃ n, st'.lower.get d = some n ∧ Spec.SameNode n s.node) ∧ st'.lower.get t = none from ⟨hw', hag', this.1, this.2⟩
  unfold setOps at hr
  split at hr
  · rename_i hreg
    obtain ⟨st1, he, hr⟩ := run_cons hr
    rcases exec_cp hs he with ⟨_, hx⟩ | ⟨c, fs, hk, hfs, rfl, _⟩
    · exact absurd rfl hx
    · obtain ⟨n, rfl, hkn, _, hw1, _⟩ := FS.writeFile_plain h.wf h.nt h.noLinkT hfs
      have s1 := h.step hw1 (agree_set (Or.inr rfl))
      obtain ⟨st2, he, hr⟩ := run_cons hr
      simp only [exec] at he
      obtain ⟨gs, hgs, rfl⟩ := run_liftLower he
      obtain ⟨hw2, ha2, hd2, ht2, _⟩ := slot_mv s1 (FS.get_set_self _ _ _) (by simp [Node.isDir, hkn]) hgs
      obtain ⟨h1, h2⟩ := fin _ n (s1.step hw2 ha2) hd2 (fun _ _ => by rw [hkn, hk]) (fun _ => by rw [hkn, hk]) hr
      exact ⟨h1, h2 ht2⟩
  · rename_i hreg
    have htt := htt (by simpa using hreg)
    refine ⟨?_, htt⟩
    split at hr
    · rename_i hlnk
      obtain ⟨tg, hk⟩ : ∃ tg, s.node.kind = .lnk tg := by
        unfold Node.isLnk Kind.isLnk at hlnk
        cases hk : s.node.kind <;> rw [hk] at hlnk <;> simp at hlnk
        exact ⟨_, rfl⟩
      obtain ⟨st1, he, hr⟩ := run_cons hr
      obtain ⟨st2, he2, hr⟩ := run_cons hr
      have h1 : st1.upper = st.upper ∧ Slot d t st1.lower := by
        simp only [exec] at he
        split at he
        · obtain ⟨fs, hfs, rfl⟩ := run_liftLower he
          obtain ⟨rfl, hw, _⟩ := FS.unlink_plain h.wf h.nd h.noLink hfs
          exact ⟨rfl, h.step hw (agree_del (Or.inl rfl))⟩
        · cases he; exact ⟨rfl, h⟩
        · cases he
      simp only [exec, h1.1, hs, hk] at he2
      obtain ⟨gs, hgs, rfl⟩ := run_liftLower he2
      obtain ⟨rfl, hw2, _⟩ := FS.symlink_plain h1.2.wf h.nd h1.2.noLink hgs
      exact (fin _ _ (h1.2.step hw2 (agree_set (Or.inl rfl))) (FS.get_set_self _ _ _) (fun _ _ => by rw [hk]) (fun _ => by rw [hk]) hr).1
    · rename_i hlnk
      have hdk : s.node.kind = .dir := by
        unfold Node.supported at hsup
        simp only [hreg, hlnk, Bool.false_or, Bool.or_false] at hsup
        simpa [Node.isDir] using hsup
      obtain ⟨st1, he, hr⟩ := run_cons hr
      simp only [exec] at he
      split at he
      · rename_i hdir
        cases he
        cases hg : st.lower.get d with
        | none =>
          unfold permOps at hr
          obtain ⟨st2, he, _⟩ := run_cons hr
          simp only [exec] at he
          obtain ⟨gs, hgs, _⟩ := run_liftLower he
          obtain ⟨n, hn, _⟩ := FS.chown_plain h.wf h.nd h.noLink hgs
          rw [hg] at hn; cases hn
        | some n1 =>
          refine (fin st n1 h hg (fun _ hl => ?_) (fun hl => absurd hl hlnk) hr).1
          have := FS.stat_chain h.nd h.wf.root (h.wf.chain hg) (fun n hn => by rw [hg] at hn; cases hn; exact hl)
          rw [hg] at this
          unfold FS.pisDir at hdir
          rw [this] at hdir
          rw [hdk]; simpa [Node.isDir] using hdir
      · obtain ⟨gs, hgs, rfl⟩ := run_liftLower he
        obtain ⟨rfl, hw2, _⟩ := FS.mkdir_plain h.wf h.nd h.noLink hgs
        exact (fin _ _ (h.step hw2 (agree_set (Or.inl rfl))) (FS.get_set_self _ _ _) (fun _ _ => by rw [hdk]) (fun _ => by rw [hdk]) hr).1

end SB
