import Verif.Lib.SetOk

/-! On which device a set file ends up (proof machinery). -/

namespace SB

theorem permOps_dev {d t : Path} {st st' : State} {n m : Node} (h : Slot d t st.lower) (hn : st.lower.get d = some n)
    (hr : run (permOps d m) st = (st', none)) : ∃ n', st'.lower.get d = some n' ∧ n'.dev = n.dev := by
  unfold permOps at hr
  obtain ⟨st1, he, hr⟩ := run_cons hr
  simp only [exec] at he
  obtain ⟨fs, hfs, rfl⟩ := run_liftLower he
  obtain ⟨n0, hn0, hw1, rfl⟩ := FS.chown_plain h.wf h.nd h.noLink hfs
  rw [hn] at hn0; cases hn0
  have s1 := h.step hw1 (agree_set (t := t) (Or.inl rfl))
  split at hr
  · simp only [run, Prod.mk.injEq, and_true] at hr
    subst hr
    exact ⟨_, FS.get_set_self _ _ _, rfl⟩
  · obtain ⟨st2, he, hr⟩ := run_cons hr
    simp only [run, Prod.mk.injEq, and_true] at hr
    subst hr
    simp only [exec] at he
    obtain ⟨gs, hgs, rfl⟩ := run_liftLower he
    obtain ⟨n1, hn1, _, _, rfl⟩ := FS.chmod_plain s1.wf s1.nd s1.noLink hgs
    rw [FS.get_set_self] at hn1
    cases hn1
    exact ⟨_, FS.get_set_self _ _ _, rfl⟩

/-- A set file is on the device of its directory, unless a directory was there before, which stays on its own. -/
theorem setOps_dev {d t : Path} {s : Details} {st st' : State} (h : Slot d t st.lower) (hne : d ≠ []) (hs : st.upper.get s.path = some s.node)
    (ht : st.lower.get t = none) (hsup : s.node.supported = true) (hr : run (setOps d s t) st = (st', none)) :
    ∃ n, st'.lower.get d = some n ∧ (n.dev = st.lower.devOf d.dropLast ∨ ∃ k, st.lower.get d = some k ∧ n.dev = k.dev) ∧
      ∀ k, st.lower.get d = some k → k.isDir = true → n.dev = k.dev := by
  obtain ⟨_, hconv⟩ := setOps_conv h hne hs ht hsup hr
  have htne : t ≠ [] := by
    rintro rfl
    have := h.len
    exact hne (List.length_eq_zero_iff.1 this.symm)
  have hdl : t.dropLast = d.dropLast := by
    have h1 : Below t.dropLast d := (h.above _).1 (dropLast_below htne)
    have h2 := prefix_dropLast_of_below h1
    refine h2.eq_of_length ?_
    rw [List.length_dropLast, List.length_dropLast, h.len]
  have hnodir : s.node.isDir = false → ∀ k, st.lower.get d = some k → k.isDir = true → False := by
    intro hf k hk hd
    rw [hconv k hk, hf] at hd; cases hd
  unfold setOps at hr
  split at hr
  · rename_i hreg
    have hnd : s.node.isDir = false := by
      unfold Node.isReg at hreg; unfold Node.isDir
      cases hk : s.node.kind <;> simp_all [Kind.isReg]
    obtain ⟨st1, he, hr⟩ := run_cons hr
    rcases exec_cp hs he with ⟨_, hx⟩ | ⟨c, fs, hk, hfs, rfl, _⟩
    · exact absurd rfl hx
    · have hdev : ∃ n, fs = st.lower.set t n ∧ n.dev = st.lower.devOf d.dropLast := by
        unfold FS.writeFile at hfs
        cases hc : st.lower.canon t with
        | error e => rw [hc] at hfs; cases hfs
        | ok c =>
          obtain ⟨rfl, _⟩ := FS.canon_ok_chain h.wf h.nt h.noLinkT hc
          rw [hc] at hfs
          simp only [ht] at hfs
          cases hfs
          exact ⟨_, rfl, by rw [hdl]⟩
      obtain ⟨n, rfl, hkn, _, hw1, _⟩ := FS.writeFile_plain h.wf h.nt h.noLinkT hfs
      obtain ⟨n2, hfs2, hdv⟩ := hdev
      have : n = n2 := by
        have h1 := FS.get_set_self st.lower t n
        rw [hfs2, FS.get_set_self] at h1
        exact (Option.some.inj h1).symm
      subst this
      have s1 := h.step hw1 (agree_set (Or.inr rfl))
      obtain ⟨st2, he, hr⟩ := run_cons hr
      simp only [exec] at he
      obtain ⟨gs, hgs, rfl⟩ := run_liftLower he
      obtain ⟨hw2, ha2, hd2, ht2, _⟩ := slot_mv s1 (FS.get_set_self _ _ _) (by simp [Node.isDir, hkn]) hgs
      obtain ⟨n', hn', hnd'⟩ := permOps_dev (st := ⟨gs, st.upper⟩) (s1.step hw2 ha2) hd2 hr
      exact ⟨n', hn', Or.inl (hnd'.trans hdv), fun k hk hkd => (hnodir hnd k hk hkd).elim⟩
  · rename_i hreg
    split at hr
    · rename_i hlnk
      have hnd : s.node.isDir = false := by
        unfold Node.isLnk at hlnk; unfold Node.isDir
        cases hk : s.node.kind <;> simp_all [Kind.isLnk]
      obtain ⟨tg, hk⟩ : ∃ tg, s.node.kind = .lnk tg := by
        unfold Node.isLnk Kind.isLnk at hlnk
        cases hk : s.node.kind <;> rw [hk] at hlnk <;> simp at hlnk
        exact ⟨_, rfl⟩
      obtain ⟨st1, he, hr⟩ := run_cons hr
      obtain ⟨st2, he2, hr⟩ := run_cons hr
      have h1 : st1.upper = st.upper ∧ Slot d t st1.lower ∧ st1.lower.get d.dropLast = st.lower.get d.dropLast := by
        simp only [exec] at he
        split at he
        · obtain ⟨fs, hfs, rfl⟩ := run_liftLower he
          obtain ⟨rfl, hw, _⟩ := FS.unlink_plain h.wf h.nd h.noLink hfs
          exact ⟨rfl, h.step hw (agree_del (Or.inl rfl)), by simp only; rw [FS.get_del, if_neg (fun e => (dropLast_below hne).ne e.symm)]⟩
        · cases he; exact ⟨rfl, h, rfl⟩
        · cases he
      simp only [exec, h1.1, hs, hk] at he2
      obtain ⟨gs, hgs, rfl⟩ := run_liftLower he2
      obtain ⟨rfl, hw2, _⟩ := FS.symlink_plain h1.2.1.wf h.nd h1.2.1.noLink hgs
      obtain ⟨n', hn', hnd'⟩ := permOps_dev (h1.2.1.step hw2 (agree_set (Or.inl rfl))) (FS.get_set_self _ _ _) hr
      refine ⟨n', hn', Or.inl (hnd'.trans ?_), fun k hk hkd => (hnodir hnd k hk hkd).elim⟩
      simp only [FS.devOf, h1.2.2]
    · rename_i hlnk
      obtain ⟨st1, he, hr⟩ := run_cons hr
      simp only [exec] at he
      split at he
      · cases he
        cases hg : st.lower.get d with
        | none =>
          unfold permOps at hr
          obtain ⟨st2, he, _⟩ := run_cons hr
          simp only [exec] at he
          obtain ⟨gs, hgs, _⟩ := run_liftLower he
          obtain ⟨n, hn, _⟩ := FS.chown_plain h.wf h.nd h.noLink hgs
          rw [hg] at hn; cases hn
        | some n1 =>
          obtain ⟨n', hn', hnd'⟩ := permOps_dev h hg hr
          exact ⟨n', hn', Or.inr ⟨n1, rfl, hnd'⟩, fun k hk _ => by cases hk; exact hnd'⟩
      · obtain ⟨gs, hgs, rfl⟩ := run_liftLower he
        obtain ⟨rfl, hw2, hno⟩ := FS.mkdir_plain h.wf h.nd h.noLink hgs
        obtain ⟨n', hn', hnd'⟩ := permOps_dev (h.step hw2 (agree_set (Or.inl rfl))) (FS.get_set_self _ _ _) hr
        exact ⟨n', hn', Or.inl hnd', fun k hk => by rw [hno] at hk; cases hk⟩

end SB
