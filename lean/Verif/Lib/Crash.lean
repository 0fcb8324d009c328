import Verif.Lib.Whole

/-! Crash points of accept's host-changing part (proof machinery). -/

namespace SB

section
variable {env : Env} {st : State} {sel : List Entry}

theorem crash_host (h : Ready env st sel) {st' : State} (hc : CrashState (applyPlan env sel) st st') :
    (∀ q, ¬ Spec.Touched env sel q → st'.lower.get q = st.lower.get q) ∧
    (∀ q, ¬ Spec.Temp env sel q → Spec.Complete sel st.lower q (st'.lower.kindAt q)) := by
  have hg := h.good
  have none_ok : ∀ (q : Path) (k : Option Kind), k = none → (Spec.Removes sel q ∨ ∃ s d, Spec.Renames sel s d ∧ s <+: q) →
      Spec.Complete sel st.lower q k := by
    rintro q k rfl (h | ⟨s, d, h, hp⟩)
    · right; right; right; exact ⟨rfl, Or.inl h⟩
    · right; right; right; exact ⟨rfl, Or.inr (Or.inl ⟨s, d, h, Or.inl hp⟩)⟩
  -- states between the passes
  have rm : ∀ (L1 L2 : List (Path × Path)) (fs : FS), movePairs (realOrders env sel).2.1 = L1 ++ L2 → AfterRM env st.lower sel L1 fs →
      (∀ q, ¬ Spec.Temp env sel q → (fs.get q = none ∧ (Spec.Removes sel q ∨ ∃ s d, Spec.Renames sel s d ∧ s <+: q)) ∨ fs.get q = st.lower.get q) ∧
      (∀ q, ¬ Spec.Touched env sel q → fs.get q = st.lower.get q) ∧
      (∀ p ∈ L1, ∀ r, fs.get (p.2 ++ r) = none ∨ fs.get (p.2 ++ r) = st.lower.get (p.1 ++ r)) := by
    intro L1 L2 fs hL hA
    obtain ⟨g1, hg1, hM⟩ := hA.done
    have g1or : ∀ q, (g1.get q = none ∧ Spec.Removes sel q) ∨ g1.get q = st.lower.get q := by
      intro q
      by_cases hr : Removed sel q
      · left; exact ⟨(hg1 q).1 hr, hr⟩
      · right; exact (hg1 q).2 hr
    have hmem : ∀ p ∈ L1, p ∈ movePairs (realOrders env sel).2.1 := fun p hp => by rw [hL]; simp [hp]
    refine ⟨fun q hq => ?_, fun q hq => ?_, fun p hp r => ?_⟩
    · rw [hM.other q]
      · split
        · next hex =>
          obtain ⟨p, hp, hpre⟩ := hex
          obtain ⟨e, he, s, j, ho, hs, h1, _⟩ := pairs_c4 hg (hmem p hp)
          left; exact ⟨rfl, Or.inr ⟨s.path, e.dest, ⟨e, he, ho, rfl, s, hs, rfl⟩, h1 ▸ hpre⟩⟩
        · rcases g1or q with ⟨h, hr⟩ | h
          · left; exact ⟨h, Or.inl hr⟩
          · right; exact h
      · intro p hp hpre
        obtain ⟨e, he, s, j, ho, hs, _, h2⟩ := pairs_c4 hg (hmem p hp)
        rw [h2, renameTmp_eq] at hpre
        exact hq (.rename e s j he ho hs hpre)
    · rw [hM.other q]
      · rw [if_neg, (hg1 q).2]
        · rintro ⟨e, he, ho, s, hs, hsq⟩; exact hq (.removed e s he ho hs hsq)
        · rintro ⟨p, hp, hpre⟩
          obtain ⟨e, he, s, j, ho, hs, h1, _⟩ := pairs_c4 hg (hmem p hp)
          rw [h1] at hpre
          exact hq (.renSource e s he ho hs hpre)
      · intro p hp hpre
        obtain ⟨e, he, s, j, ho, hs, _, h2⟩ := pairs_c4 hg (hmem p hp)
        rw [h2, renameTmp_eq] at hpre
        exact hq (.renTemp e s j he ho hs hpre)
    · rw [hM.moved p hp r]
      split
      · left; rfl
      · rcases g1or (p.1 ++ r) with ⟨h, _⟩ | h
        · left; exact h
        · right; exact h
  rcases crash_phases hc with hc | ⟨st1, h1, hc⟩ | ⟨st1, st2, h1, h2, hc⟩
  · have hR := phaseR_crash (plain_R hg) (fun _ h => h) (fun op hop => by
      obtain ⟨e, _, s, _, _, h⟩ := opFrom_remove hop; exact ⟨_, h⟩) hg.wf (fun q h => .init h) hc
    refine ⟨fun q hq => ?_, fun q _ => ?_⟩
    · rcases hR q with h | ⟨h, _⟩
      · exact h
      · rw [gone_removeOps] at h
        obtain ⟨e, he, ho, s, hs, hsq⟩ := h
        exact absurd (.removed e s he ho hs hsq) hq
    · rcases hR q with h | ⟨hg', h⟩
      · left; unfold FS.kindAt; rw [h]
      · rw [gone_removeOps] at hg'
        right; right; right; exact ⟨by unfold FS.kindAt; rw [h]; rfl, Or.inl hg'⟩
  · obtain ⟨L1, L2, hL, hA⟩ := afterRM_crash hg h1 hc
    obtain ⟨m1, m2, _⟩ := rm L1 L2 _ hL hA
    refine ⟨m2, fun q hq => ?_⟩
    rcases m1 q hq with h | h
    · exact none_ok q _ (by unfold FS.kindAt; rw [h.1]; rfl) h.2
    · left; unfold FS.kindAt; rw [h]
  · obtain ⟨hA, _⟩ := afterRM_run hg h1 h2
    obtain ⟨m1, m2, m3⟩ := rm _ [] _ (by simp) hA
    have hlk := hA.links (fun _ h => h)
    have hC := phaseA_crash hg (plain_A hg hlk) (alist_c5 h (by rw [upper_M h2, upper_R h1])) (ainv_start h h1 h2) (fun _ h => h) hc
    have etmp : ∀ q, ETmp env (realOrders env sel).2.2 q → Spec.Temp env sel q := by
      rintro q (⟨e, he, ho, t, ht, hpre⟩ | ⟨e, he, hs, j, hj⟩)
      · obtain ⟨e0, h0, hc⟩ := from_c5 e he
        obtain ⟨g1, g2, g3, g4⟩ := core_op hc
        obtain ⟨x, hx⟩ := hg.src e0 h0 (by rw [← g1, ho])
        obtain ⟨j, hj⟩ := c5_tmp he ho (g3.trans hx)
        rw [ht] at hj
        refine .rename e0 x j h0 (by rw [← g1, ho]) hx ?_
        rw [← renameTmp_eq, ← g2, ← Option.some.inj hj]; exact hpre
      · obtain ⟨e0, h0, hs0, hd0, _⟩ := set_of_c5 he hs
        refine .copy e0 j h0 hs0 ?_
        rw [hd0, ← copyTmp_eq, hj]
    have temp_touched : ∀ q, Spec.Temp env sel q → Spec.Touched env sel q := by
      intro q hq
      cases hq with
      | copy e i he hs h => exact .copyTemp e i he hs h
      | rename e s i he ho hs h => exact .renTemp e s i he ho hs h
    refine ⟨fun q hq => ?_, fun q hq => ?_⟩
    · rw [hC.other q, m2 q hq]
      · intro e he hs heq
        obtain ⟨e0, h0, hs0, hd0, _⟩ := set_of_c5 he hs
        exact hq (.dest e0 h0 hs0 (hd0.trans heq))
      · intro e he ho hpre
        obtain ⟨s, ⟨e0, h0, ho0, hd0, _⟩, _⟩ := ren_of_c5 hg he ho
        exact hq (.renDest e0 h0 ho0 (hd0 ▸ hpre))
      · exact fun h => hq (temp_touched q (etmp q h))
    · rcases hC.kind q (fun h => hq (etmp q h)) with hk | ⟨hk, e, he, hs, hd, s, hst, hln⟩ | ⟨e, he, ho, t, r, ht, rfl, hk⟩ | ⟨e, he, hs, hd, s, hst, hk⟩
      · rw [hk]
        rcases m1 q hq with h | h
        · exact none_ok q _ (by unfold FS.kindAt; rw [h.1]; rfl) h.2
        · left; unfold FS.kindAt; rw [h]
      · obtain ⟨e0, h0, hs0, hd0, hst0⟩ := set_of_c5 he hs
        right; right; right
        exact ⟨hk, Or.inr (Or.inr ⟨e0, h0, hs0, hd0.trans hd, s, hst0.trans hst, symlink_iff.2 hln⟩)⟩
      · obtain ⟨s, hren, x, j, hx, rfl, hj⟩ := ren_of_c5 hg he ho
        have hp := movePairs_of (mem_stableSort.1 he) ho hx ht
        rcases m3 _ hp r with h | h
        · right; right; right
          exact ⟨by rw [hk]; unfold FS.kindAt; simp only at h; rw [h]; rfl, Or.inr (Or.inl ⟨x.path, e.dest, hren, Or.inr (List.prefix_append _ _)⟩)⟩
        · right; right; left
          exact ⟨x.path, e.dest, r, hren, rfl, by rw [hk]; unfold FS.kindAt; simp only at h; rw [h]⟩
      · obtain ⟨e0, h0, hs0, hd0, hst0⟩ := set_of_c5 he hs
        right; left
        exact ⟨e0, h0, hs0, hd0.trans hd, s, hst0.trans hst, hk⟩

end

end SB
