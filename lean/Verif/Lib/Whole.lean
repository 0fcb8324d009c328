import Verif.Lib.Effect

/-! accept's host-changing part as a whole: effect on success, crash points (proof machinery). -/

namespace SB

section
variable {env : Env} {st : State} {sel : List Entry}

theorem run_phases {st' : State} (h : run (applyPlan env sel) st = (st', none)) :
    ∃ st1 st2, run (removeOps (realOrders env sel).1) st = (st1, none) ∧ run (premoveOps (realOrders env sel).2.1) st1 = (st2, none) ∧
      run (applyOps env 0 (realOrders env sel).2.2) st2 = (st', none) := by
  have hp : applyPlan env sel = removeOps (realOrders env sel).1 ++ premoveOps (realOrders env sel).2.1 ++
      applyOps env 0 (realOrders env sel).2.2 := rfl
  rw [hp, List.append_assoc, run_append] at h
  cases h1 : run (removeOps (realOrders env sel).1) st with
  | mk st1 x =>
    rw [h1] at h
    cases x with
    | some x => simp at h
    | none =>
      simp only at h
      rw [run_append] at h
      cases h2 : run (premoveOps (realOrders env sel).2.1) st1 with
      | mk st2 x =>
        rw [h2] at h
        cases x with
        | some x => simp at h
        | none => exact ⟨st1, st2, rfl, h2, h⟩

theorem upper_R {st1 : State} (h1 : run (removeOps (realOrders env sel).1) st = (st1, none)) : st1.upper = st.upper := by
  have := run_upper (ops := removeOps (realOrders env sel).1) (fun op hop => by
    obtain ⟨_, _, _, _, _, h⟩ := opFrom_remove hop; rcases h with rfl | rfl <;> rfl) st
  rw [h1] at this; exact this

theorem upper_M {st1 st2 : State} (h2 : run (premoveOps (realOrders env sel).2.1) st1 = (st2, none)) : st2.upper = st1.upper := by
  have := run_upper (ops := premoveOps (realOrders env sel).2.1) (fun op hop => by
    obtain ⟨_, _, _, _, _, _, rfl⟩ := opFrom_premove hop; rfl) st1
  rw [h2] at this; exact this

theorem ren_c5 {s d : Path} (_h : Good env st.lower sel) (hr : Spec.Renames sel s d) :
    ∃ e ∈ (realOrders env sel).2.2, e.op = .rename ∧ e.dest = d ∧ (∃ x, e.source = some x ∧ x.path = s) ∧ ∃ t, e.tmp = some t ∧
      (s, t) ∈ movePairs (realOrders env sel).2.1 := by
  obtain ⟨e, he, ho, rfl, x, hx, rfl⟩ := hr
  obtain ⟨e', he', hc⟩ := mem_of_From (core_c5 env sel) he
  obtain ⟨g1, g2, g3, g4⟩ := core_op hc
  obtain ⟨j, hj⟩ := c5_tmp he' (g1.trans ho) (g3.trans hx)
  exact ⟨e', he', g1.trans ho, g2, ⟨x, g3.trans hx, rfl⟩, _, hj, movePairs_of (mem_stableSort.1 he') (g1.trans ho) (g3.trans hx) hj⟩

theorem ren_of_c5 (h : Good env st.lower sel) {e : Entry} (he : e ∈ (realOrders env sel).2.2) (ho : e.op = .rename) :
    ∃ s, Spec.Renames sel s e.dest ∧ ∃ x j, e.source = some x ∧ x.path = s ∧ e.tmp = some (renameTmp env.cwd x.path e.dest (env.uuidR j)) := by
  obtain ⟨e0, h0, hc⟩ := from_c5 e he
  obtain ⟨g1, g2, g3, g4⟩ := core_op hc
  obtain ⟨x, hx⟩ := h.src e0 h0 (by rw [← g1, ho])
  obtain ⟨j, hj⟩ := c5_tmp he ho (g3.trans hx)
  exact ⟨x.path, ⟨e0, h0, by rw [← g1, ho], g2.symm, x, hx, rfl⟩, x, j, g3.trans hx, rfl, hj⟩

theorem set_of_c5 {e : Entry} (he : e ∈ (realOrders env sel).2.2) (hs : Spec.IsSet e) :
    ∃ e0 ∈ sel, Spec.IsSet e0 ∧ e0.dest = e.dest ∧ e0.staged = e.staged := by
  obtain ⟨e0, h0, hc⟩ := from_c5 e he
  obtain ⟨g1, g2, g3, g4⟩ := core_op hc
  exact ⟨e0, h0, by unfold Spec.IsSet at *; rw [← g1]; exact hs, g2.symm, g4.symm⟩

theorem atmp_name (hg : Good env st.lower sel) {q : Path} (h : ATmp env sel (realOrders env sel).2.2 q) : ∃ x, TmpName env sel x ∧ x ∈ q := by
  rcases h with ⟨e, he, ho, t, ht, hpre⟩ | ⟨x, hx, hq⟩
  · obtain ⟨e0, h0, hc⟩ := from_c5 e he
    obtain ⟨g1, g2, g3, g4⟩ := core_op hc
    obtain ⟨x, hx⟩ := hg.src e0 h0 (by rw [← g1, ho])
    obtain ⟨j, hj⟩ := c5_tmp he ho (g3.trans hx)
    rw [ht] at hj
    refine ⟨_, Or.inr ⟨j, e0, h0, x, hx, rfl⟩, hpre.subset ?_⟩
    rw [Option.some.inj hj, renameTmp_eq, g2]; simp
  · exact ⟨x, Or.inl hx, hq⟩

/-- Success of the host-changing part of accept. -/
theorem applied_of_run (h : Ready env st sel) (hdist : sel.Pairwise (fun e e' => Puts e → Puts e' → e.dest ≠ e'.dest)) {st' : State} (hr : run (applyPlan env sel) st = (st', none)) :
    Spec.Applied sel st.lower st'.lower ∧ st'.lower.WF ∧ (∀ x, TmpName env sel x → ∀ q, x ∈ q → st'.lower.get q = none) := by
  obtain ⟨st1, st2, h1, h2, h3⟩ := run_phases hr
  obtain ⟨hA, hcw⟩ := afterRM_run h.good h1 h2
  have hlk := hA.links (fun _ h => h)
  have hD := phaseA_run h.good (plain_A h.good hlk) (alist_c5 h (by rw [upper_M h2, upper_R h1])) (ainv_start h h1 h2)
    (ascending_c5 hdist) (fun _ h => h) h3
  obtain ⟨g1, hg1, hM⟩ := hA.done
  -- the tree before the last pass, at an ordinary path and at a temporary
  have src_iff : ∀ q, (∃ p ∈ movePairs (realOrders env sel).2.1, p.1 <+: q) ↔ ∃ s d, Spec.Renames sel s d ∧ s <+: q := by
    intro q
    constructor
    · rintro ⟨p, hp, hq⟩
      obtain ⟨d, hd⟩ := (pairs_sources h.good).1 ⟨p, hp, rfl⟩
      exact ⟨p.1, d, hd, hq⟩
    · rintro ⟨s, d, hr, hq⟩
      obtain ⟨p, hp, rfl⟩ := (pairs_sources h.good).2 ⟨d, hr⟩
      exact ⟨p, hp, hq⟩
  have inner_iff : ∀ s q, (∃ p ∈ movePairs (realOrders env sel).2.1, Below s p.1 ∧ p.1 <+: q) ↔
      ∃ s' d, Spec.Renames sel s' d ∧ Below s s' ∧ s' <+: q := by
    intro s q
    constructor
    · rintro ⟨p, hp, hb, hq⟩
      obtain ⟨d, hd⟩ := (pairs_sources h.good).1 ⟨p, hp, rfl⟩
      exact ⟨p.1, d, hd, hb, hq⟩
    · rintro ⟨s', d, hr, hb, hq⟩
      obtain ⟨p, hp, rfl⟩ := (pairs_sources h.good).2 ⟨d, hr⟩
      exact ⟨p, hp, hb, hq⟩
  have newHost : ∀ x, TmpName env sel x → ∀ q, x ∈ q → st.lower.get q = none := fun x hx q hq => NewName_none (TmpName.new h.good hx) hq
  -- paths with temporary names in them do not exist at the end
  have hnoren : ∀ e ∈ (realOrders env sel).2.2, e.op = .rename → ¬ e.dest <+: env.cwd := hD.cwd
  have tmpGone : ∀ x, TmpName env sel x → ∀ q, x ∈ q → st'.lower.get q = none := by
    intro x hx q hq
    by_cases hat : ATmp env sel (realOrders env sel).2.2 q
    · exact hD.tmps q hat
    · have hxd : ∀ e ∈ (realOrders env sel).2.2, x ∉ e.dest := by
        intro e he hxd
        obtain ⟨e0, h0, hc⟩ := from_c5 e he
        obtain ⟨g1, g2, g3, g4⟩ := core_op hc
        exact (TmpName.new h.good hx).dest e0 h0 (g2 ▸ hxd)
      have g1none : ∀ q, x ∈ q → g1.get q = none := by
        intro q hq
        by_cases hr : Removed sel q
        · exact (hg1 q).1 hr
        · rw [(hg1 q).2 hr]; exact newHost x hx q hq
      by_cases hd : ∃ e ∈ (realOrders env sel).2.2, e.op = .rename ∧ e.dest <+: q
      · -- take the deepest such destination
        obtain ⟨e, he, ho, hpre, hmax⟩ : ∃ e ∈ (realOrders env sel).2.2, e.op = .rename ∧ e.dest <+: q ∧
            ∀ e' ∈ (realOrders env sel).2.2, e'.op = .rename → Below e.dest e'.dest → ¬ e'.dest <+: q := by
          obtain ⟨e, he, ho, hpre⟩ := hd
          have : ∀ n, ∀ e ∈ (realOrders env sel).2.2, e.op = .rename → e.dest <+: q → q.length - e.dest.length = n →
              ∃ e ∈ (realOrders env sel).2.2, e.op = .rename ∧ e.dest <+: q ∧
              ∀ e' ∈ (realOrders env sel).2.2, e'.op = .rename → Below e.dest e'.dest → ¬ e'.dest <+: q := by
            intro n
            induction n using Nat.strong_induction_on with
            | _ n ih =>
              intro e he ho hpre hn
              by_cases hex : ∃ e' ∈ (realOrders env sel).2.2, e'.op = .rename ∧ Below e.dest e'.dest ∧ e'.dest <+: q
              · obtain ⟨e', he', ho', hb, hpre'⟩ := hex
                have hl : e.dest.length < e'.dest.length := by
                  obtain ⟨r, hr, h⟩ := hb
                  rw [h, List.length_append]; have := List.length_pos_of_ne_nil hr; omega
                have := hpre'.length_le
                exact ih _ (by omega) e' he' ho' hpre' rfl
              · exact ⟨e, he, ho, hpre, fun e' he' ho' hb hp => hex ⟨e', he', ho', hb, hp⟩⟩
          exact this _ e he ho hpre rfl
        obtain ⟨s, hren, xs, j, hxs, rfl, htm⟩ := ren_of_c5 h.good he ho
        obtain ⟨r, rfl⟩ := hpre
        have hxr : x ∈ r := by
          rw [List.mem_append] at hq; exact hq.resolve_left (hxd e he)
        rw [hD.moved e he ho _ htm r (fun e' he' _ heq => ?_) (fun e' he' ho' hb => hmax e' he' ho' hb) hat]
        · have hp := movePairs_of (mem_stableSort.1 he) ho hxs htm
          rw [hM.moved _ hp r]
          split
          · rfl
          · exact g1none _ (by simp [hxr])
        · exact hxd e' he' (by rw [heq]; exact hq)
      · rw [hD.other q (fun e he _ heq => hxd e he (by rw [heq]; exact hq)) (fun e he ho hp => hd ⟨e, he, ho, hp⟩) hat]
        by_cases ht : ∃ p ∈ movePairs (realOrders env sel).2.1, p.2 <+: q
        · obtain ⟨p, hp, hpre⟩ := ht
          exfalso
          apply hat
          obtain ⟨e, he, s, ho, hs, ht, _⟩ := mem_movePairs hp
          exact Or.inl ⟨e, mem_stableSort.2 he, ho, _, ht, hpre⟩
        · rw [hM.other q (fun p hp h => ht ⟨p, hp, h⟩)]
          split
          · rfl
          · exact g1none q hq
  -- value below a renamed destination
  have movedVal : ∀ s d r, Spec.Renames sel s d → (∀ e ∈ sel, Spec.IsSet e → e.dest ≠ d ++ r) →
      (∀ s' d', Spec.Renames sel s' d' → Below d d' → ¬ d' <+: d ++ r) →
      (¬ (∃ x, TmpName env sel x ∧ x ∈ d ++ r)) →
      st'.lower.get (d ++ r) = if ∃ p' ∈ movePairs (realOrders env sel).2.1, Below s p'.1 ∧ p'.1 <+: s ++ r then none else g1.get (s ++ r) := by
    intro s d r hren hset hdeep hnt
    obtain ⟨e, he, ho, rfl, ⟨x, hx, rfl⟩, t, ht, hp⟩ := ren_c5 h.good hren
    rw [hD.moved e he ho t ht r, hM.moved _ hp r]
    · intro e' he' hs' heq
      obtain ⟨e0, h0, hs0, hd0, _⟩ := set_of_c5 he' hs'
      exact hset e0 h0 hs0 (hd0.trans heq)
    · intro e' he' ho' hb
      obtain ⟨s', hr', _⟩ := ren_of_c5 h.good he' ho'
      exact hdeep s' e'.dest hr' hb
    · exact fun h' => hnt (atmp_name h.good h')
  -- value elsewhere
  have otherVal : ∀ q, (∀ e ∈ sel, Spec.IsSet e → e.dest ≠ q) → (∀ s d, Spec.Renames sel s d → ¬ d <+: q) →
      (¬ (∃ x, TmpName env sel x ∧ x ∈ q)) →
      st'.lower.get q = if ∃ p ∈ movePairs (realOrders env sel).2.1, p.1 <+: q then none else g1.get q := by
    intro q hset hren hnt
    rw [hD.other q, hM.other q]
    · intro p hp hpre
      obtain ⟨e, he, s, j, ho, hs, _, h2⟩ := pairs_c4 h.good hp
      refine hnt ⟨_, Or.inr ⟨j, e, he, s, hs, rfl⟩, hpre.subset ?_⟩
      rw [h2, renameTmp_eq]; simp
    · intro e' he' hs' heq
      obtain ⟨e0, h0, hs0, hd0, _⟩ := set_of_c5 he' hs'
      exact hset e0 h0 hs0 (hd0.trans heq)
    · intro e' he' ho'
      obtain ⟨s', hr', _⟩ := ren_of_c5 h.good he' ho'
      exact hren s' e'.dest hr'
    · exact fun h' => hnt (atmp_name h.good h')
  have notInDest : ∀ s d r x, Spec.Renames sel s d → TmpName env sel x → x ∈ d ++ r → x ∈ r := by
    rintro s d r x ⟨e, he, _, rfl, _⟩ hx hq
    rw [List.mem_append] at hq
    exact hq.resolve_left ((TmpName.new h.good hx).dest e he)
  refine ⟨⟨?_, ?_, ?_, ?_, ?_⟩, hD.wf, tmpGone⟩
  · intro e he hs s hst
    obtain ⟨e', he', hc⟩ := mem_of_From (core_c5 env sel) he
    obtain ⟨g1, g2, g3, g4⟩ := core_op hc
    obtain ⟨s', n, hs', hn, hsame⟩ := hD.sets e' he' (by unfold Spec.IsSet at *; rw [g1]; exact hs)
    rw [g4, hst] at hs'; cases hs'
    exact ⟨n, by rw [← g2]; exact hn, hsame⟩
  · intro s d r hren hset hdeep hrem hin
    by_cases hnt : ∃ x, TmpName env sel x ∧ x ∈ d ++ r
    · obtain ⟨x, hx, hq⟩ := hnt
      rw [tmpGone x hx _ hq, newHost x hx]
      have := notInDest s d r x hren hx hq
      simp [this]
    · rw [movedVal s d r hren hset hdeep hnt, if_neg, (hg1 _).2 hrem]
      rw [inner_iff]
      rintro ⟨s', d', hr, hb, hp⟩
      exact hin s' d' hr hb hp
  · intro s d r hren hset hdeep hor
    by_cases hnt : ∃ x, TmpName env sel x ∧ x ∈ d ++ r
    · obtain ⟨x, hx, hq⟩ := hnt
      exact tmpGone x hx _ hq
    · rw [movedVal s d r hren hset hdeep hnt]
      split
      · rfl
      · rename_i hno
        rw [inner_iff] at hno
        exact (hg1 _).1 (hor.resolve_right hno)
  · intro q hset hren hrem
    by_cases hnt : ∃ x, TmpName env sel x ∧ x ∈ q
    · obtain ⟨x, hx, hq⟩ := hnt
      rw [tmpGone x hx _ hq, newHost x hx q hq]
    · rw [otherVal q hset (fun s d hr => (hren s d hr).1) hnt, if_neg, (hg1 _).2 hrem]
      rw [src_iff]
      rintro ⟨s, d, hr, hp⟩
      exact (hren s d hr).2 hp
  · intro q hset hren hor
    by_cases hnt : ∃ x, TmpName env sel x ∧ x ∈ q
    · obtain ⟨x, hx, hq⟩ := hnt
      exact tmpGone x hx _ hq
    · rw [otherVal q hset hren hnt]
      split
      · rfl
      · rename_i hno
        rw [src_iff] at hno
        exact (hg1 _).1 (hor.resolve_right hno)

end

end SB
