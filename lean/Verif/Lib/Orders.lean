import Verif.Lib.PhaseRM

/-! Order and distinctness in accept's working lists (proof machinery). -/

namespace SB

open scoped List

theorem byReverseSource_total (a b : Entry) : byReverseSource a b = true ∨ byReverseSource b a = true := by
  unfold byReverseSource
  cases a.source <;> cases b.source <;> simp [le_total]

theorem byReverseSource_trans (a b c : Entry) (h1 : byReverseSource a b = true) (h2 : byReverseSource b c = true) :
    byReverseSource a c = true := by
  unfold byReverseSource at *
  cases ha : a.source <;> cases hb : b.source <;> cases hc : c.source <;> simp_all
  exact le_trans h2 h1

theorem byDestination_total (a b : Entry) : byDestination a b = true ∨ byDestination b a = true := by
  simp [byDestination, le_total]

theorem byDestination_trans (a b c : Entry) (h1 : byDestination a b = true) (h2 : byDestination b c = true) : byDestination a c = true := by
  simp [byDestination] at *; exact le_trans h1 h2

/-- A relation on changes that does not look at the temporary. -/
theorem pairwise_core {R : Entry → Entry → Prop} (hR : ∀ a b a' b', a.core = a'.core → b.core = b'.core → R a b → R a' b')
    {l l' : List Entry} (hc : l.map Entry.core = l'.map Entry.core) (h : l.Pairwise R) : l'.Pairwise R := by
  induction l' generalizing l with
  | nil => simp
  | cons b r' ih =>
    cases l with
    | nil => simp at hc
    | cons a r =>
      simp only [List.map_cons, List.cons.injEq] at hc
      rw [List.pairwise_cons] at h ⊢
      refine ⟨fun y hy => ?_, ih hc.2 h.2⟩
      have : y.core ∈ r.map Entry.core := by rw [hc.2]; exact List.mem_map.2 ⟨y, hy, rfl⟩
      obtain ⟨x, hx, hxy⟩ := List.mem_map.1 this
      exact hR a x b y hc.1 hxy (h.1 x hx)

theorem desc_sort (l : List Entry) : (stableSort byReverseSource l).Pairwise (fun e e' => byReverseSource e e' = true) :=
  pairwise_stableSort byReverseSource_total byReverseSource_trans l

theorem desc_c3 (env : Env) (sel : List Entry) : (realOrders env sel).1.Pairwise (fun e e' => byReverseSource e e' = true) := desc_sort _

theorem desc_c4 (env : Env) (sel : List Entry) : (realOrders env sel).2.1.Pairwise (fun e e' => byReverseSource e e' = true) := by
  refine pairwise_core ?_ (assignTmps_core env 0 _).symm (desc_sort _)
  intro a b a' b' ha hb h
  obtain ⟨_, _, h3, _⟩ := core_op ha
  obtain ⟨_, _, h3', _⟩ := core_op hb
  unfold byReverseSource at *
  rw [← h3, ← h3']; exact h

theorem asc_c5 (env : Env) (sel : List Entry) : (realOrders env sel).2.2.Pairwise (fun e e' => e.dest ≤ e'.dest) := by
  have := pairwise_stableSort byDestination_total byDestination_trans (realOrders env sel).2.1
  exact this.imp (fun h => by simpa [byDestination] using h)

theorem assignTmps_idx {env : Env} {i : Nat} {l : List Entry} {e : Entry} {s : Details} (h : e ∈ assignTmps env i l)
    (ho : e.op = .rename) (hs : e.source = some s) :
    ∃ j, i ≤ j ∧ e.tmp = some (renameTmp env.cwd s.path e.dest (env.uuidR j)) := by
  induction l generalizing i with
  | nil => simp [assignTmps] at h
  | cons a r ih =>
    simp only [assignTmps] at h
    split at h
    · next h1 h2 =>
      rcases List.mem_cons.1 h with rfl | h
      · simp only at hs; rw [h2] at hs
        cases hs; exact ⟨i, le_refl _, rfl⟩
      · obtain ⟨j, hj, h⟩ := ih h; exact ⟨j, by omega, h⟩
    · next hno =>
      rcases List.mem_cons.1 h with rfl | h
      · exact absurd hs (hno s ho)
      · exact ih h

theorem assignTmps_distinct {env : Env} {host : FS} {sel : List Entry} (hg : Good env host sel) {i : Nat} {l : List Entry}
    (hf : ∀ e ∈ l, From sel e) :
    (assignTmps env i l).Pairwise (fun e e' => e.op = .rename → e'.op = .rename → e.tmp ≠ e'.tmp) := by
  induction l generalizing i with
  | nil => simp [assignTmps]
  | cons a r ih =>
    have hfa := hf a (by simp)
    have hfr := fun e he => hf e (List.mem_cons_of_mem _ he)
    simp only [assignTmps]
    split
    · next s h1 h2 =>
      refine List.pairwise_cons.2 ⟨fun e' he' _ ho' => ?_, ih hfr⟩
      obtain ⟨_, _, a0, ha0, _, hd, hsr, _⟩ := dest_facts hg hfa
      obtain ⟨_, _, e0, he0, ho0, hd', hsr', _⟩ := dest_facts hg (From.assign hfr e' he')
      obtain ⟨s', hs'⟩ := hg.src e0 he0 (by rw [← ho0, ho'])
      obtain ⟨j, hj, ht⟩ := assignTmps_idx he' ho' (by rw [hsr', hs'])
      rw [ht]
      simp only [ne_eq, Option.some.injEq]
      intro h
      rw [renameTmp_eq, renameTmp_eq] at h
      have h := List.append_cancel_left h
      simp only [List.cons.injEq, and_true] at h
      rw [hd, hd'] at h
      exact hg.fresh.renInj i j (by omega) a0 ha0 e0 he0 s s' (by rw [← hsr, h2]) hs' h
    · next hno =>
      refine List.pairwise_cons.2 ⟨fun e' he' ho => ?_, ih hfr⟩
      obtain ⟨_, _, a0, ha0, ho0, _, hsr, _⟩ := dest_facts hg hfa
      obtain ⟨s, hs⟩ := hg.src a0 ha0 (by rw [← ho0, ho])
      exact absurd (by rw [hsr, hs]) (hno s ho)

theorem tmps_c4 {env : Env} {host : FS} {sel : List Entry} (hg : Good env host sel) :
    (realOrders env sel).2.1.Pairwise (fun e e' => e.op = .rename → e'.op = .rename → e.tmp ≠ e'.tmp) :=
  assignTmps_distinct hg (From.sort from_c3)

theorem tmps_c5 {env : Env} {host : FS} {sel : List Entry} (hg : Good env host sel) :
    (realOrders env sel).2.2.Pairwise (fun e e' => e.op = .rename → e'.op = .rename → e.tmp ≠ e'.tmp) :=
  (List.Perm.pairwise_iff (fun h a b => (h b a).symm) (perm_stableSort byDestination _)).2 (tmps_c4 hg)

/-- Created, modified or moved to: the change has a destination on the host. -/
def Puts (e : Entry) : Prop := Spec.IsSet e ∨ e.op = .rename

theorem Puts.core {e e' : Entry} (hc : e.core = e'.core) (h : Puts e) : Puts e' := by
  obtain ⟨h1, _⟩ := core_op hc
  unfold Puts Spec.IsSet at *; rw [← h1]; exact h

theorem distinct_c5 {env : Env} {sel : List Entry} (hd : sel.Pairwise (fun e e' => Puts e → Puts e' → e.dest ≠ e'.dest)) :
    (realOrders env sel).2.2.Pairwise (fun e e' => Puts e → Puts e' → e.dest ≠ e'.dest) := by
  have sym : ∀ {x y : Entry}, (Puts x → Puts y → x.dest ≠ y.dest) → (Puts y → Puts x → y.dest ≠ x.dest) := fun h a b => (h b a).symm
  have hP := core_c5 env sel
  have h1 : (sel.map Entry.core).Pairwise (fun e e' => Puts e → Puts e' → e.dest ≠ e'.dest) := by
    rw [List.pairwise_map]
    exact hd.imp (fun h a b => h a b)
  have h2 := (List.Perm.pairwise_iff sym hP).2 h1
  rw [List.pairwise_map] at h2
  exact h2.imp (fun h a b => h a b)

theorem ascending_c5 {env : Env} {sel : List Entry} (hd : sel.Pairwise (fun e e' => Puts e → Puts e' → e.dest ≠ e'.dest)) :
    Ascending (realOrders env sel).2.2 :=
  ((asc_c5 env sel).and (distinct_c5 (env := env) hd)).imp (fun h a b => lt_of_le_of_ne h.1 (h.2 a b))

/-- Pairs (source, temporary) of the renames. -/
def movePairs (l : List Entry) : List (Path × Path) :=
  l.filterMap (fun e => match e.op, e.source, e.tmp with | .rename, some s, some t => some (s.path, t) | _, _, _ => none)

theorem premoveOps_eq (l : List Entry) : premoveOps l = (movePairs l).map (fun p => .mv p.1 p.2) := by
  induction l with
  | nil => rfl
  | cons e r ih =>
    simp only [premoveOps, movePairs, List.flatMap_cons, List.filterMap_cons] at ih ⊢
    rw [ih]
    cases ho : e.op <;> cases hs : e.source <;> cases ht : e.tmp <;> simp

theorem mem_movePairs {l : List Entry} {p : Path × Path} (h : p ∈ movePairs l) :
    ∃ e ∈ l, ∃ s, e.op = .rename ∧ e.source = some s ∧ e.tmp = some p.2 ∧ p.1 = s.path := by
  obtain ⟨e, he, h⟩ := List.mem_filterMap.1 h
  split at h
  · next s t ho hs ht => simp at h; subst h; exact ⟨e, he, s, ho, hs, ht, rfl⟩
  · cases h

theorem movePairs_of {l : List Entry} {e : Entry} (he : e ∈ l) {s : Details} {t : Path} (ho : e.op = .rename) (hs : e.source = some s)
    (ht : e.tmp = some t) : (s.path, t) ∈ movePairs l :=
  List.mem_filterMap.2 ⟨e, he, by simp only [ho, hs, ht]⟩

theorem movePairs_pairwise {l : List Entry} {R : Path × Path → Path × Path → Prop} (h : l.Pairwise (fun e e' => ∀ s t s' t',
    e.op = .rename → e'.op = .rename → e.source = some s → e.tmp = some t → e'.source = some s' → e'.tmp = some t' → R (s.path, t) (s'.path, t'))) :
    (movePairs l).Pairwise R := by
  unfold movePairs
  rw [List.pairwise_filterMap]
  refine h.imp (fun {a b} h p hp p' hp' => ?_)
  split at hp
  · next s t ho hs ht =>
    split at hp'
    · next s' t' ho' hs' ht' => simp at hp hp'; subst hp hp'; exact h s t s' t' ho ho' hs ht hs' ht'
    · cases hp'
  · cases hp

/-- The second pass on success: all moves are done. -/
theorem phaseM_run {all : List Op} {G : FS} (hp : PlainOps all G) {cwd : Path} : ∀ {L : List (Path × Path)} {D : List (Path × Path)}
    {a : FS} {st st' : State}, (∀ p ∈ L, Op.mv p.1 p.2 ∈ all) → st.lower.WF → (∀ q, st.lower.linkAt q → MayLink all G q) →
    MDone D a st.lower → (D ++ L).Pairwise (fun p p' => p'.1 ≤ p.1 ∧ p.2 ≠ p'.2) → (∀ p ∈ D ++ L, p.2.length = cwd.length + 1 ∧ cwd <+: p.2) →
    (∀ p ∈ D ++ L, ∀ p' ∈ D ++ L, ¬ p.2 <+: p'.1) → (∀ p ∈ D, ¬ p.1 <+: cwd) →
    run (L.map (fun p => .mv p.1 p.2)) st = (st', none) →
    MDone (D ++ L) a st'.lower ∧ st'.lower.WF ∧ (∀ p ∈ D ++ L, ¬ p.1 <+: cwd) := by
  intro L
  induction L with
  | nil =>
    intro D a st st' _ hw _ hD _ _ _ hcw h
    simp only [List.map_nil, run, Prod.mk.injEq, and_true] at h
    subst h
    exact ⟨by simpa using hD, hw, by simpa using hcw⟩
  | cons p L ih =>
    intro D a st st' hin hw hlk hD hpw hlen hns hcw h
    simp only [List.map_cons] at h
    obtain ⟨st1, he, h⟩ := run_cons h
    · simp only [exec] at he
      obtain ⟨gs, hgs, rfl⟩ := run_liftLower he
      have hop := hin p (by simp)
      have hpl := plain_now hlk hp hop
      obtain ⟨hN1, hl1⟩ := hpl p.1 (by simp [Op.paths])
      obtain ⟨hN2, hl2⟩ := hpl p.2 (by simp [Op.paths])
      have hne : p.1 ≠ p.2 := fun h => hns p (by simp) p (by simp) (by rw [h])
      obtain ⟨hR, hw1⟩ := FS.rename_plain hw hN1 hl1 hN2 hl2 hne hgs
      have hstep := exec_step (op := .mv p.1 p.2) hw hpl
      have hlower : (exec (.mv p.1 p.2) st).1.lower = gs := by simp only [exec, hgs, liftLower]
      rw [hlower] at hstep
      have hlk1 := mayLink_step hop hstep hlk
      have hpc : ¬ p.1 <+: cwd := by
        intro h
        exact hR.notab (h.trans (hlen p (by simp)).2)
      have hD1 : MDone (D ++ [p]) a gs := by
        obtain ⟨p1, p2⟩ := p
        refine mdone_step hD hR ?_ ?_ ?_ ?_
        · intro d hd
          exact ((List.pairwise_append.1 hpw).2.2 d hd (p1, p2) (by simp)).1
        · intro d hd q h1 h2
          have hne := ((List.pairwise_append.1 hpw).2.2 d hd (p1, p2) (by simp)).2
          have e1 := (hlen d (by simp [hd])).1
          have e2 : p2.length = cwd.length + 1 := (hlen (p1, p2) (by simp)).1
          rcases prefix_total h1 h2 with h | h
          · exact hne (h.eq_of_length (by omega))
          · exact hne (h.eq_of_length (by omega)).symm
        · intro d hd h
          exact hns d (by simp [hd]) (p1, p2) (by simp) h
        · intro d hd h
          have hb : p1 ≠ d.2 := fun h => hns d (by simp [hd]) (p1, p2) (by simp) (by rw [← h])
          have h1 := prefix_dropLast_of_below (below_iff.2 ⟨h, hb⟩)
          obtain ⟨el, hc⟩ := hlen d (by simp [hd])
          have : d.2.dropLast = cwd := by
            refine ((List.prefix_of_prefix_length_le hc (List.dropLast_prefix d.2) (by rw [List.length_dropLast]; omega)).eq_of_length
              (by rw [List.length_dropLast]; omega)).symm
          rw [this] at h1
          exact hpc h1
      have e1 : D ++ p :: L = (D ++ [p]) ++ L := by simp
      rw [e1] at hpw hlen hns
      have hcw1 : ∀ d ∈ D ++ [p], ¬ d.1 <+: cwd := by
        intro d hd
        rcases List.mem_append.1 hd with hd | hd
        · exact hcw d hd
        · simp only [List.mem_singleton] at hd; rw [hd]; exact hpc
      obtain ⟨h1, h2, h3⟩ := ih (st := { st with lower := gs }) (fun d hd => hin d (by simp [hd])) hw1 hlk1 hD1 hpw hlen hns hcw1 h
      exact ⟨by simpa using h1, h2, by simpa using h3⟩

/-- A crash point of atomic operations that leave everything alone when they fail is a prefix. -/
theorem crash_prefix {ops : List Op} (hm : ∀ op ∈ ops, ∃ a b, op = .mv a b) {st st' : State} (h : CrashState ops st st') :
    ∃ l1 l2, ops = l1 ++ l2 ∧ run l1 st = (st', none) := by
  induction h with
  | here => exact ⟨[], _, rfl, rfl⟩
  | @mid op ops st st' h =>
    obtain ⟨a, b, rfl⟩ := hm op (by simp)
    cases h
  | @failed op ops st st' e h =>
    obtain ⟨a, b, rfl⟩ := hm op (by simp)
    simp only [exec] at h
    rcases exec_lift h with ⟨_, _, _, hx⟩ | ⟨_, _, rfl, _⟩
    · cases hx
    · exact ⟨[], _, rfl, rfl⟩
  | @later op ops st st1 st2 he _ ih =>
    obtain ⟨l1, l2, rfl, h⟩ := ih (fun o ho => hm o (by simp [ho]))
    exact ⟨op :: l1, l2, rfl, by simp only [run, he, h]⟩

end SB
