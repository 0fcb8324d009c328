import Verif.Lib.PhaseACrash

/-! The removal pass and the pass that moves renamed paths to temporaries (proof machinery). -/

namespace SB

open scoped List

/-- The path is removed by one of the operations. -/
def Gone (ops : List Op) (q : Path) : Prop := Op.rm q ∈ ops ∨ Op.rmdir q ∈ ops

theorem rmop_exec {op : Op} {p : Path} (hop : op = .rm p ∨ op = .rmdir p) {st st' : State} {x : Option AccErr} (hw : st.lower.WF)
    (hN : NormalPath p) (hl : st.lower.NoLinkAbove p) (h : exec op st = (st', x)) :
    (x ≠ none ∧ st' = st) ∨ (x = none ∧ st' = { st with lower := st.lower.del p } ∧ (st.lower.del p).WF) := by
  rcases hop with rfl | rfl <;> simp only [exec] at h
  · rcases exec_lift h with ⟨fs, hfs, rfl, rfl⟩ | ⟨e, _, rfl, rfl⟩
    · obtain ⟨rfl, hw', _⟩ := FS.unlink_plain hw hN hl hfs
      right; exact ⟨rfl, rfl, hw'⟩
    · left; exact ⟨by simp, rfl⟩
  · rcases exec_lift h with ⟨fs, hfs, rfl, rfl⟩ | ⟨e, _, rfl, rfl⟩
    · obtain ⟨rfl, hw', _⟩ := FS.rmdir_plain hw hN hl hfs
      right; exact ⟨rfl, rfl, hw'⟩
    · left; exact ⟨by simp, rfl⟩

theorem phaseR_crash {all : List Op} {G : FS} (hp : PlainOps all G) : ∀ {ops : List Op} {st st' : State},
    (∀ op ∈ ops, op ∈ all) → (∀ op ∈ ops, ∃ p, op = .rm p ∨ op = .rmdir p) → st.lower.WF →
    (∀ q, st.lower.linkAt q → MayLink all G q) → CrashState ops st st' →
    ∀ q, st'.lower.get q = st.lower.get q ∨ (Gone ops q ∧ st'.lower.get q = none) := by
  intro ops
  induction ops with
  | nil => intro st st' _ _ _ _ h q; cases crash_nil h; left; rfl
  | cons op ops ih =>
    intro st st' hin hrm hw hlk h q
    obtain ⟨p, hop⟩ := hrm op (by simp)
    obtain ⟨hN, hl⟩ := plain_now hlk hp (hin op (by simp)) p (by rcases hop with rfl | rfl <;> simp [Op.paths])
    rcases crash_cons h with rfl | hm | ⟨e, he⟩ | ⟨st1, he, h⟩
    · left; rfl
    · rcases hop with rfl | rfl <;> cases hm
    · rcases rmop_exec hop hw hN hl he with ⟨_, rfl⟩ | ⟨hx, _⟩
      · left; rfl
      · cases hx
    · rcases rmop_exec hop hw hN hl he with ⟨hx, _⟩ | ⟨_, rfl, hw1⟩
      · exact absurd rfl hx
      · have hlk1 : ∀ q, ({ st with lower := st.lower.del p } : State).lower.linkAt q → MayLink all G q := by
          rintro q ⟨n, hn, hl⟩
          simp only at hn
          rw [FS.get_del] at hn
          split at hn
          · cases hn
          · exact hlk q ⟨n, hn, hl⟩
        rcases ih (fun o ho => hin o (by simp [ho])) (fun o ho => hrm o (by simp [ho])) hw1 hlk1 h q with h | ⟨hg, h⟩
        · rw [h]
          simp only
          rw [FS.get_del]
          split
          · rename_i hpq; subst hpq; right; exact ⟨by rcases hop with rfl | rfl <;> simp [Gone], rfl⟩
          · left; rfl
        · right; exact ⟨by rcases hg with h | h <;> simp [Gone, h], h⟩

theorem phaseR_run {all : List Op} {G : FS} (hp : PlainOps all G) : ∀ {ops : List Op} {st st' : State},
    (∀ op ∈ ops, op ∈ all) → (∀ op ∈ ops, ∃ p, op = .rm p ∨ op = .rmdir p) → st.lower.WF →
    (∀ q, st.lower.linkAt q → MayLink all G q) → run ops st = (st', none) →
    ∀ q, (Gone ops q → st'.lower.get q = none) ∧ (¬ Gone ops q → st'.lower.get q = st.lower.get q) := by
  intro ops
  induction ops with
  | nil =>
    intro st st' _ _ _ _ h q
    simp only [run, Prod.mk.injEq, and_true] at h; subst h
    exact ⟨fun h => by simp [Gone] at h, fun _ => rfl⟩
  | cons op ops ih =>
    intro st st' hin hrm hw hlk h q
    obtain ⟨p, hop⟩ := hrm op (by simp)
    obtain ⟨hN, hl⟩ := plain_now hlk hp (hin op (by simp)) p (by rcases hop with rfl | rfl <;> simp [Op.paths])
    obtain ⟨st1, he, h⟩ := run_cons h
    rcases rmop_exec hop hw hN hl he with ⟨hx, _⟩ | ⟨_, rfl, hw1⟩
    · exact absurd rfl hx
    · have hlk1 : ∀ q, ({ st with lower := st.lower.del p } : State).lower.linkAt q → MayLink all G q := by
        rintro q ⟨n, hn, hl⟩
        simp only at hn
        rw [FS.get_del] at hn
        split at hn
        · cases hn
        · exact hlk q ⟨n, hn, hl⟩
      obtain ⟨h1, h2⟩ := ih (fun o ho => hin o (by simp [ho])) (fun o ho => hrm o (by simp [ho])) hw1 hlk1 h q
      by_cases hg : Gone ops q
      · exact ⟨fun _ => h1 hg, fun hn => absurd (by rcases hg with h | h <;> simp [Gone, h]) hn⟩
      · have h2 := h2 hg
        simp only at h2
        rw [FS.get_del] at h2
        by_cases hpq : p = q
        · rw [if_pos hpq] at h2
          exact ⟨fun _ => h2, fun hn => absurd (by subst hpq; rcases hop with rfl | rfl <;> simp [Gone]) hn⟩
        · rw [if_neg hpq] at h2
          refine ⟨fun hgo => absurd ?_ hg, fun _ => h2⟩
          rcases hop with rfl | rfl <;> simp only [Gone, List.mem_cons, Op.rm.injEq, Op.rmdir.injEq, reduceCtorEq, false_or] at hgo
          · rcases hgo with (h | h) | h
            · exact absurd h.symm hpq
            · exact Or.inl h
            · exact Or.inr h
          · rcases hgo with h | h | h
            · exact Or.inl h
            · exact absurd h.symm hpq
            · exact Or.inr h

/-- The removed paths of the selection. -/
def Removed (sel : List Entry) (q : Path) : Prop := ∃ e ∈ sel, e.op = .remove ∧ ∃ s, e.source = some s ∧ s.path = q

theorem mem_of_From {sel l : List Entry} (hp : l.map Entry.core ~ sel.map Entry.core) {e : Entry} (h : e ∈ sel) :
    ∃ e' ∈ l, e'.core = e.core := by
  have : e.core ∈ l.map Entry.core := hp.mem_iff.2 (List.mem_map.2 ⟨e, h, rfl⟩)
  obtain ⟨e', h1, h2⟩ := List.mem_map.1 this
  exact ⟨e', h1, h2⟩

theorem core_sort (le : Entry → Entry → Bool) (l : List Entry) : (stableSort le l).map Entry.core ~ l.map Entry.core :=
  (perm_stableSort le l).map _

theorem core_afterPretend (env : Env) (sel : List Entry) : (afterPretend env sel).map Entry.core ~ sel.map Entry.core := by
  unfold afterPretend
  refine (core_sort _ _).trans ?_
  rw [assignTmps_core]
  exact (core_sort _ _).trans (core_sort _ _)

theorem core_c3 (env : Env) (sel : List Entry) : (realOrders env sel).1.map Entry.core ~ sel.map Entry.core :=
  (core_sort _ _).trans (core_afterPretend env sel)

theorem core_c4 (env : Env) (sel : List Entry) : (realOrders env sel).2.1.map Entry.core ~ sel.map Entry.core := by
  show (assignTmps env 0 _).map Entry.core ~ _
  rw [assignTmps_core]
  exact (core_sort _ _).trans (core_c3 env sel)

theorem core_c5 (env : Env) (sel : List Entry) : (realOrders env sel).2.2.map Entry.core ~ sel.map Entry.core :=
  (core_sort _ _).trans (core_c4 env sel)

theorem gone_removeOps {env : Env} {sel : List Entry} {q : Path} : Gone (removeOps (realOrders env sel).1) q ↔ Removed sel q := by
  constructor
  · intro h
    rcases h with h | h <;>
    · obtain ⟨e, he, s, ho, hs, h⟩ := opFrom_remove h
      refine ⟨e, he, ho, s, hs, ?_⟩
      rcases h with h | h
      all_goals cases h
      all_goals rfl
  · rintro ⟨e, he, ho, s, hs, rfl⟩
    obtain ⟨e', he', hc⟩ := mem_of_From (core_c3 env sel) he
    obtain ⟨h1, h2, h3, h4⟩ := core_op hc
    have : ∀ op ∈ (if s.node.isReg || s.node.isLnk then [Op.rm s.path] else [Op.rmdir s.path]), op ∈ removeOps (realOrders env sel).1 := by
      intro op hop
      unfold removeOps
      refine List.mem_flatMap.2 ⟨e', he', ?_⟩
      rw [h1, ho, h3, hs]; exact hop
    split at this
    · left; exact this _ (by simp)
    · right; exact this _ (by simp)

/-! moving renamed paths to temporaries -/

/-- Moves done so far: pairs of source and temporary. -/
structure MDone (L : List (Path × Path)) (a b : FS) : Prop where
  other : ∀ q, (∀ p ∈ L, ¬ p.2 <+: q) → b.get q = (if ∃ p ∈ L, p.1 <+: q then none else a.get q)
  moved : ∀ p ∈ L, ∀ r, b.get (p.2 ++ r) = if ∃ p' ∈ L, Below p.1 p'.1 ∧ p'.1 <+: p.1 ++ r then none else a.get (p.1 ++ r)
  src : ∀ p ∈ L, ∃ n, a.get p.1 = some n

open Classical in
theorem mdone_step {L : List (Path × Path)} {a b c : FS} (h : MDone L a b) {s t : Path} (hR : FS.Renamed b c s t)
    (hle : ∀ p ∈ L, s ≤ p.1) (hdis : ∀ p ∈ L, ∀ q, p.2 <+: q → ¬ t <+: q) (hst : ∀ p ∈ L, ¬ p.2 <+: s) (hsc : ∀ p ∈ L, ¬ s <+: p.2)
    : MDone (L ++ [(s, t)]) a c := by
  -- below the source nothing is a temporary
  have hs : ∀ r, ∀ p ∈ L, ¬ p.2 <+: s ++ r := by
    intro r p hp hpre
    rcases prefix_total hpre (List.prefix_append s r) with h | h
    · exact hst p hp h
    · exact hsc p hp h
  have hex : ∃ n, b.get s = some n := by obtain ⟨n, hn, _⟩ := hR.ex; exact ⟨n, hn⟩
  obtain ⟨n, hn⟩ := hex
  have hns : ¬ ∃ p ∈ L, p.1 <+: s := by
    intro hp
    have := h.other s (by simpa using hs [])
    rw [if_pos hp, hn] at this; cases this
  refine ⟨fun q hq => ?_, fun p hp r => ?_, fun p hp => ?_⟩
  · have hqt : ¬ t <+: q := hq (s, t) (by simp)
    rw [hR.get, if_neg hqt]
    have hq' := h.other q (fun p hp => hq p (by simp [hp]))
    by_cases hsq : s <+: q
    · rw [if_pos hsq, if_pos ⟨(s, t), by simp, hsq⟩]
    · rw [if_neg hsq, hq']
      refine if_congr ?_ rfl rfl
      constructor
      · rintro ⟨p, hp, h⟩; exact ⟨p, by simp [hp], h⟩
      · rintro ⟨p, hp, h⟩
        rcases List.mem_append.1 hp with hp | hp
        · exact ⟨p, hp, h⟩
        · simp only [List.mem_singleton] at hp; subst hp; exact absurd h hsq
  · rcases List.mem_append.1 hp with hp | hp
    · have hnt : ¬ t <+: p.2 ++ r := hdis p hp _ (List.prefix_append _ _)
      have hns' : ¬ s <+: p.2 ++ r := by
        intro h
        rcases prefix_total h (List.prefix_append p.2 r) with h | h
        · exact hsc p hp h
        · exact hst p hp h
      rw [hR.get, if_neg hnt, if_neg hns', h.moved p hp r]
      refine if_congr ?_ rfl rfl
      constructor
      · rintro ⟨p', hp', h⟩; exact ⟨p', by simp [hp'], h⟩
      · rintro ⟨p', hp', hb, h⟩
        rcases List.mem_append.1 hp' with hp' | hp'
        · exact ⟨p', hp', hb, h⟩
        · simp only [List.mem_singleton] at hp'; subst hp'
          exact absurd (path_lt_of_below hb) (not_lt_of_ge (hle p hp))
    · simp only [List.mem_singleton] at hp; subst hp
      simp only
      rw [hR.get, if_pos (List.prefix_append _ _), List.drop_left, h.other _ (hs r)]
      refine if_congr ?_ rfl rfl
      constructor
      · rintro ⟨p, hp, h⟩
        refine ⟨p, by simp [hp], ?_, h⟩
        refine below_iff.2 ⟨?_, fun heq => hns ⟨p, hp, by rw [← heq]⟩⟩
        rcases prefix_total h (List.prefix_append s r) with h' | h'
        · exact absurd ⟨p, hp, h'⟩ hns
        · exact h'
      · rintro ⟨p', hp', hb, h⟩
        rcases List.mem_append.1 hp' with hp' | hp'
        · exact ⟨p', hp', h⟩
        · simp only [List.mem_singleton] at hp'; subst hp'; exact absurd hb (not_below_self _)
  · rcases List.mem_append.1 hp with hp | hp
    · exact h.src p hp
    · simp only [List.mem_singleton] at hp; subst hp
      have := h.other s (by simpa using hs [])
      rw [if_neg hns, hn] at this
      exact ⟨n, this.symm⟩

end SB
