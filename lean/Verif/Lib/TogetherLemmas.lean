import Verif.Model.Together
import Verif.Lib.LinksLemmas
import Verif.Lib.Crash

/-! Several accepts at once (proof machinery). -/

namespace SB

/-! ### storage only gets less -/

theorem Thins.get {a b : FS} (h : Thins a b) {p : Path} {n : Node} (hg : b.get p = some n) (hd : a.keys.Nodup) : a.get p = some n := by
  obtain ⟨f, rfl⟩ := h
  have hm := FS.mem_of_get hg
  exact FS.get_of_mem hd (List.mem_filter.1 hm).1

theorem Thins.nodup {a b : FS} (h : Thins a b) (hd : a.keys.Nodup) : b.keys.Nodup := by
  obtain ⟨f, rfl⟩ := h
  exact hd.sublist (List.Sublist.map _ List.filter_sublist)

theorem thins_exec (op : Op) (st : State) : Thins st.upper (exec op st).1.upper := by
  by_cases hc : op.isClean = false
  · rw [exec_upper hc]; exact Thins.refl _
  · cases op <;> simp only [Op.isClean, not_true_eq_false] at hc
    rename_i p
    simp only [exec]
    split
    · exact Thins.refl _
    · split
      · have h : Thins st.upper (rmdirRecursive st.upper p).1 := thins_rec _ _ _ _
        split <;> (rename_i he; rw [he] at h; exact h)
      · split
        · rename_i he; exact thins_unlink he
        · exact Thins.refl _

theorem thins_mid {op : Op} {st st' : State} (h : Mid op st st') : Thins st.upper st'.upper := by
  cases h with
  | cp _ _ _ => exact Thins.refl _
  | clean _ => exact ⟨_, rfl⟩

theorem thins_together {st0 st : State} {ws : List Accepting} (h : Together st0 ws st) : Thins st0.upper st.upper := by
  induction h with
  | none => exact Thins.refl _
  | start _ _ _ ih => exact ih
  | @step _ _ _ _ op _ st st' _ he ih => have := thins_exec op st; rw [he] at this; exact ih.trans this
  | @fail _ _ _ _ op _ st st' _ _ he ih => have := thins_exec op st; rw [he] at this; exact ih.trans this
  | half _ hm ih => exact ih.trans (thins_mid hm)
  | broken _ _ hm ih => exact ih.trans (thins_mid hm)
  | late _ _ _ ih => exact ih
  | lateHalf _ _ _ ih => exact ih
  | stop _ _ ih => exact ih
  | drop keep _ ih => exact ih.trans ⟨_, rfl⟩

/-! ### what is left of an accept is the end of its plan -/

/-- What is true of an accept that was started: its checks succeeded, and what it has not done yet is the end of its plan. -/
structure Accepting.Ok (w : Accepting) : Prop where
  staged : ∀ e ∈ w.sel, Spec.IsSet e → ∃ s, e.staged = some s ∧ s.node.supported = true
  noErr : ∀ e ∈ w.sel, ∀ x, e.op ≠ .error x

theorem pretend_staged {env : Env} {st : State} {sel : List Entry} (h : pretendCheck env st sel = none) :
    (∀ e ∈ sel, Spec.IsSet e → ∃ s, e.staged = some s ∧ s.node.supported = true) ∧ (∀ e ∈ sel, ∀ x, e.op ≠ .error x) := by
  unfold pretendCheck at h
  dsimp only at h
  split at h
  · cases h
  · split at h
    · cases h
    · rw [checkApply_none] at h
      have key : ∀ e ∈ sel, ∃ e' ∈ stableSort byDestination (assignTmps env 0 (stableSort byReverseSource (stableSort byReverseSource sel))), e'.core = e.core := by
        intro e he
        obtain ⟨e', he', hc⟩ := mem_assignTmps' (env := env) (i := 0) (mem_stableSort.2 (mem_stableSort.2 he) : e ∈ stableSort byReverseSource (stableSort byReverseSource sel))
        exact ⟨e', mem_stableSort.2 he', hc⟩
      refine ⟨fun e he hs => ?_, fun e he x ho => ?_⟩
      · obtain ⟨e', he', hc⟩ := key e he
        obtain ⟨h1, h2, h3, h4⟩ := core_op hc
        obtain ⟨t, ht⟩ := hs
        obtain ⟨s, hs, hk⟩ := (h e' he').2 t (h1.trans ht)
        exact ⟨s, by rw [← h4, hs], by unfold Node.supported; rw [Bool.or_assoc, Bool.or_comm s.node.isDir, ← Bool.or_assoc]; exact hk⟩
      · obtain ⟨e', he', hc⟩ := key e he
        obtain ⟨h1, _⟩ := core_op hc
        exact (h e' he').1 x (h1.trans ho)

theorem together_ok {st0 st : State} {ws : List Accepting} (h : Together st0 ws st) : ∀ w ∈ ws, w.Ok := by
  induction h with
  | none => intro w hw; cases hw
  | start env _ hp ih =>
    intro w hw
    rcases List.mem_append.1 hw with hw | hw
    · exact ih w hw
    · rw [List.mem_singleton] at hw
      subst hw
      exact ⟨(pretend_staged hp).1, (pretend_staged hp).2⟩
  | @step a b env sel op r st st' _ he ih =>
    intro w hw
    simp only [List.mem_append, List.mem_cons] at hw ih
    rcases hw with hw | rfl | hw
    · exact ih w (.inl hw)
    · have := ih _ (.inr (.inl rfl)); exact ⟨this.staged, this.noErr⟩
    · exact ih w (.inr (.inr hw))
  | @fail a b env sel op r st st' e _ he ih =>
    intro w hw
    simp only [List.mem_append, List.mem_cons] at hw ih
    rcases hw with hw | rfl | hw
    · exact ih w (.inl hw)
    · have := ih _ (.inr (.inl rfl)); exact ⟨this.staged, this.noErr⟩
    · exact ih w (.inr (.inr hw))
  | half _ _ ih => exact ih
  | @broken a b env sel op r st st' e _ he ih =>
    intro w hw
    simp only [List.mem_append, List.mem_cons] at hw ih
    rcases hw with hw | rfl | hw
    · exact ih w (.inl hw)
    · have := ih _ (.inr (.inl rfl)); exact ⟨this.staged, this.noErr⟩
    · exact ih w (.inr (.inr hw))
  | late _ _ _ ih =>
    intro w hw
    simp only [List.mem_append, List.mem_cons] at hw ih
    rcases hw with hw | rfl | hw
    · exact ih w (.inl hw)
    · have := ih _ (.inr (.inl rfl)); exact ⟨this.staged, this.noErr⟩
    · exact ih w (.inr (.inr hw))
  | lateHalf _ _ _ ih => exact ih
  | stop _ _ ih =>
    intro w hw
    simp only [List.mem_append, List.mem_cons] at hw ih
    rcases hw with hw | rfl | hw
    · exact ih w (.inl hw)
    · have := ih _ (.inr (.inl rfl)); exact ⟨this.staged, this.noErr⟩
    · exact ih w (.inr (.inr hw))
  | drop _ _ ih => exact ih

/-! ### the operations of a plan without renames -/

theorem premove_nil {env : Env} {sel : List Entry} (hr : ∀ e ∈ sel, e.op ≠ .rename) : premoveOps (realOrders env sel).2.1 = [] := by
  rw [List.eq_nil_iff_forall_not_mem]
  intro op hop
  obtain ⟨e, he, s, j, ho, _⟩ := opFrom_premove hop
  exact hr e he ho

/-- Operations that do not move anything. -/
theorem mv_not_clean {L : List Entry} {t d : Path} : Op.mv t d ∉ cleanOps L := by
  unfold cleanOps
  intro h
  obtain ⟨p, _, h⟩ := List.mem_map.1 h
  cases h

theorem mv_not_remove {L : List Entry} {t d : Path} : Op.mv t d ∉ removeOps L := by
  intro h
  obtain ⟨e, _, s, _, _, h | h⟩ := mem_removeOps h <;> cases h

theorem setOps_mv_at {d0 tmp t d : Path} {s : Details} {a b : List Op} (h : setOps d0 s tmp = a ++ .mv t d :: b) : s.node.isReg = true ∧ t = tmp ∧ d0 = d ∧ a = [.cp s.path tmp] := by
  have perm : ∀ x : Op, x ∈ permOps d0 s.node → x ≠ .mv t d := by
    intro x hx h
    rcases mem_permOps hx with ⟨u, g, h'⟩ | ⟨m, h'⟩ <;> rw [h'] at h <;> cases h
  have hmem : Op.mv t d ∈ setOps d0 s tmp := by rw [h]; simp
  unfold setOps at h hmem
  by_cases h1 : s.node.isReg = true
  · rw [if_pos h1] at h
    cases a with
    | nil => simp at h
    | cons x a =>
      simp only [List.cons_append, List.cons.injEq] at h
      obtain ⟨rfl, h⟩ := h
      cases a with
      | nil =>
        simp only [List.nil_append, List.cons.injEq, Op.mv.injEq] at h
        exact ⟨h1, h.1.1.symm, h.1.2, rfl⟩
      | cons y a =>
        simp only [List.cons_append, List.cons.injEq] at h
        exact absurd rfl (perm (.mv t d) (by rw [h.2]; simp))
  · rw [if_neg h1] at hmem
    exfalso
    by_cases h2 : s.node.isLnk = true
    · rw [if_pos h2] at hmem
      simp only [List.mem_cons, reduceCtorEq, false_or] at hmem
      exact perm _ hmem rfl
    · rw [if_neg h2] at hmem
      simp only [List.mem_cons, reduceCtorEq, false_or] at hmem
      exact perm _ hmem rfl

theorem applyOps_mv {env : Env} : ∀ {l : List Entry} {i : Nat} {t d : Path} {a b : List Op}, (∀ e ∈ l, e.op ≠ .rename) → applyOps env i l = a ++ .mv t d :: b →
    ∃ e ∈ l, ∃ s, Spec.IsSet e ∧ e.staged = some s ∧ s.node.isReg = true ∧ e.dest = d ∧ a.getLast? = some (.cp s.path t) ∧ ∃ i, t = copyTmp e.dest (env.uuidC i) := by
  intro l
  induction l with
  | nil => intro i t d a b _ h; simp [applyOps] at h
  | cons e l ih =>
    intro i t d a b hr h
    simp only [applyOps] at h
    rcases List.append_eq_append_iff.1 h with ⟨a', ha, hb⟩ | ⟨b', ha, hb⟩
    · obtain ⟨e', he', s, h1, h2, h3, h4, h5⟩ := ih (fun e he => hr e (List.mem_cons_of_mem _ he)) hb
      refine ⟨e', List.mem_cons_of_mem _ he', s, h1, h2, h3, h4, ?_⟩
      rw [ha, List.getLast?_append, h5.1]; exact ⟨rfl, h5.2⟩
    · cases b' with
      | nil =>
        simp only [List.append_nil, List.nil_append] at ha hb
        obtain ⟨e', he', s, h1, h2, h3, h4, h5⟩ := ih (a := []) (fun e he => hr e (List.mem_cons_of_mem _ he)) hb.symm
        simp at h5
      | cons x b' =>
        simp only [List.cons_append, List.cons.injEq] at hb
        obtain ⟨rfl, hb⟩ := hb
        have hne := hr e List.mem_cons_self
        cases ho : e.op with
        | rename => exact absurd ho hne
        | remove => rw [ho] at ha; simp at ha
        | error x => rw [ho] at ha; simp at ha
        | set ty =>
          rw [ho] at ha
          cases hs : e.staged with
          | none => rw [hs] at ha; simp at ha
          | some s =>
            rw [hs] at ha
            obtain ⟨h1, h2, h3, h4⟩ := setOps_mv_at ha
            refine ⟨e, List.mem_cons_self, s, ⟨ty, ho⟩, hs, h1, h3, ?_⟩
            rw [h4, h2]; exact ⟨rfl, i, rfl⟩

theorem plan_mv {env : Env} {sel : List Entry} (hr : ∀ e ∈ sel, e.op ≠ .rename) {t d : Path} {a b : List Op} (h : plan env sel = a ++ .mv t d :: b) :
    ∃ e ∈ sel, ∃ s, Spec.IsSet e ∧ e.staged = some s ∧ s.node.isReg = true ∧ e.dest = d ∧ a.getLast? = some (.cp s.path t) ∧ ∃ i, t = copyTmp e.dest (env.uuidC i) := by
  have hp : plan env sel = removeOps (realOrders env sel).1 ++ (applyOps env 0 (realOrders env sel).2.2 ++ cleanOps (realOrders env sel).2.2) := by
    have e : plan env sel = removeOps (realOrders env sel).1 ++ premoveOps (realOrders env sel).2.1 ++ applyOps env 0 (realOrders env sel).2.2 ++ cleanOps (realOrders env sel).2.2 := rfl
    rw [e, premove_nil hr]; simp
  rw [hp] at h
  rcases List.append_eq_append_iff.1 h with ⟨a', ha, hb⟩ | ⟨b', ha, hb⟩
  · rcases List.append_eq_append_iff.1 hb with ⟨a2, ha2, hb2⟩ | ⟨b2, ha2, hb2⟩
    · exact absurd (by rw [hb2]; simp) (mv_not_clean (L := (realOrders env sel).2.2) (t := t) (d := d))
    · cases b2 with
      | nil => exact absurd (by rw [List.nil_append] at hb2; rw [← hb2]; simp) (mv_not_clean (L := (realOrders env sel).2.2) (t := t) (d := d))
      | cons x b2 =>
        simp only [List.cons_append, List.cons.injEq] at hb2
        obtain ⟨rfl, hb2⟩ := hb2
        have hr5 : ∀ e ∈ (realOrders env sel).2.2, e.op ≠ .rename := by
          intro e he ho
          obtain ⟨e0, h0, hc⟩ := from_c5 e he
          exact hr e0 h0 (by rw [← (core_op hc).1, ho])
        obtain ⟨e, he, s, h1, h2, h3, h4, h5⟩ := applyOps_mv hr5 ha2
        obtain ⟨e0, h0, hc⟩ := from_c5 e he
        obtain ⟨g1, g2, g3, g4⟩ := core_op hc
        refine ⟨e0, h0, s, ?_, by rw [← g4, h2], h3, by rw [← g2, h4], ?_⟩
        · obtain ⟨ty, hty⟩ := h1; exact ⟨ty, by rw [← g1, hty]⟩
        · rw [ha, List.getLast?_append, h5.1]; exact ⟨rfl, by rw [← g2]; exact h5.2⟩
  · cases b' with
    | nil =>
      simp only [List.nil_append] at hb
      exfalso
      cases happ : applyOps env 0 (realOrders env sel).2.2 with
      | nil => rw [happ, List.nil_append] at hb; exact mv_not_clean (L := (realOrders env sel).2.2) (t := t) (d := d) (by rw [← hb]; simp)
      | cons x xs =>
        rw [happ, List.cons_append] at hb
        simp only [List.cons.injEq] at hb
        have hr5 : ∀ e ∈ (realOrders env sel).2.2, e.op ≠ .rename := by
          intro e he ho
          obtain ⟨e0, h0, hc⟩ := from_c5 e he
          exact hr e0 h0 (by rw [← (core_op hc).1, ho])
        obtain ⟨_, _, _, _, _, _, _, h5⟩ := applyOps_mv (a := []) (b := xs) hr5 (by rw [happ, ← hb.1]; rfl)
        simp at h5
    | cons x b' =>
      simp only [List.cons_append, List.cons.injEq] at hb
      exact absurd (by rw [ha, ← hb.1]; simp) (mv_not_remove (L := (realOrders env sel).1) (t := t) (d := d))

/-- Every copy is followed by the move of its temporary. -/
def Chained (l : List Op) : Prop := ∀ a b s t, l = a ++ .cp s t :: b → ∃ d b', b = .mv t d :: b'

theorem Chained.append {l m : List Op} (hl : Chained l) (hm : Chained m) : Chained (l ++ m) := by
  intro a b s t h
  rcases List.append_eq_append_iff.1 h with ⟨a', _, hb⟩ | ⟨b', ha, hb⟩
  · exact hm a' b s t hb
  · cases b' with
    | nil => exact hm [] b s t (by simpa using hb.symm)
    | cons x b' =>
      simp only [List.cons_append, List.cons.injEq] at hb
      obtain ⟨rfl, rfl⟩ := hb
      obtain ⟨d, b2, rfl⟩ := hl a b' s t ha
      exact ⟨d, b2 ++ m, rfl⟩

theorem chained_none {l : List Op} (h : ∀ s t, Op.cp s t ∉ l) : Chained l := by
  intro a b s t hl
  exact absurd (by rw [hl]; simp) (h s t)

theorem chained_set (d tmp : Path) (s : Details) : Chained (setOps d s tmp) := by
  have perm : Chained (permOps d s.node) := chained_none (fun s' t hx => by rcases mem_permOps hx with ⟨u, g, h'⟩ | ⟨m, h'⟩ <;> cases h')
  unfold setOps
  split
  · intro a b s' t h
    cases a with
    | nil => simp only [List.nil_append, List.cons.injEq, Op.cp.injEq] at h; obtain ⟨⟨_, rfl⟩, rfl⟩ := h; exact ⟨_, _, rfl⟩
    | cons x a =>
      simp only [List.cons_append, List.cons.injEq] at h
      obtain ⟨_, h⟩ := h
      cases a with
      | nil => simp at h
      | cons y a =>
        simp only [List.cons_append, List.cons.injEq] at h
        exact perm a b s' t h.2
  · split
    · exact Chained.append (l := [_, _]) (chained_none (by simp)) perm
    · exact Chained.append (l := [_]) (chained_none (by simp)) perm

theorem chained_apply (env : Env) : ∀ (l : List Entry) (i : Nat), Chained (applyOps env i l) := by
  intro l
  induction l with
  | nil => intro i; exact chained_none (by simp [applyOps])
  | cons e l ih =>
    intro i
    simp only [applyOps]
    refine Chained.append ?_ (ih _)
    split
    · exact chained_set _ _ _
    · exact chained_none (by simp)
    · exact chained_none (by simp)

theorem chained_plan {env : Env} {sel : List Entry} : Chained (plan env sel) := by
  have e : plan env sel = removeOps (realOrders env sel).1 ++ premoveOps (realOrders env sel).2.1 ++ applyOps env 0 (realOrders env sel).2.2 ++ cleanOps (realOrders env sel).2.2 := rfl
  rw [e]
  refine Chained.append (Chained.append (Chained.append ?_ ?_) (chained_apply _ _ _)) ?_
  · exact chained_none (fun s t h => by obtain ⟨_, _, _, _, _, h | h⟩ := mem_removeOps h <;> cases h)
  · exact chained_none (fun s t h => by obtain ⟨_, _, _, _, _, _, _, h⟩ := mem_premoveOps h; cases h)
  · exact chained_none (fun s t h => by obtain ⟨p, h⟩ := cleanOps_isClean h; cases h)

/-- Where the operations of a plan without renames come from. -/
theorem plan_ops {env : Env} {sel : List Entry} (hr : ∀ e ∈ sel, e.op ≠ .rename) {op : Op} (h : op ∈ plan env sel) :
    (∃ p, Spec.Removes sel p ∧ (op = .rm p ∨ op = .rmdir p)) ∨
    (∃ e ∈ sel, Spec.IsSet e ∧ ∃ s j, e.staged = some s ∧ op ∈ setOps e.dest s (copyTmp e.dest (env.uuidC j))) ∨ ∃ p, op = .clean p := by
  have e : plan env sel = removeOps (realOrders env sel).1 ++ premoveOps (realOrders env sel).2.1 ++ applyOps env 0 (realOrders env sel).2.2 ++ cleanOps (realOrders env sel).2.2 := rfl
  rw [e, premove_nil hr] at h
  simp only [List.append_nil, List.mem_append] at h
  rcases h with (h | h) | h
  · obtain ⟨e, he, s, ho, hs, h⟩ := opFrom_remove h
    exact .inl ⟨s.path, ⟨e, he, ho, s, hs, rfl⟩, h⟩
  · obtain ⟨e, he, ⟨ty, s, j, ho, hs, h⟩ | ⟨s, j, ho, _⟩⟩ := opFrom_apply (fun e he ho => absurd ho (hr e he)) h
    · exact .inr (.inl ⟨e, he, ⟨ty, ho⟩, s, j, hs, h⟩)
    · exact absurd ho (hr e he)
  · exact .inr (.inr (cleanOps_isClean h))

end SB
