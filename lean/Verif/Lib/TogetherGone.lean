import Verif.Lib.TogetherDone

/-! Several accepts at once: what has been removed stays away (proof machinery). -/

namespace SB

/-- The operation removes the host path. -/
def TakesAt (op : Op) (q : Path) : Prop := op = .rm q ∨ op = .rmdir q

/-- Nobody puts anything at `q`. -/
structure Gap (jobs : List (Env × List Entry)) (q : Path) : Prop where
  noSet : ∀ e ∈ Spec.allSelected jobs, Spec.IsSet e → e.dest ≠ q
  noTemp : ∀ j ∈ jobs, ∀ e ∈ Spec.allSelected jobs, ∀ i, q ≠ copyTmp e.dest (j.1.uuidC i)

theorem gap_step {env0 : Env} {st0 st : State} {jobs : List (Env × List Entry)} (h : Spec.AtOnce env0 st0 jobs) {j : Env × List Entry} (hj : j ∈ jobs) {q : Path} (hq : Gap jobs q)
    {op : Op} (hop : op ∈ plan j.1 j.2) {fs : FS} (hw : st.lower.WF) (hk : KindStep st.upper op st.lower fs q)
    (hmv : ∀ t d, op = .mv t d → ∃ e ∈ j.2, Spec.IsSet e ∧ e.dest = d ∧ ∃ s i, e.staged = some s ∧ s.node.isReg = true ∧
      t = copyTmp e.dest (j.1.uuidC i) ∧ st.lower.kindAt t = some s.node.kind)
    (hnow : st.lower.kindAt q = none) : fs.kindAt q = none := by
  have inU : ∀ e ∈ j.2, e ∈ Spec.allSelected jobs := fun e he => mem_all.2 ⟨j, hj, he⟩
  rcases hk with hk | hk
  · rw [hk]; exact hnow
  · rcases plan_ops (atOnce_norename h hj) hop with ⟨p, ⟨e, he, hx⟩, h1⟩ | ⟨e, he, hie, s, i, hse, h1⟩ | ⟨_, rfl⟩
    · rcases h1 with rfl | rfl <;> exact hk.2
    · have tmpne : ∀ i, q ≠ copyTmp e.dest (j.1.uuidC i) := hq.noTemp j hj e (inU e he)
      have dne : q ≠ e.dest := (hq.noSet e (inU e he) hie).symm
      rcases mem_setOps h1 with ⟨_, rfl | rfl⟩ | ⟨hlk, rfl | rfl⟩ | rfl | ⟨_, _, rfl⟩ | ⟨_, rfl⟩
      · exact absurd hk (tmpne i)
      · obtain ⟨e1, he1, hie1, hd1, s1, i1, hse1, hreg1, ht1, hkt⟩ := hmv _ _ rfl
        obtain ⟨n, hn, hnk⟩ : ∃ n, st.lower.get (copyTmp e.dest (j.1.uuidC i)) = some n ∧ n.kind = s1.node.kind := by
          unfold FS.kindAt at hkt
          cases hg : st.lower.get (copyTmp e.dest (j.1.uuidC i)) with
          | none => rw [hg] at hkt; cases hkt
          | some n => rw [hg] at hkt; exact ⟨n, rfl, by simpa using hkt⟩
        have hnd : n.isDir = false := by
          unfold Node.isReg at hreg1
          unfold Node.isDir
          rw [hnk]
          cases hkk : s1.node.kind <;> rw [hkk] at hreg1 <;> simp [Kind.isReg] at hreg1 <;> simp
        rcases mv_file (u := st.upper) hw hn hnd q (.inr hk) with h2 | ⟨h2, _⟩ | ⟨h2, h3⟩
        · rw [h2]; exact hnow
        · exact absurd h2 (tmpne i)
        · exact absurd h2 dne
      · exact hk.2
      · exact absurd hk.1 dne
      · exact absurd hk.1 dne
      · exact absurd hk (by simp)
      · exact absurd hk (by simp)
    · exact absurd hk (by simp)

theorem gap_prefix {js js' : List (Env × List Entry)} {q : Path} (h : Gap (js ++ js') q) : Gap js q := by
  have hs : ∀ e ∈ Spec.allSelected js, e ∈ Spec.allSelected (js ++ js') := by
    intro e he
    obtain ⟨j, hj, he⟩ := mem_all.1 he
    exact mem_all.2 ⟨j, List.mem_append.2 (.inl hj), he⟩
  exact ⟨fun e he => h.noSet e (hs e he), fun j hj e he => h.noTemp j (List.mem_append.2 (.inl hj)) e (hs e he)⟩

theorem gap_stable {env0 : Env} {st0 st st' : State} {a b : List Accepting} {env : Env} {sel : List Entry} {op : Op} {r : List Op} {q : Path}
    (hat : Spec.AtOnce env0 st0 ((a ++ ⟨env, sel, .ok (op :: r)⟩ :: b).map Accepting.job)) (hok : (⟨env, sel, .ok (op :: r)⟩ : Accepting).Ok) (hi : TInv st0 (a ++ ⟨env, sel, .ok (op :: r)⟩ :: b) st)
    (hq : Gap ((a ++ ⟨env, sel, .ok (op :: r)⟩ :: b).map Accepting.job) q)
    (hk : (∀ x ∈ op.paths, NormalPath x ∧ st.lower.NoLinkAbove x) → KindStep st.upper op st.lower st'.lower q) (hnow : st.lower.kindAt q = none) : st'.lower.kindAt q = none := by
  have hj : (env, sel) ∈ (a ++ ⟨env, sel, .ok (op :: r)⟩ :: b).map Accepting.job := by simp [Accepting.job]
  obtain ⟨hop, hmv⟩ := worker_mv hat hi
  exact gap_step hat hj hq hop hi.wf (hk (op_plain hat hj hi.link hop)) hmv hnow

theorem gap_takes {env0 : Env} {st0 st st' : State} {a b : List Accepting} {env : Env} {sel : List Entry} {op : Op} {r : List Op} {q : Path}
    (hat : Spec.AtOnce env0 st0 ((a ++ ⟨env, sel, .ok (op :: r)⟩ :: b).map Accepting.job)) (hi : TInv st0 (a ++ ⟨env, sel, .ok (op :: r)⟩ :: b) st)
    (he : exec op st = (st', none)) (hput : TakesAt op q) : st'.lower.kindAt q = none := by
  have hj : (env, sel) ∈ (a ++ ⟨env, sel, .ok (op :: r)⟩ :: b).map Accepting.job := by simp [Accepting.job]
  obtain ⟨hop, _⟩ := worker_mv hat hi
  have hp := op_plain hat hj hi.link hop
  rcases hput with rfl | rfl
  · obtain ⟨hN, hl⟩ := hp q (by simp [Op.paths])
    simp only [exec] at he
    cases hx : st.lower.unlink q with
    | error e => rw [hx] at he; simp [liftLower] at he
    | ok fs =>
      rw [hx] at he
      simp only [liftLower, Prod.mk.injEq, and_true] at he
      obtain ⟨c, m, hc, _, _, rfl⟩ := FS.unlink_ok hx
      have := FS.canon_nolink hN hl hc
      rw [← he, this]
      simp only
      rw [kindAt_del, if_pos rfl]
  · obtain ⟨hN, hl⟩ := hp q (by simp [Op.paths])
    simp only [exec] at he
    cases hx : st.lower.rmdir q with
    | error e => rw [hx] at he; simp [liftLower] at he
    | ok fs =>
      rw [hx] at he
      simp only [liftLower, Prod.mk.injEq, and_true] at he
      obtain ⟨c, m, hc, _, _, _, _, rfl⟩ := FS.rmdir_ok hx
      have := FS.canon_nolink hN hl hc
      rw [← he, this]
      simp only
      rw [kindAt_del, if_pos rfl]

theorem together_gone {env0 : Env} {st0 st : State} {ws : List Accepting} {q : Path} (h : Together st0 ws st) (hat : Spec.AtOnce env0 st0 (ws.map Accepting.job))
    (hq : Gap (ws.map Accepting.job) q) : ∀ w ∈ ws, ∀ r before, w.left = .ok r → before ++ r = plan w.env w.sel → (∃ op ∈ before, TakesAt op q) → st.lower.kindAt q = none := by
  induction h with
  | none => intro w hw; cases hw
  | @start ws st env hprev hchk ih =>
    rw [List.map_append] at hat hq
    intro w hw r before hr hb hput
    rcases List.mem_append.1 hw with hw | hw
    · exact ih (atOnce_prefix hat) (gap_prefix hq) w hw r before hr hb hput
    · rw [List.mem_singleton] at hw
      subst hw
      cases hr
      have : before = [] := by
        have := congrArg List.length hb
        simp only [List.length_append] at this
        exact List.eq_nil_of_length_eq_zero (by omega)
      obtain ⟨op, hop, _⟩ := hput
      rw [this] at hop
      cases hop
  | @step a b env sel op r st st' hprev he ih =>
    have hj : (a ++ (⟨env, sel, .ok r⟩ : Accepting) :: b).map Accepting.job = (a ++ ⟨env, sel, .ok (op :: r)⟩ :: b).map Accepting.job := by simp [Accepting.job]
    rw [hj] at hat hq
    have hi := together_inv hprev hat
    have hok := together_ok hprev ⟨env, sel, .ok (op :: r)⟩ (by simp)
    have hst : st' = (exec op st).1 := by rw [he]
    have stable : st.lower.kindAt q = none → st'.lower.kindAt q = none :=
      gap_stable hat hok hi hq (fun hp => by rw [hst]; exact exec_kind hi.wf hp q)
    intro w hw r' before hr hb hput
    rcases List.mem_append.1 hw with hw | hw
    · exact stable (ih hat hq w (by simp [hw]) r' before hr hb hput)
    · rcases List.mem_cons.1 hw with rfl | hw
      · cases hr
        obtain ⟨y, hy, _⟩ := hi.temp ⟨env, sel, .ok (op :: r)⟩ (by simp) _ rfl
        dsimp only at hy hb
        have hyb : before = y ++ [op] := List.append_cancel_right (bs := r) (by rw [hb, ← hy]; simp)
        obtain ⟨o, ho, hpo⟩ := hput
        rw [hyb] at ho
        rcases List.mem_append.1 ho with ho | ho
        · exact stable (ih hat hq ⟨env, sel, .ok (op :: r)⟩ (by simp) _ y rfl hy ⟨o, ho, hpo⟩)
        · rw [List.mem_singleton] at ho
          subst ho
          exact gap_takes hat hi he hpo
      · exact stable (ih hat hq w (by simp [hw]) r' before hr hb hput)
  | @fail a b env sel op r st st' e hprev he ih =>
    have hj : (a ++ (⟨env, sel, .error e⟩ : Accepting) :: b).map Accepting.job = (a ++ ⟨env, sel, .ok (op :: r)⟩ :: b).map Accepting.job := by simp [Accepting.job]
    rw [hj] at hat hq
    have hi := together_inv hprev hat
    have hok := together_ok hprev ⟨env, sel, .ok (op :: r)⟩ (by simp)
    have hst : st' = (exec op st).1 := by rw [he]
    have stable : st.lower.kindAt q = none → st'.lower.kindAt q = none :=
      gap_stable hat hok hi hq (fun hp => by rw [hst]; exact exec_kind hi.wf hp q)
    intro w hw r' before hr hb hput
    rcases List.mem_append.1 hw with hw | hw
    · exact stable (ih hat hq w (by simp [hw]) r' before hr hb hput)
    · rcases List.mem_cons.1 hw with rfl | hw
      · cases hr
      · exact stable (ih hat hq w (by simp [hw]) r' before hr hb hput)
  | @half a b env sel op r st st' hprev hm ih =>
    have hi := together_inv hprev hat
    have hok := together_ok hprev ⟨env, sel, .ok (op :: r)⟩ (by simp)
    intro w hw r' before hr hb hput
    exact gap_stable hat hok hi hq (mid_kind hi.wf hm · q) (ih hat hq w hw r' before hr hb hput)
  | @broken a b env sel op r st st' e hprev hm ih =>
    have hj : (a ++ (⟨env, sel, .error e⟩ : Accepting) :: b).map Accepting.job = (a ++ ⟨env, sel, .ok (op :: r)⟩ :: b).map Accepting.job := by simp [Accepting.job]
    rw [hj] at hat hq
    have hi := together_inv hprev hat
    have hok := together_ok hprev ⟨env, sel, .ok (op :: r)⟩ (by simp)
    have stable : st.lower.kindAt q = none → st'.lower.kindAt q = none := gap_stable hat hok hi hq (mid_kind hi.wf hm · q)
    intro w hw r' before hr hb hput
    rcases List.mem_append.1 hw with hw | hw
    · exact stable (ih hat hq w (by simp [hw]) r' before hr hb hput)
    · rcases List.mem_cons.1 hw with rfl | hw
      · cases hr
      · exact stable (ih hat hq w (by simp [hw]) r' before hr hb hput)
  | @late a b env sel op r st st' hop hprev he ih =>
    have hj : (a ++ (⟨env, sel, .ok r⟩ : Accepting) :: b).map Accepting.job = (a ++ ⟨env, sel, .ok (op :: r)⟩ :: b).map Accepting.job := by simp [Accepting.job]
    rw [hj] at hat hq
    have hi := together_inv hprev hat
    have hok := together_ok hprev ⟨env, sel, .ok (op :: r)⟩ (by simp)
    have hst : st' = (exec op ⟨st.lower, st0.upper⟩).1 := by rw [he]
    have stable : st.lower.kindAt q = none → st'.lower.kindAt q = none :=
      gap_stable (st := ⟨st.lower, st0.upper⟩) (st' := st') hat hok hi.before hq (fun hp => by rw [hst]; exact exec_kind (st := ⟨st.lower, st0.upper⟩) hi.wf hp q)
    intro w hw r' before hr hb hput
    rcases List.mem_append.1 hw with hw | hw
    · exact stable (ih hat hq w (by simp [hw]) r' before hr hb hput)
    · rcases List.mem_cons.1 hw with rfl | hw
      · cases hr
        obtain ⟨y, hy, _⟩ := hi.temp ⟨env, sel, .ok (op :: r)⟩ (by simp) _ rfl
        dsimp only at hy hb
        have hyb : before = y ++ [op] := List.append_cancel_right (bs := r) (by rw [hb, ← hy]; simp)
        obtain ⟨o, ho, hpo⟩ := hput
        rw [hyb] at ho
        rcases List.mem_append.1 ho with ho | ho
        · exact stable (ih hat hq ⟨env, sel, .ok (op :: r)⟩ (by simp) _ y rfl hy ⟨o, ho, hpo⟩)
        · rw [List.mem_singleton] at ho
          subst ho
          exact (gap_takes (st := ⟨st.lower, st0.upper⟩) (st' := st') hat hi.before he hpo : _)
      · exact stable (ih hat hq w (by simp [hw]) r' before hr hb hput)
  | @lateHalf a b env sel op r st st' hop hprev hm ih =>
    have hi := together_inv hprev hat
    have hok := together_ok hprev ⟨env, sel, .ok (op :: r)⟩ (by simp)
    intro w hw r' before hr hb hput
    exact gap_stable (st' := st') hat hok hi.before hq (mid_kind (st := ⟨st.lower, st0.upper⟩) hi.wf hm · q) (ih hat hq w hw r' before hr hb hput)
  | @stop a b env sel l st e hprev ih =>
    have hj : (a ++ (⟨env, sel, .error e⟩ : Accepting) :: b).map Accepting.job = (a ++ ⟨env, sel, l⟩ :: b).map Accepting.job := by simp [Accepting.job]
    rw [hj] at hat hq
    intro w hw r' before hr hb hput
    simp only [List.mem_append, List.mem_cons] at hw
    rcases hw with hw | rfl | hw
    · exact ih hat hq w (by simp [hw]) r' before hr hb hput
    · cases hr
    · exact ih hat hq w (by simp [hw]) r' before hr hb hput
  | drop keep _ ih => exact ih hat hq

end SB
