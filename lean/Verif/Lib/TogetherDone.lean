import Verif.Lib.TogetherRun

/-! Several accepts at once: what has been put in its place stays there (proof machinery). -/

namespace SB

theorem pisDir_here {fs : FS} {p : Path} (hn : NormalPath p) (hl : fs.NoLinkAbove p) (hp : ¬ fs.linkAt p) (h : fs.pisDir p = true) : fs.kindAt p = some .dir := by
  unfold FS.pisDir FS.stat at h
  cases hr : fs.realpath p with
  | error e => rw [hr] at h; cases h
  | ok c =>
    have : c = [] ++ p := by
      have hr' : fs.walk (fs.resolveN 39) [] p = .ok c := hr
      refine FS.walk_nolink fs _ p [] c hn (fun r hr hr0 n hg => ?_) hr'
      rw [List.nil_append] at hg
      by_cases hrp : r = p
      · subst hrp
        by_contra hc
        exact hp ⟨n, hg, by simpa using hc⟩
      · exact hl r (below_iff.2 ⟨hr, hrp⟩) n hg
    rw [List.nil_append] at this
    subst this
    rw [hr] at h
    dsimp only at h
    cases hg : fs.get c with
    | none => rw [hg] at h; cases h
    | some n =>
      rw [hg] at h
      dsimp only at h
      unfold FS.kindAt
      rw [hg]
      unfold Node.isDir at h
      simp [eq_of_beq h]

/-- The operation puts the file or directory in its place. -/
def PutsAt (op : Op) (q : Path) : Prop := (∃ t, op = .mv t q) ∨ op = .mkdirIfNeeded q

/-- What is stored for the place `q`: everybody who selected a change there selected the same stored file or directory; nobody removes it; and there is no link on the host. -/
structure Place (st0 : State) (jobs : List (Env × List Entry)) (q : Path) (k : Kind) : Prop where
  same : ∀ e ∈ Spec.allSelected jobs, Spec.IsSet e → e.dest = q → ∀ s, e.staged = some s → s.node.kind = k
  fileOrDir : k.isLnk = false
  stays : ¬ Spec.Removes (Spec.allSelected jobs) q
  noLink : ¬ st0.lower.linkAt q
  noTemp : ∀ j ∈ jobs, ∀ e ∈ Spec.allSelected jobs, ∀ i, q ≠ copyTmp e.dest (j.1.uuidC i)

theorem place_step {env0 : Env} {st0 st : State} {jobs : List (Env × List Entry)} (h : Spec.AtOnce env0 st0 jobs) {j : Env × List Entry} (hj : j ∈ jobs) {q : Path} {k : Kind} (hq : Place st0 jobs q k)
    {op : Op} (hop : op ∈ plan j.1 j.2) {fs : FS} (hw : st.lower.WF) (hk : KindStep st.upper op st.lower fs q)
    (hmv : ∀ t d, op = .mv t d → ∃ e ∈ j.2, Spec.IsSet e ∧ e.dest = d ∧ ∃ s i, e.staged = some s ∧ s.node.isReg = true ∧
      t = copyTmp e.dest (j.1.uuidC i) ∧ st.lower.kindAt t = some s.node.kind)
    (hok : ∀ e ∈ j.2, Spec.IsSet e → ∃ s, e.staged = some s ∧ s.node.supported = true)
    (hnow : st.lower.kindAt q = some k) : fs.kindAt q = some k := by
  have inU : ∀ e ∈ j.2, e ∈ Spec.allSelected jobs := fun e he => mem_all.2 ⟨j, hj, he⟩
  rcases hk with hk | hk
  · rw [hk]; exact hnow
  · rcases plan_ops (atOnce_norename h hj) hop with ⟨p, ⟨e, he, hx⟩, h1⟩ | ⟨e, he, hie, s, i, hse, h1⟩ | ⟨_, rfl⟩
    · exfalso
      rcases h1 with rfl | rfl <;> (obtain ⟨rfl, _⟩ := hk; exact hq.stays ⟨e, inU e he, hx⟩)
    · have tmpne : ∀ i, q ≠ copyTmp e.dest (j.1.uuidC i) := hq.noTemp j hj e (inU e he)
      rcases mem_setOps h1 with ⟨_, rfl | rfl⟩ | ⟨hlk, rfl | rfl⟩ | rfl | ⟨_, _, rfl⟩ | ⟨_, rfl⟩
      · exact absurd hk (tmpne i)
      · obtain ⟨e1, he1, hie1, hd1, s1, i1, hse1, hreg1, ht1, hkt⟩ := hmv _ _ rfl
        obtain ⟨n, hn, hnk⟩ : ∃ n, st.lower.get (copyTmp e.dest (j.1.uuidC i)) = some n ∧ n.kind = s1.node.kind := by
          unfold FS.kindAt at hkt
          cases hg : st.lower.get (copyTmp e.dest (j.1.uuidC i)) with
          | none => rw [hg] at hkt; cases hkt
          | some n => rw [hg] at hkt; exact ⟨n, rfl, by simpa using hkt⟩
        have hnd : n.isDir = false := by
          unfold Node.isReg at hreg1
          unfold Node.isDir
          rw [hnk]
          cases hkk : s1.node.kind <;> rw [hkk] at hreg1 <;> simp [Kind.isReg] at hreg1 <;> simp
        rcases mv_file (u := st.upper) hw hn hnd q (.inr hk) with h2 | ⟨h2, _⟩ | ⟨h2, h3⟩
        · rw [h2]; exact hnow
        · exact absurd h2 (tmpne i)
        · rw [h3, hnk, hq.same e1 (inU e1 he1) hie1 (hd1.trans h2.symm) s1 hse1]
      · exfalso
        obtain ⟨rfl, _⟩ := hk
        have := hq.same e (inU e he) hie rfl s hse
        have h2 := hq.fileOrDir
        rw [← this] at h2
        unfold Node.isLnk at hlk
        rw [hlk] at h2; cases h2
      · exfalso
        obtain ⟨rfl, _⟩ := hk
        have := hq.same e (inU e he) hie rfl s hse
        have h2 := hq.fileOrDir
        rw [← this] at h2
        unfold Node.isLnk at hlk
        rw [hlk] at h2; cases h2
      · obtain ⟨rfl, hkd⟩ := hk
        rw [hkd, ← hq.same e (inU e he) hie rfl s hse]
        obtain ⟨s', hs', hsup⟩ := hok e he hie
        rw [hse] at hs'; cases hs'
        congr 1
        exact (mkdir_kind h1 hsup).symm
      · exact absurd hk (by simp)
      · exact absurd hk (by simp)
    · exact absurd hk (by simp)


theorem place_prefix {st0 : State} {js js' : List (Env × List Entry)} {q : Path} {k : Kind} (h : Place st0 (js ++ js') q k) : Place st0 js q k := by
  have hs : ∀ e ∈ Spec.allSelected js, e ∈ Spec.allSelected (js ++ js') := by
    intro e he
    obtain ⟨j, hj, he⟩ := mem_all.1 he
    exact mem_all.2 ⟨j, List.mem_append.2 (.inl hj), he⟩
  refine ⟨fun e he => h.same e (hs e he), h.fileOrDir, ?_, h.noLink, fun j hj e he => h.noTemp j (List.mem_append.2 (.inl hj)) e (hs e he)⟩
  rintro ⟨e, he, hx⟩
  exact h.stays ⟨e, hs e he, hx⟩

/-- A move that is next: its temporary is complete. -/
theorem worker_mv {env0 : Env} {st0 st : State} {a b : List Accepting} {env : Env} {sel : List Entry} {op : Op} {r : List Op}
    (hat : Spec.AtOnce env0 st0 ((a ++ ⟨env, sel, .ok (op :: r)⟩ :: b).map Accepting.job)) (hi : TInv st0 (a ++ ⟨env, sel, .ok (op :: r)⟩ :: b) st) :
    op ∈ plan env sel ∧ ∀ t d, op = .mv t d → ∃ e ∈ sel, Spec.IsSet e ∧ e.dest = d ∧ ∃ s i, e.staged = some s ∧ s.node.isReg = true ∧
      t = copyTmp e.dest (env.uuidC i) ∧ st.lower.kindAt t = some s.node.kind := by
  have hj : (env, sel) ∈ (a ++ ⟨env, sel, .ok (op :: r)⟩ :: b).map Accepting.job := by simp [Accepting.job]
  obtain ⟨before, hbef, htmp⟩ := hi.temp ⟨env, sel, .ok (op :: r)⟩ (by simp) _ rfl
  dsimp only at hbef
  refine ⟨by rw [← hbef]; simp, ?_⟩
  rintro t d rfl
  obtain ⟨e, he, s, hie, hse, hreg, hd, hlast, i, ht⟩ := plan_mv (atOnce_norename hat hj) hbef.symm
  obtain ⟨n, hn, _, hk⟩ := htmp _ _ hlast
  rw [atOnce_stored hat (mem_all.2 ⟨_, hj, he⟩) hie hse] at hn
  cases hn
  exact ⟨e, he, hie, hd, s, i, hse, hreg, ht, hk⟩

theorem worker_stable {env0 : Env} {st0 st st' : State} {a b : List Accepting} {env : Env} {sel : List Entry} {op : Op} {r : List Op} {q : Path} {k : Kind}
    (hat : Spec.AtOnce env0 st0 ((a ++ ⟨env, sel, .ok (op :: r)⟩ :: b).map Accepting.job)) (hok : (⟨env, sel, .ok (op :: r)⟩ : Accepting).Ok) (hi : TInv st0 (a ++ ⟨env, sel, .ok (op :: r)⟩ :: b) st)
    (hq : Place st0 ((a ++ ⟨env, sel, .ok (op :: r)⟩ :: b).map Accepting.job) q k)
    (hk : (∀ x ∈ op.paths, NormalPath x ∧ st.lower.NoLinkAbove x) → KindStep st.upper op st.lower st'.lower q) (hnow : st.lower.kindAt q = some k) : st'.lower.kindAt q = some k := by
  have hj : (env, sel) ∈ (a ++ ⟨env, sel, .ok (op :: r)⟩ :: b).map Accepting.job := by simp [Accepting.job]
  obtain ⟨hop, hmv⟩ := worker_mv hat hi
  exact place_step hat hj hq hop hi.wf (hk (op_plain hat hj hi.link hop)) hmv hok.staged hnow

/-- Putting something in its place. -/
theorem worker_puts {env0 : Env} {st0 st st' : State} {a b : List Accepting} {env : Env} {sel : List Entry} {op : Op} {r : List Op} {q : Path} {k : Kind}
    (hat : Spec.AtOnce env0 st0 ((a ++ ⟨env, sel, .ok (op :: r)⟩ :: b).map Accepting.job)) (hok : (⟨env, sel, .ok (op :: r)⟩ : Accepting).Ok) (hi : TInv st0 (a ++ ⟨env, sel, .ok (op :: r)⟩ :: b) st)
    (hq : Place st0 ((a ++ ⟨env, sel, .ok (op :: r)⟩ :: b).map Accepting.job) q k) (he : exec op st = (st', none)) (hput : PutsAt op q) : st'.lower.kindAt q = some k := by
  have hj : (env, sel) ∈ (a ++ ⟨env, sel, .ok (op :: r)⟩ :: b).map Accepting.job := by simp [Accepting.job]
  have inU : ∀ e ∈ sel, e ∈ Spec.allSelected ((a ++ ⟨env, sel, .ok (op :: r)⟩ :: b).map Accepting.job) := fun e he => mem_all.2 ⟨_, hj, he⟩
  obtain ⟨hop, hmv⟩ := worker_mv hat hi
  have hp := op_plain hat hj hi.link hop
  rcases hput with ⟨t, rfl⟩ | rfl
  · obtain ⟨e, hem, hie, hd, s, i, hse, hreg, ht, hkt⟩ := hmv t q rfl
    have hne : t ≠ q := by rw [ht]; exact (hq.noTemp _ hj e (inU e hem) i).symm
    obtain ⟨hNa, hla⟩ := hp t (by simp [Op.paths])
    obtain ⟨hNb, hlb⟩ := hp q (by simp [Op.paths])
    simp only [exec] at he
    cases hx : st.lower.rename t q with
    | error e => rw [hx] at he; simp [liftLower] at he
    | ok fs =>
      rw [hx] at he
      simp only [liftLower, Prod.mk.injEq, and_true] at he
      obtain ⟨hr, _⟩ := FS.rename_plain hi.wf hNa hla hNb hlb hne hx
      rw [← he]
      unfold FS.kindAt at hkt ⊢
      simp only
      rw [hr.get, if_pos (List.prefix_refl q), List.drop_length, List.append_nil, hkt, hq.same e (inU e hem) hie hd s hse]
  · rcases plan_ops (atOnce_norename hat hj) hop with ⟨p, _, h1 | h1⟩ | ⟨e, hem, hie, s, i, hse, h1⟩ | ⟨_, h1⟩
    · cases h1
    · cases h1
    · obtain ⟨s', hs', hsup⟩ := hok.staged e hem hie
      rw [hse] at hs'; cases hs'
      have hkd := mkdir_kind h1 hsup
      have hde : e.dest = q := by
        rcases mem_setOps h1 with ⟨_, h1 | h1⟩ | ⟨_, h1 | h1⟩ | h1 | ⟨_, _, h1⟩ | ⟨_, h1⟩ <;> cases h1
        rfl
      have hkk := hq.same e (inU e hem) hie hde s hse
      rw [hkd] at hkk
      rw [← hkk]
      obtain ⟨hN, hl⟩ := hp q (by simp [Op.paths])
      simp only [exec] at he
      split at he
      · rename_i hdir
        simp only [Prod.mk.injEq, and_true] at he
        rw [← he]
        refine pisDir_here hN hl (fun hlk => ?_) hdir
        rcases hi.link q hlk with h2 | ⟨e', he', hie', ⟨s', hs', hln⟩, hd'⟩
        · exact hq.noLink h2
        · have := hq.same e' he' hie' hd' s' hs'
          have h2 := hq.fileOrDir
          rw [← this] at h2
          unfold Node.isLnk at hln
          rw [hln] at h2; cases h2
      · cases hx : st.lower.mkdir q with
        | error e => rw [hx] at he; simp [liftLower] at he
        | ok fs =>
          rw [hx] at he
          simp only [liftLower, Prod.mk.injEq, and_true] at he
          obtain ⟨rfl, _⟩ := FS.mkdir_plain hi.wf hN hl hx
          rw [← he]
          simp only
          rw [kindAt_set, if_pos rfl]
    · cases h1

theorem together_done {env0 : Env} {st0 st : State} {ws : List Accepting} {q : Path} {k : Kind} (h : Together st0 ws st) (hat : Spec.AtOnce env0 st0 (ws.map Accepting.job))
    (hq : Place st0 (ws.map Accepting.job) q k) : ∀ w ∈ ws, ∀ r before, w.left = .ok r → before ++ r = plan w.env w.sel → (∃ op ∈ before, PutsAt op q) → st.lower.kindAt q = some k := by
  induction h with
  | none => intro w hw; cases hw
  | @start ws st env hprev hchk ih =>
    rw [List.map_append] at hat hq
    intro w hw r before hr hb hput
    rcases List.mem_append.1 hw with hw | hw
    · exact ih (atOnce_prefix hat) (place_prefix hq) w hw r before hr hb hput
    · rw [List.mem_singleton] at hw
      subst hw
      cases hr
      have : before = [] := by
        have := congrArg List.length hb
        simp only [List.length_append] at this
        exact List.eq_nil_of_length_eq_zero (by omega)
      obtain ⟨op, hop, _⟩ := hput
      rw [this] at hop
      cases hop
  | @step a b env sel op r st st' hprev he ih =>
    have hj : (a ++ (⟨env, sel, .ok r⟩ : Accepting) :: b).map Accepting.job = (a ++ ⟨env, sel, .ok (op :: r)⟩ :: b).map Accepting.job := by simp [Accepting.job]
    rw [hj] at hat hq
    have hi := together_inv hprev hat
    have hok := together_ok hprev ⟨env, sel, .ok (op :: r)⟩ (by simp)
    have hst : st' = (exec op st).1 := by rw [he]
    have stable : st.lower.kindAt q = some k → st'.lower.kindAt q = some k :=
      worker_stable hat hok hi hq (fun hp => by rw [hst]; exact exec_kind hi.wf hp q)
    intro w hw r' before hr hb hput
    rcases List.mem_append.1 hw with hw | hw
    · exact stable (ih hat hq w (by simp [hw]) r' before hr hb hput)
    · rcases List.mem_cons.1 hw with rfl | hw
      · cases hr
        obtain ⟨y, hy, _⟩ := hi.temp ⟨env, sel, .ok (op :: r)⟩ (by simp) _ rfl
        dsimp only at hy hb
        have hyb : before = y ++ [op] := List.append_cancel_right (bs := r) (by rw [hb, ← hy]; simp)
        obtain ⟨o, ho, hpo⟩ := hput
        rw [hyb] at ho
        rcases List.mem_append.1 ho with ho | ho
        · exact stable (ih hat hq ⟨env, sel, .ok (op :: r)⟩ (by simp) _ y rfl hy ⟨o, ho, hpo⟩)
        · rw [List.mem_singleton] at ho
          subst ho
          exact worker_puts hat hok hi hq he hpo
      · exact stable (ih hat hq w (by simp [hw]) r' before hr hb hput)
  | @fail a b env sel op r st st' e hprev he ih =>
    have hj : (a ++ (⟨env, sel, .error e⟩ : Accepting) :: b).map Accepting.job = (a ++ ⟨env, sel, .ok (op :: r)⟩ :: b).map Accepting.job := by simp [Accepting.job]
    rw [hj] at hat hq
    have hi := together_inv hprev hat
    have hok := together_ok hprev ⟨env, sel, .ok (op :: r)⟩ (by simp)
    have hst : st' = (exec op st).1 := by rw [he]
    have stable : st.lower.kindAt q = some k → st'.lower.kindAt q = some k :=
      worker_stable hat hok hi hq (fun hp => by rw [hst]; exact exec_kind hi.wf hp q)
    intro w hw r' before hr hb hput
    rcases List.mem_append.1 hw with hw | hw
    · exact stable (ih hat hq w (by simp [hw]) r' before hr hb hput)
    · rcases List.mem_cons.1 hw with rfl | hw
      · cases hr
      · exact stable (ih hat hq w (by simp [hw]) r' before hr hb hput)
  | @half a b env sel op r st st' hprev hm ih =>
    have hi := together_inv hprev hat
    have hok := together_ok hprev ⟨env, sel, .ok (op :: r)⟩ (by simp)
    intro w hw r' before hr hb hput
    exact worker_stable hat hok hi hq (mid_kind hi.wf hm · q) (ih hat hq w hw r' before hr hb hput)
  | @broken a b env sel op r st st' e hprev hm ih =>
    have hj : (a ++ (⟨env, sel, .error e⟩ : Accepting) :: b).map Accepting.job = (a ++ ⟨env, sel, .ok (op :: r)⟩ :: b).map Accepting.job := by simp [Accepting.job]
    rw [hj] at hat hq
    have hi := together_inv hprev hat
    have hok := together_ok hprev ⟨env, sel, .ok (op :: r)⟩ (by simp)
    have stable : st.lower.kindAt q = some k → st'.lower.kindAt q = some k := worker_stable hat hok hi hq (mid_kind hi.wf hm · q)
    intro w hw r' before hr hb hput
    rcases List.mem_append.1 hw with hw | hw
    · exact stable (ih hat hq w (by simp [hw]) r' before hr hb hput)
    · rcases List.mem_cons.1 hw with rfl | hw
      · cases hr
      · exact stable (ih hat hq w (by simp [hw]) r' before hr hb hput)
  | @late a b env sel op r st st' hop hprev he ih =>
    have hj : (a ++ (⟨env, sel, .ok r⟩ : Accepting) :: b).map Accepting.job = (a ++ ⟨env, sel, .ok (op :: r)⟩ :: b).map Accepting.job := by simp [Accepting.job]
    rw [hj] at hat hq
    have hi := together_inv hprev hat
    have hok := together_ok hprev ⟨env, sel, .ok (op :: r)⟩ (by simp)
    have hst : st' = (exec op ⟨st.lower, st0.upper⟩).1 := by rw [he]
    have stable : st.lower.kindAt q = some k → st'.lower.kindAt q = some k :=
      worker_stable (st := ⟨st.lower, st0.upper⟩) (st' := st') hat hok hi.before hq (fun hp => by rw [hst]; exact exec_kind (st := ⟨st.lower, st0.upper⟩) hi.wf hp q)
    intro w hw r' before hr hb hput
    rcases List.mem_append.1 hw with hw | hw
    · exact stable (ih hat hq w (by simp [hw]) r' before hr hb hput)
    · rcases List.mem_cons.1 hw with rfl | hw
      · cases hr
        obtain ⟨y, hy, _⟩ := hi.temp ⟨env, sel, .ok (op :: r)⟩ (by simp) _ rfl
        dsimp only at hy hb
        have hyb : before = y ++ [op] := List.append_cancel_right (bs := r) (by rw [hb, ← hy]; simp)
        obtain ⟨o, ho, hpo⟩ := hput
        rw [hyb] at ho
        rcases List.mem_append.1 ho with ho | ho
        · exact stable (ih hat hq ⟨env, sel, .ok (op :: r)⟩ (by simp) _ y rfl hy ⟨o, ho, hpo⟩)
        · rw [List.mem_singleton] at ho
          subst ho
          exact (worker_puts (st := ⟨st.lower, st0.upper⟩) (st' := st') hat hok hi.before hq he hpo : _)
      · exact stable (ih hat hq w (by simp [hw]) r' before hr hb hput)
  | @lateHalf a b env sel op r st st' hop hprev hm ih =>
    have hi := together_inv hprev hat
    have hok := together_ok hprev ⟨env, sel, .ok (op :: r)⟩ (by simp)
    intro w hw r' before hr hb hput
    exact worker_stable (st' := st') hat hok hi.before hq (mid_kind (st := ⟨st.lower, st0.upper⟩) hi.wf hm · q) (ih hat hq w hw r' before hr hb hput)
  | @stop a b env sel l st e hprev ih =>
    have hj : (a ++ (⟨env, sel, .error e⟩ : Accepting) :: b).map Accepting.job = (a ++ ⟨env, sel, l⟩ :: b).map Accepting.job := by simp [Accepting.job]
    rw [hj] at hat hq
    intro w hw r' before hr hb hput
    simp only [List.mem_append, List.mem_cons] at hw
    rcases hw with hw | rfl | hw
    · exact ih hat hq w (by simp [hw]) r' before hr hb hput
    · cases hr
    · exact ih hat hq w (by simp [hw]) r' before hr hb hput
  | drop keep _ ih => exact ih hat hq

end SB
