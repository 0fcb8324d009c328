import Verif.Lib.TogetherLemmas
import Verif.Spec.Together

/-! Several accepts at once: what one operation does (proof machinery). -/

namespace SB

/-- What one operation can make of the type and content at a path (`u`: the storage). -/
def KindStep (u : FS) (op : Op) (a b : FS) (q : Path) : Prop :=
  b.kindAt q = a.kindAt q ∨
  match op with
  | .rm p | .rmdir p | .rmIfExists p => q = p ∧ b.kindAt q = none
  | .cp _ t => q = t
  | .ln s p => q = p ∧ ∃ n, u.get s = some n ∧ b.kindAt q = some n.kind
  | .mkdirIfNeeded p => q = p ∧ b.kindAt q = some .dir
  | .mv x d => (x <+: q ∧ b.kindAt q = none) ∨ ∃ r, q = d ++ r ∧ b.kindAt q = a.kindAt (x ++ r) ∧ ∀ n m, a.get x = some n → a.get d = some m → m.isDir = n.isDir
  | _ => False

theorem kindAt_del (fs : FS) (p q : Path) : (fs.del p).kindAt q = if p = q then none else fs.kindAt q := by
  unfold FS.kindAt; rw [FS.get_del]; split <;> rfl

theorem kindAt_set (fs : FS) (p q : Path) (n : Node) : (fs.set p n).kindAt q = if p = q then some n.kind else fs.kindAt q := by
  unfold FS.kindAt; rw [FS.get_set]; split <;> rfl

theorem kindStep_lift {u : FS} {op : Op} {st : State} {r : Except Errno FS} {q : Path} (h : ∀ fs, r = .ok fs → KindStep u op st.lower fs q) :
    KindStep u op st.lower (liftLower st r).1.lower q := by
  cases r with
  | ok fs => exact h fs rfl
  | error e => exact .inl rfl

theorem exec_kind {op : Op} {st : State} (hw : st.lower.WF) (hp : ∀ x ∈ op.paths, NormalPath x ∧ st.lower.NoLinkAbove x) (q : Path) :
    KindStep st.upper op st.lower (exec op st).1.lower q := by
  cases op with
  | rm p =>
    obtain ⟨hN, hl⟩ := hp p (by simp [Op.paths])
    refine kindStep_lift (fun fs h => ?_)
    obtain ⟨rfl, _⟩ := FS.unlink_plain hw hN hl h
    unfold KindStep
    rw [kindAt_del]
    by_cases hq : p = q
    · right; rw [if_pos hq]; exact ⟨hq.symm, rfl⟩
    · left; rw [if_neg hq]
  | rmdir p =>
    obtain ⟨hN, hl⟩ := hp p (by simp [Op.paths])
    refine kindStep_lift (fun fs h => ?_)
    obtain ⟨rfl, _⟩ := FS.rmdir_plain hw hN hl h
    unfold KindStep
    rw [kindAt_del]
    by_cases hq : p = q
    · right; rw [if_pos hq]; exact ⟨hq.symm, rfl⟩
    · left; rw [if_neg hq]
  | mv x d =>
    obtain ⟨hNa, hla⟩ := hp x (by simp [Op.paths])
    obtain ⟨hNb, hlb⟩ := hp d (by simp [Op.paths])
    refine kindStep_lift (fun fs h => ?_)
    by_cases hab : x = d
    · subst hab
      have : fs = st.lower := by
        unfold FS.rename at h
        cases hc : st.lower.canon x with
        | error e => rw [hc] at h; cases h
        | ok c =>
          rw [hc] at h
          simp only at h
          cases hg : st.lower.get c with
          | none => rw [hg] at h; cases h
          | some n => rw [hg] at h; simp at h; exact h.symm
      rw [this]; exact .inl rfl
    · obtain ⟨hr, _⟩ := FS.rename_plain hw hNa hla hNb hlb hab h
      unfold KindStep FS.kindAt
      rw [hr.get]
      split
      · rename_i hbq
        obtain ⟨r, rfl⟩ := hbq
        right; right
        refine ⟨r, rfl, by rw [List.drop_left], fun n m hn hm => ?_⟩
        obtain ⟨n', hn', _, hd⟩ := hr.ex
        rw [hn] at hn'; cases hn'
        exact hd m hm
      · split
        · rename_i hx; right; left; exact ⟨hx, rfl⟩
        · left; rfl
  | cp s t =>
    obtain ⟨hN, hl⟩ := hp t (by simp [Op.paths])
    simp only [exec]
    split
    · exact .inl rfl
    · split
      · refine kindStep_lift (fun fs h => ?_)
        obtain ⟨n, rfl, hk, _⟩ := FS.writeFile_plain hw hN hl h
        unfold KindStep
        rw [kindAt_set]
        by_cases hq : t = q
        · right; exact hq.symm
        · left; rw [if_neg hq]
      · exact .inl rfl
  | rmIfExists p =>
    obtain ⟨hN, hl⟩ := hp p (by simp [Op.paths])
    simp only [exec]
    split
    · refine kindStep_lift (fun fs h => ?_)
      obtain ⟨rfl, _⟩ := FS.unlink_plain hw hN hl h
      unfold KindStep
      rw [kindAt_del]
      by_cases hq : p = q
      · right; rw [if_pos hq]; exact ⟨hq.symm, rfl⟩
      · left; rw [if_neg hq]
    · exact .inl rfl
    · exact .inl rfl
  | ln s p =>
    obtain ⟨hN, hl⟩ := hp p (by simp [Op.paths])
    simp only [exec]
    split
    · exact .inl rfl
    · rename_i n hn
      split
      · rename_i t ht
        refine kindStep_lift (fun fs h => ?_)
        obtain ⟨rfl, _⟩ := FS.symlink_plain hw hN hl h
        unfold KindStep
        rw [kindAt_set]
        by_cases hq : p = q
        · right; rw [if_pos hq]; exact ⟨hq.symm, n, hn, by rw [ht]⟩
        · left; rw [if_neg hq]
      · exact .inl rfl
  | mkdirIfNeeded p =>
    obtain ⟨hN, hl⟩ := hp p (by simp [Op.paths])
    simp only [exec]
    split
    · exact .inl rfl
    · refine kindStep_lift (fun fs h => ?_)
      obtain ⟨rfl, _⟩ := FS.mkdir_plain hw hN hl h
      unfold KindStep
      rw [kindAt_set]
      by_cases hq : p = q
      · right; rw [if_pos hq]; exact ⟨hq.symm, rfl⟩
      · left; rw [if_neg hq]
  | chown p u g =>
    obtain ⟨hN, hl⟩ := hp p (by simp [Op.paths])
    refine kindStep_lift (fun fs h => ?_)
    obtain ⟨n, hn, _, rfl⟩ := FS.chown_plain hw hN hl h
    left
    rw [kindAt_set]
    split
    · rename_i hq; subst hq; unfold FS.kindAt; rw [hn]; rfl
    · rfl
  | chmod p m =>
    obtain ⟨hN, hl⟩ := hp p (by simp [Op.paths])
    refine kindStep_lift (fun fs h => ?_)
    obtain ⟨n, hn, _, _, rfl⟩ := FS.chmod_plain hw hN hl h
    left
    rw [kindAt_set]
    split
    · rename_i hq; subst hq; unfold FS.kindAt; rw [hn]; rfl
    · rfl
  | clean p =>
    left
    rw [show (exec (.clean p) st).1.lower = st.lower from exec_lower_clean p st]

theorem mid_kind {op : Op} {st st' : State} (hw : st.lower.WF) (hm : Mid op st st') (hp : ∀ x ∈ op.paths, NormalPath x ∧ st.lower.NoLinkAbove x) (q : Path) :
    KindStep st.upper op st.lower st'.lower q := by
  cases hm with
  | @cp _ s t _ d m fs _ _ h =>
    obtain ⟨hN, hl⟩ := hp t (by simp [Op.paths])
    obtain ⟨n, rfl, hk, _⟩ := FS.writeFile_plain hw hN hl h
    unfold KindStep
    rw [kindAt_set]
    by_cases hq : t = q
    · right; exact hq.symm
    · left; rw [if_neg hq]
  | clean h => exact .inl rfl

/-- After a copy the temporary has the content that is stored. -/
theorem cp_kind {s t : Path} {st st' : State} (hw : st.lower.WF) (hp : NormalPath t ∧ st.lower.NoLinkAbove t) (h : exec (.cp s t) st = (st', none)) :
    ∃ n, st.upper.get s = some n ∧ n.isReg = true ∧ st'.lower.kindAt t = some n.kind := by
  simp only [exec] at h
  cases hg : st.upper.get s with
  | none => rw [hg] at h; simp at h
  | some n =>
    rw [hg] at h
    dsimp only at h
    split at h
    · rename_i d hd
      refine ⟨n, rfl, by simp [Node.isReg, hd, Kind.isReg], ?_⟩
      cases hx : st.lower.writeFile t d n.perm with
      | error e => rw [hx] at h; simp [liftLower] at h
      | ok fs =>
        rw [hx] at h
        simp only [liftLower, Prod.mk.injEq, and_true] at h
        obtain ⟨m, rfl, hk, _⟩ := FS.writeFile_plain hw hp.1 hp.2 hx
        rw [← h]
        simp only
        rw [kindAt_set, if_pos rfl, hk, hd]
    · simp at h

/-- A file that replaces another: nothing was below, and nothing is. -/
theorem mv_file {x d : Path} {a b : FS} (hw : a.WF) {n : Node} (hx : a.get x = some n) (hr : n.isDir = false) (q : Path) {u : FS} (h : KindStep u (.mv x d) a b q) :
    b.kindAt q = a.kindAt q ∨ (q = x ∧ b.kindAt q = none) ∨ (q = d ∧ b.kindAt q = some n.kind) := by
  have below : ∀ r, r ≠ [] → a.get (x ++ r) = none := by
    intro r hr'
    by_contra hc
    obtain ⟨m, hm⟩ := Option.ne_none_iff_exists'.1 hc
    have := hw.ancestor hm ⟨r, hr', rfl⟩
    obtain ⟨n', hn', hd⟩ := FS.isDirAt_iff.1 this
    rw [hx] at hn'; cases hn'; rw [hr] at hd; cases hd
  rcases h with h | ⟨⟨r, rfl⟩, h⟩ | ⟨r, rfl, h, hd⟩
  · exact .inl h
  · by_cases hr' : r = []
    · subst hr'; right; left; exact ⟨by simp, h⟩
    · left; rw [h]; unfold FS.kindAt; rw [below r hr']; rfl
  · by_cases hr' : r = []
    · subst hr'
      right; right
      refine ⟨by simp, ?_⟩
      rw [h]; unfold FS.kindAt; rw [List.append_nil, hx]; rfl
    · left
      rw [h]
      have h1 := below r hr'
      have h2 : a.get (d ++ r) = none := by
        by_contra hc
        obtain ⟨m, hm⟩ := Option.ne_none_iff_exists'.1 hc
        have := hw.ancestor hm ⟨r, hr', rfl⟩
        obtain ⟨m', hm', hdd⟩ := FS.isDirAt_iff.1 this
        have := hd n m' hx hm'
        rw [hdd, hr] at this; cases this
      unfold FS.kindAt; rw [h1, h2]

theorem exec_mv {x d : Path} {st : State} (hw : st.lower.WF) (hp : ∀ y ∈ (Op.mv x d).paths, NormalPath y ∧ st.lower.NoLinkAbove y) :
    (exec (.mv x d) st).1.lower = st.lower ∨ FS.Renamed st.lower (exec (.mv x d) st).1.lower x d := by
  obtain ⟨hNa, hla⟩ := hp x (by simp [Op.paths])
  obtain ⟨hNb, hlb⟩ := hp d (by simp [Op.paths])
  simp only [exec]
  cases h : st.lower.rename x d with
  | error e => exact .inl rfl
  | ok fs =>
    simp only [liftLower]
    by_cases hab : x = d
    · subst hab
      left
      unfold FS.rename at h
      cases hc : st.lower.canon x with
      | error e => rw [hc] at h; cases h
      | ok c =>
        rw [hc] at h
        simp only at h
        cases hg : st.lower.get c with
        | none => rw [hg] at h; cases h
        | some n => rw [hg] at h; simp at h; exact h.symm
    · exact .inr (FS.rename_plain hw hNa hla hNb hlb hab h).1

/-- A file that replaces another does not touch any other path. -/
theorem mv_other {x d : Path} {a b : FS} (hw : a.WF) {n : Node} (hx : a.get x = some n) (hr : n.isDir = false) (h : b = a ∨ FS.Renamed a b x d) {q : Path} (h1 : q ≠ x) (h2 : q ≠ d) : b.get q = a.get q := by
  rcases h with rfl | h
  · rfl
  · have below : ∀ r, r ≠ [] → a.get (x ++ r) = none := by
      intro r hr'
      by_contra hc
      obtain ⟨m, hm⟩ := Option.ne_none_iff_exists'.1 hc
      have := hw.ancestor hm ⟨r, hr', rfl⟩
      obtain ⟨n', hn', hd⟩ := FS.isDirAt_iff.1 this
      rw [hx] at hn'; cases hn'; rw [hr] at hd; cases hd
    rw [h.get]
    split
    · rename_i hq
      obtain ⟨r, rfl⟩ := hq
      have hr' : r ≠ [] := by rintro rfl; simp at h2
      rw [List.drop_left, below r hr']
      by_contra hc
      obtain ⟨m, hm⟩ := Option.ne_none_iff_exists'.1 (Ne.symm hc)
      have := hw.ancestor hm ⟨r, hr', rfl⟩
      obtain ⟨m', hm', hdd⟩ := FS.isDirAt_iff.1 this
      obtain ⟨n', hn', _, hd⟩ := h.ex
      rw [hx] at hn'; cases hn'
      have := hd m' hm'
      rw [hdd, hr] at this; cases this
    · split
      · rename_i hq
        obtain ⟨r, rfl⟩ := hq
        have hr' : r ≠ [] := by rintro rfl; simp at h1
        rw [below r hr']
      · rfl

/-! ### the paths of the operations -/

theorem mem_all {jobs : List (Env × List Entry)} {e : Entry} : e ∈ Spec.allSelected jobs ↔ ∃ j ∈ jobs, e ∈ j.2 := List.mem_flatMap

theorem atOnce_norename {env0 : Env} {st : State} {jobs : List (Env × List Entry)} (h : Spec.AtOnce env0 st jobs) {j : Env × List Entry} (hj : j ∈ jobs) : ∀ e ∈ j.2, e.op ≠ .rename := by
  intro e he ho
  obtain ⟨e0, _, hs⟩ := h.same j hj e he
  rcases hs with ⟨⟨t, ht⟩, _⟩ | ⟨h1, _⟩
  · rw [ho] at ht; cases ht
  · rw [ho] at h1; cases h1

theorem atOnce_good {env0 : Env} {st : State} {jobs : List (Env × List Entry)} (h : Spec.AtOnce env0 st jobs) {j : Env × List Entry} (hj : j ∈ jobs) : Good j.1 st.lower (Spec.allSelected jobs) := by
  refine ⟨h.host, h.plain j hj, h.fresh j hj, fun e he ho => ?_⟩
  obtain ⟨j', hj', he'⟩ := mem_all.1 he
  exact absurd ho (atOnce_norename h hj' e he')

theorem atOnce_stored {env0 : Env} {st : State} {jobs : List (Env × List Entry)} (h : Spec.AtOnce env0 st jobs) {e : Entry} (he : e ∈ Spec.allSelected jobs) (hi : Spec.IsSet e) {s : Details}
    (hs : e.staged = some s) : st.upper.get s.path = some s.node := by
  obtain ⟨j, hj, he⟩ := mem_all.1 he
  obtain ⟨e0, h0, hsame⟩ := h.same j hj e he
  rcases hsame with ⟨_, _, _, hst⟩ | ⟨h1, _⟩
  · exact (changes_staged h0 (by rw [← hst, hs])).1
  · obtain ⟨t, ht⟩ := hi; rw [h1] at ht; cases ht

/-- Where symbolic links can be. -/
def LinkMay (st0 : State) (jobs : List (Env × List Entry)) (q : Path) : Prop :=
  st0.lower.linkAt q ∨ ∃ e ∈ Spec.allSelected jobs, Spec.IsSet e ∧ (∃ s, e.staged = some s ∧ s.node.isLnk = true) ∧ e.dest = q

theorem link_ftype {n : Node} : n.isLnk = true ↔ Spec.ftype n.kind = .symlink := symlink_iff.symm

theorem below_tmp {d y : Path} {x : Name} (h : Below y (d.dropLast ++ [x])) (hd : d ≠ []) : Below y d := by
  have := prefix_dropLast_of_below h
  rw [List.dropLast_concat] at this
  have hc : d = d.dropLast ++ [d.getLast hd] := (List.dropLast_append_getLast hd).symm
  obtain ⟨r, hr⟩ := this
  exact ⟨r ++ [d.getLast hd], by simp, by rw [← List.append_assoc, hr]; exact hc⟩

theorem op_plain {env0 : Env} {st0 : State} {jobs : List (Env × List Entry)} (h : Spec.AtOnce env0 st0 jobs) {j : Env × List Entry} (hj : j ∈ jobs) {fs : FS}
    (hl : ∀ q, fs.linkAt q → LinkMay st0 jobs q) {op : Op} (hop : op ∈ plan j.1 j.2) : ∀ x ∈ op.paths, NormalPath x ∧ fs.NoLinkAbove x := by
  have now : ∀ x, (∀ y, Below y x → ¬ LinkMay st0 jobs y) → fs.NoLinkAbove x := by
    intro x hx y hy n hn
    by_contra hc
    exact hx y hy (hl y ⟨n, hn, by simpa using hc⟩)
  have inU : ∀ e ∈ j.2, e ∈ Spec.allSelected jobs := fun e he => mem_all.2 ⟨j, hj, he⟩
  have hp := h.plain j hj
  have dst : ∀ e ∈ j.2, Spec.IsSet e → ∀ y, Below y e.dest → ¬ LinkMay st0 jobs y := by
    rintro e he hi y hy (⟨n, hn, hln⟩ | ⟨e', he', hi', ⟨s, hs, hln⟩, rfl⟩)
    · exact (hp.dest e (inU e he)).2.2 y hy n hn (link_ftype.1 hln)
    · exact (hp.links e' he' hi' s hs (link_ftype.1 hln)).1 e (inU e he) (.inl hi) hy
  rcases plan_ops (atOnce_norename h hj) hop with ⟨p, ⟨e, he, ho, s, hs, rfl⟩, hop⟩ | ⟨e, he, hi, s, i, hs, hop⟩ | ⟨p, rfl⟩
  · have hpl := hp.source e (inU e he) s hs
    have : NormalPath s.path ∧ fs.NoLinkAbove s.path := by
      refine ⟨hpl.1, now _ ?_⟩
      rintro y hy (⟨n, hn, hln⟩ | ⟨e', he', hi', ⟨s', hs', hln⟩, rfl⟩)
      · exact hpl.2 y hy n hn (link_ftype.1 hln)
      · exact h.links e' he' hi' s' hs' (link_ftype.1 hln) s.path ⟨e, inU e he, ho, s, hs, rfl⟩ hy
    rcases hop with rfl | rfl <;> intro x hx <;> simp [Op.paths] at hx <;> subst hx <;> exact this
  · have hd : NormalPath e.dest ∧ fs.NoLinkAbove e.dest := ⟨(hp.dest e (inU e he)).1, now _ (dst e he hi)⟩
    have ht : NormalPath (copyTmp e.dest (j.1.uuidC i)) ∧ fs.NoLinkAbove (copyTmp e.dest (j.1.uuidC i)) := by
      refine ⟨normal_copyTmp (st := st0) (atOnce_good h hj) (inU e he) i, now _ (fun y hy => dst e he hi y ?_)⟩
      rw [copyTmp_eq] at hy
      exact below_tmp hy (hp.dest e (inU e he)).2.1
    intro x hx
    rcases mem_setOps hop with ⟨_, rfl | rfl⟩ | ⟨_, rfl | rfl⟩ | rfl | ⟨u, g, rfl⟩ | ⟨m, rfl⟩ <;> simp only [Op.paths, List.mem_cons, List.not_mem_nil, or_false] at hx
    · rw [hx]; exact ht
    · rcases hx with rfl | rfl
      · exact ht
      · exact hd
    all_goals (rw [hx]; exact hd)
  · intro x hx; simp [Op.paths] at hx

/-- Only directories are made with `mkdir`. -/
theorem mkdir_kind {d0 d tmp : Path} {s : Details} (h1 : Op.mkdirIfNeeded d ∈ setOps d0 s tmp) (hsup : s.node.supported = true) : s.node.kind = .dir := by
  have hnr : s.node.isReg = false ∧ s.node.isLnk = false := by
    unfold setOps permOps at h1
    constructor
    · by_contra hc
      have hc : s.node.isReg = true := by simpa using hc
      rw [if_pos hc] at h1
      simp only [List.mem_cons, reduceCtorEq, false_or] at h1
      split at h1 <;> simp at h1
    · by_contra hc
      have hc : s.node.isLnk = true := by simpa using hc
      have hc' : s.node.isReg = false := by
        unfold Node.isLnk at hc; unfold Node.isReg
        cases hkk : s.node.kind <;> rw [hkk] at hc <;> simp [Kind.isLnk] at hc <;> simp [Kind.isReg]
      rw [if_neg (by rw [hc']; simp), if_pos hc] at h1
      simp [hc] at h1
  unfold Node.supported at hsup
  rw [hnr.1, hnr.2] at hsup
  simp only [Bool.false_or, Bool.or_false] at hsup
  unfold Node.isDir at hsup
  cases hkk : s.node.kind <;> rw [hkk] at hsup <;> simp at hsup

/-! ### the invariant -/

/-- What holds at every moment. -/
structure TInv (st0 : State) (ws : List Accepting) (st : State) : Prop where
  wf : st.lower.WF
  upper : Thins st0.upper st.upper
  link : ∀ q, st.lower.linkAt q → LinkMay st0 (ws.map Accepting.job) q
  kind : ∀ q, (∀ w ∈ ws, ¬ Spec.Temp w.env w.sel q) → Spec.Complete (Spec.allSelected (ws.map Accepting.job)) st0.lower q (st.lower.kindAt q)
  keep : ∀ q, (∀ w ∈ ws, ¬ Spec.Touched w.env w.sel q) → st.lower.get q = st0.lower.get q
  temp : ∀ w ∈ ws, ∀ r, w.left = .ok r → ∃ before, before ++ r = plan w.env w.sel ∧
    ∀ s t, before.getLast? = some (.cp s t) → ∃ n, st0.upper.get s = some n ∧ n.isReg = true ∧ st.lower.kindAt t = some n.kind

/-- The parts of the invariant about the host. -/
structure TLow (st0 : State) (jobs : List (Env × List Entry)) (fs : FS) : Prop where
  wf : fs.WF
  link : ∀ q, fs.linkAt q → LinkMay st0 jobs q
  kind : ∀ q, (∀ j ∈ jobs, ¬ Spec.Temp j.1 j.2 q) → Spec.Complete (Spec.allSelected jobs) st0.lower q (fs.kindAt q)
  keep : ∀ q, (∀ j ∈ jobs, ¬ Spec.Touched j.1 j.2 q) → fs.get q = st0.lower.get q

theorem copy_mem {e : Entry} {u : Str} : Spec.copyName e.dest u ∈ copyTmp e.dest u := by rw [copyTmp_eq]; simp

/-- One operation (whole, failed, or half done) keeps the host parts, and does not touch the temporaries of other accepts. -/
theorem low_step {env0 : Env} {st0 st : State} {jobs : List (Env × List Entry)} (h : Spec.AtOnce env0 st0 jobs) {j : Env × List Entry} (hj : j ∈ jobs)
    (hok : ∀ e ∈ j.2, Spec.IsSet e → ∃ s, e.staged = some s ∧ s.node.supported = true) (hu : Thins st0.upper st.upper)
    (hi : TLow st0 jobs st.lower) {op : Op} (hop : op ∈ plan j.1 j.2) {fs : FS} (hs : StepOK op st.lower fs) (hk : ∀ q, KindStep st.upper op st.lower fs q)
    (hmv : ∀ t d, op = .mv t d → (fs = st.lower ∨ FS.Renamed st.lower fs t d) ∧ ∃ e ∈ j.2, Spec.IsSet e ∧ e.dest = d ∧ ∃ s i, e.staged = some s ∧ s.node.isReg = true ∧
      t = copyTmp e.dest (j.1.uuidC i) ∧ st.lower.kindAt t = some s.node.kind) :
    TLow st0 jobs fs ∧ ∀ j' ∈ jobs, (∀ e ∈ Spec.allSelected jobs, ∀ e' ∈ Spec.allSelected jobs, ∀ x y, Spec.copyName e.dest (j.1.uuidC x) ≠ Spec.copyName e'.dest (j'.1.uuidC y)) →
      ∀ e' ∈ j'.2, ∀ i', fs.kindAt (copyTmp e'.dest (j'.1.uuidC i')) = st.lower.kindAt (copyTmp e'.dest (j'.1.uuidC i')) := by
  have inU : ∀ e ∈ j.2, e ∈ Spec.allSelected jobs := fun e he => mem_all.2 ⟨j, hj, he⟩
  have hups : ∀ e ∈ j.2, Spec.IsSet e → ∀ s n, e.staged = some s → st.upper.get s.path = some n → n = s.node := by
    intro e he hi s n hs hn
    have h1 := hu.get hn h.storage.nodup
    rw [atOnce_stored h (inU e he) hi hs] at h1
    exact (Option.some.inj h1).symm
  have hmv' : ∀ t d, op = .mv t d → (∀ q, q ≠ t → q ≠ d → fs.get q = st.lower.get q) ∧ ∃ e ∈ j.2, Spec.IsSet e ∧ e.dest = d ∧ ∃ s i, e.staged = some s ∧ s.node.isReg = true ∧
      t = copyTmp e.dest (j.1.uuidC i) ∧ (fs.kindAt d = st.lower.kindAt d ∨ fs.kindAt d = some s.node.kind) ∧ ∀ r, ¬ st.lower.linkAt (t ++ r) := by
    intro t d hop'
    obtain ⟨hren, e, he, hie, hd, s, i, hse, hreg, ht, hkt⟩ := hmv t d hop'
    obtain ⟨n, hn, hnk⟩ : ∃ n, st.lower.get t = some n ∧ n.kind = s.node.kind := by
      unfold FS.kindAt at hkt
      cases hg : st.lower.get t with
      | none => rw [hg] at hkt; cases hkt
      | some n => rw [hg] at hkt; exact ⟨n, rfl, by simpa using hkt⟩
    have hnd : n.isDir = false ∧ n.isLnk = false := by
      unfold Node.isReg at hreg
      unfold Node.isDir Node.isLnk
      rw [hnk]
      cases hkk : s.node.kind <;> rw [hkk] at hreg <;> simp [Kind.isReg] at hreg <;> simp [Kind.isLnk]
    refine ⟨fun q h1 h2 => mv_other hi.wf hn hnd.1 hren h1 h2, e, he, hie, hd, s, i, hse, hreg, ht, ?_, ?_⟩
    · have hkd := hk d
      rw [hop'] at hkd
      rcases mv_file hi.wf hn hnd.1 d hkd with h1 | ⟨h1, h2⟩ | ⟨_, h1⟩
      · exact .inl h1
      · rcases hren with rfl | hren
        · exact .inl rfl
        · exact absurd (by rw [h1]) hren.notab
      · right; rw [h1, hnk]
    · rintro r ⟨m, hm, hml⟩
      by_cases hr : r = []
      · subst hr
        rw [List.append_nil, hn] at hm
        cases hm
        rw [hnd.2] at hml; cases hml
      · have := hi.wf.ancestor hm ⟨r, hr, rfl⟩
        obtain ⟨n', hn', hd'⟩ := FS.isDirAt_iff.1 this
        rw [hn] at hn'; cases hn'
        rw [hnd.1] at hd'; cases hd'
  have cls := plan_ops (atOnce_norename h hj) hop
  refine ⟨⟨hs.wf, fun q hq => ?_, fun q hq => ?_, fun q hq => ?_⟩, fun j' hj' hap e' he' i' => ?_⟩
  · -- links
    rcases hs.link q hq with hl | hl
    · exact hi.link q hl
    · cases op <;> simp only [Op.newLink] at hl
      case ln s p =>
        rcases cls with ⟨_, _, h1 | h1⟩ | ⟨e, he, hie, s', i, hse, h1⟩ | ⟨_, h1⟩
        · cases h1
        · cases h1
        · rcases mem_setOps h1 with ⟨_, h1 | h1⟩ | ⟨hlk, h1 | h1⟩ | h1 | ⟨_, _, h1⟩ | ⟨_, h1⟩ <;> cases h1
          exact .inr ⟨e, inU e he, hie, ⟨s', hse, hlk⟩, hl.symm⟩
        · cases h1
      case mv t d =>
        obtain ⟨r, n, rfl, hn, hln⟩ := hl
        obtain ⟨_, e, he, hie, hd, s, i, _, _, _, _, hno⟩ := hmv' t d rfl
        exact absurd ⟨n, hn, hln⟩ (hno r)
  · -- completeness
    have old := hi.kind q hq
    rcases hk q with hsame | hk
    · rw [hsame]; exact old
    · rcases cls with ⟨p, hrem, h1⟩ | ⟨e, he, hie, s, i, hse, h1⟩ | ⟨_, h1⟩
      · have hrem' : Spec.Removes (Spec.allSelected jobs) p := by
          obtain ⟨e, he, hx⟩ := hrem; exact ⟨e, inU e he, hx⟩
        rcases h1 with rfl | rfl
        all_goals
          obtain ⟨rfl, hn⟩ := hk
          rw [hn]
          exact .inr (.inr (.inr ⟨rfl, .inl hrem'⟩))
      · have setTo : ∀ k, e.dest = q → k = some s.node.kind → Spec.Complete (Spec.allSelected jobs) st0.lower q k := fun k hd hk => .inr (.inl ⟨e, inU e he, hie, hd, s, hse, hk⟩)
        rcases mem_setOps h1 with ⟨_, rfl | rfl⟩ | ⟨hlk, rfl | rfl⟩ | rfl | ⟨_, _, rfl⟩ | ⟨_, rfl⟩
        · simp only at hk
          exact absurd (.copy e i he hie (by rw [hk, copyTmp_eq])) (hq j hj)
        · obtain ⟨hoth, e1, he1, hie1, hd1, s1, i1, hse1, _, ht1, hkd, _⟩ := hmv' _ _ rfl
          by_cases h1 : q = copyTmp e.dest (j.1.uuidC i)
          · exact absurd (.copy e i he hie (by rw [h1, copyTmp_eq])) (hq j hj)
          · by_cases h2 : q = e.dest
            · subst h2
              rcases hkd with hkd | hkd
              · rw [hkd]; exact old
              · exact .inr (.inl ⟨e1, inU e1 he1, hie1, hd1, s1, hse1, hkd⟩)
            · unfold FS.kindAt; rw [hoth q h1 h2]; exact old
        · obtain ⟨rfl, hn⟩ := hk
          rw [hn]
          exact .inr (.inr (.inr ⟨rfl, .inr (.inr ⟨e, inU e he, hie, rfl, s, hse, link_ftype.1 hlk⟩)⟩))
        · obtain ⟨rfl, n, hn, hkn⟩ := hk
          exact setTo _ rfl (by rw [hkn, hups e he hie s n hse hn])
        · obtain ⟨rfl, hkn⟩ := hk
          refine setTo _ rfl ?_
          rw [hkn]
          obtain ⟨s', hs', hsup⟩ := hok e he hie
          rw [hse] at hs'; cases hs'
          exact congrArg some (mkdir_kind h1 hsup).symm
        · exact absurd hk (by simp)
        · exact absurd hk (by simp)
      · subst h1; exact absurd hk (by simp)
  · -- the rest
    have hold := hi.keep q hq
    rw [← hold]
    rcases cls with ⟨p, ⟨e, he, ho, s, hse, rfl⟩, h1⟩ | ⟨e, he, hie, s, i, hse, h1⟩ | ⟨_, rfl⟩
    · refine hs.out q ?_
      rcases h1 with rfl | rfl <;> intro hr <;> simp only [Op.region, Op.paths, List.mem_singleton] at hr <;> exact hq j hj (.removed e s he ho hse hr.symm)
    · have hd : q ≠ e.dest := fun hc => hq j hj (.dest e he hie hc.symm)
      have ht : q ≠ copyTmp e.dest (j.1.uuidC i) := fun hc => hq j hj (.copyTemp e i he hie (by rw [hc, copyTmp_eq]))
      rcases mem_setOps h1 with ⟨_, rfl | rfl⟩ | ⟨hlk, rfl | rfl⟩ | rfl | ⟨_, _, rfl⟩ | ⟨_, rfl⟩
      · exact hs.out q (by intro hr; simp only [Op.region, Op.paths, List.mem_singleton] at hr; exact ht hr)
      · exact (hmv' _ _ rfl).1 q ht hd
      all_goals exact hs.out q (by intro hr; simp only [Op.region, Op.paths, List.mem_singleton] at hr; exact hd hr)
    · exact hs.out q (by simp [Op.region])
  · -- the temporaries of others
    set t' := copyTmp e'.dest (j'.1.uuidC i') with ht'
    have inU' : e' ∈ Spec.allSelected jobs := mem_all.2 ⟨j', hj', he'⟩
    have hx' : Spec.copyName e'.dest (j'.1.uuidC i') ∈ t' := copy_mem
    have hnew := (h.fresh j' hj').copy i' e' inU'
    rcases hk t' with hsame | hk
    · exact hsame
    · rcases cls with ⟨p, ⟨e, he, ho, s, hse, rfl⟩, h1⟩ | ⟨e, he, hie, s, i, hse, h1⟩ | ⟨_, rfl⟩
      · exfalso
        have := hnew.source e (inU e he) s hse
        rcases h1 with rfl | rfl <;> exact this (by rw [← hk.1]; exact hx')
      · have hd : t' ≠ e.dest := fun hc => hnew.dest e (inU e he) (by rw [← hc]; exact hx')
        have ht : t' ≠ copyTmp e.dest (j.1.uuidC i) := by
          intro hc
          rw [ht', copyTmp_eq, copyTmp_eq] at hc
          have := (List.append_inj' hc rfl).2
          simp only [List.cons.injEq, and_true] at this
          exact hap e (inU e he) e' inU' i i' this.symm
        rcases mem_setOps h1 with ⟨_, rfl | rfl⟩ | ⟨hlk, rfl | rfl⟩ | rfl | ⟨_, _, rfl⟩ | ⟨_, rfl⟩
        · exact absurd hk ht
        · unfold FS.kindAt; rw [(hmv' _ _ rfl).1 t' ht hd]
        · exact absurd hk.1 hd
        · exact absurd hk.1 hd
        · exact absurd hk.1 hd
        · exact absurd hk (by simp)
        · exact absurd hk (by simp)
      · exact absurd hk (by simp)


/-! ### fewer accepts -/

theorem plainHost_mono {env : Env} {host : FS} {a b : List Entry} (h : Spec.PlainHost env host b) (hs : ∀ e ∈ a, e ∈ b) : Spec.PlainHost env host a :=
  ⟨fun e he => h.dest e (hs e he), fun e he => h.source e (hs e he), h.cwd,
    fun e he ho s hse r n hn hf => ⟨fun e' he' => (h.renamed e (hs e he) ho s hse r n hn hf).1 e' (hs e' he'), (h.renamed e (hs e he) ho s hse r n hn hf).2⟩,
    fun e he hi s hse hf => ⟨fun e' he' => (h.links e (hs e he) hi s hse hf).1 e' (hs e' he'), fun e' he' => (h.links e (hs e he) hi s hse hf).2 e' (hs e' he')⟩⟩

theorem newName_mono {env : Env} {host : FS} {a b : List Entry} {x : Name} (h : Spec.NewName env host b x) (hs : ∀ e ∈ a, e ∈ b) : Spec.NewName env host a x :=
  ⟨h.host, fun e he => h.dest e (hs e he), fun e he => h.source e (hs e he), h.cwd⟩

theorem freshTemps_mono {env : Env} {host : FS} {a b : List Entry} (h : Spec.FreshTemps env host b) (hs : ∀ e ∈ a, e ∈ b) : Spec.FreshTemps env host a :=
  ⟨h.textR, h.textC, fun i e he => newName_mono (h.copy i e (hs e he)) hs, fun i e he s hse => newName_mono (h.ren i e (hs e he) s hse) hs,
    fun i j hij e he e' he' => h.renInj i j hij e (hs e he) e' (hs e' he'), fun i j e he e' he' => h.renCopy i j e (hs e he) e' (hs e' he')⟩

theorem atOnce_prefix {env0 : Env} {st : State} {js js' : List (Env × List Entry)} (h : Spec.AtOnce env0 st (js ++ js')) : Spec.AtOnce env0 st js := by
  have hs : ∀ e ∈ Spec.allSelected js, e ∈ Spec.allSelected (js ++ js') := by
    intro e he
    obtain ⟨j, hj, he⟩ := mem_all.1 he
    exact mem_all.2 ⟨j, List.mem_append.2 (.inl hj), he⟩
  have hj : ∀ j ∈ js, j ∈ js ++ js' := fun j hj => List.mem_append.2 (.inl hj)
  refine ⟨h.host, h.storage, fun j hj' => h.same j (hj j hj'), fun j hj' => plainHost_mono (h.plain j (hj j hj')) hs, fun j hj' => freshTemps_mono (h.fresh j (hj j hj')) hs, ?_, ?_⟩
  · exact (List.pairwise_append.1 h.apart).1.imp (fun hp e he e' he' => hp e (hs e he) e' (hs e' he'))
  · rintro e he hi s hse hf q ⟨e', he', hx⟩
    exact h.links e (hs e he) hi s hse hf q ⟨e', hs e' he', hx⟩

theorem complete_mono {a b : List Entry} {host : FS} {q : Path} {k : Option Kind} (hs : ∀ e ∈ a, e ∈ b) (h : Spec.Complete a host q k) : Spec.Complete b host q k := by
  have hren : ∀ s d, Spec.Renames a s d → Spec.Renames b s d := fun s d ⟨e, he, hx⟩ => ⟨e, hs e he, hx⟩
  rcases h with h | ⟨e, he, hx⟩ | ⟨s, d, r, hr, hx⟩ | ⟨hk, ⟨e, he, hx⟩ | ⟨s, d, hr, hx⟩ | ⟨e, he, hx⟩⟩
  · exact .inl h
  · exact .inr (.inl ⟨e, hs e he, hx⟩)
  · exact .inr (.inr (.inl ⟨s, d, r, hren s d hr, hx⟩))
  · exact .inr (.inr (.inr ⟨hk, .inl ⟨e, hs e he, hx⟩⟩))
  · exact .inr (.inr (.inr ⟨hk, .inr (.inl ⟨s, d, hren s d hr, hx⟩)⟩))
  · exact .inr (.inr (.inr ⟨hk, .inr (.inr ⟨e, hs e he, hx⟩)⟩))

/-! ### all schedules -/

theorem TInv.low {st0 st : State} {ws : List Accepting} (h : TInv st0 ws st) : TLow st0 (ws.map Accepting.job) st.lower :=
  ⟨h.wf, h.link, fun q hq => h.kind q (fun w hw => hq _ (List.mem_map.2 ⟨w, hw, rfl⟩)), fun q hq => h.keep q (fun w hw => hq _ (List.mem_map.2 ⟨w, hw, rfl⟩))⟩

theorem TInv.before {st0 st : State} {ws : List Accepting} (h : TInv st0 ws st) : TInv st0 ws ⟨st.lower, st0.upper⟩ := ⟨h.wf, Thins.refl _, h.link, h.kind, h.keep, h.temp⟩

/-- One accept makes a step. -/
theorem tinv_step {env0 : Env} {st0 st st' : State} {a b : List Accepting} {env : Env} {sel : List Entry} {op : Op} {r : List Op} {left : Except AccErr (List Op)}
    (hat : Spec.AtOnce env0 st0 ((a ++ ⟨env, sel, .ok (op :: r)⟩ :: b).map Accepting.job)) (hok : (⟨env, sel, .ok (op :: r)⟩ : Accepting).Ok) (hi : TInv st0 (a ++ ⟨env, sel, .ok (op :: r)⟩ :: b) st)
    (hs : (∀ x ∈ op.paths, NormalPath x ∧ st.lower.NoLinkAbove x) → StepOK op st.lower st'.lower ∧ (∀ q, KindStep st.upper op st.lower st'.lower q) ∧
      ∀ t d, op = .mv t d → st'.lower = st.lower ∨ FS.Renamed st.lower st'.lower t d) (hup : Thins st.upper st'.upper)
    (hleft : ∀ r', left = .ok r' → (∀ x ∈ op.paths, NormalPath x ∧ st.lower.NoLinkAbove x) → (r' = r ∧ ∀ s t, op = .cp s t → ∃ n, st.upper.get s = some n ∧ n.isReg = true ∧ st'.lower.kindAt t = some n.kind) ∨
      (r' = op :: r ∧ ∀ t d, op ≠ .mv t d)) :
    TInv st0 (a ++ ⟨env, sel, left⟩ :: b) st' := by
  have hjobs : (a ++ ⟨env, sel, left⟩ :: b).map Accepting.job = (a ++ ⟨env, sel, .ok (op :: r)⟩ :: b).map Accepting.job := by simp [Accepting.job]
  have hj : (env, sel) ∈ (a ++ ⟨env, sel, .ok (op :: r)⟩ :: b).map Accepting.job := by simp [Accepting.job]
  obtain ⟨before, hbef, htmp⟩ := hi.temp ⟨env, sel, .ok (op :: r)⟩ (by simp) _ rfl
  have hop : op ∈ plan env sel := by rw [← hbef]; simp
  have hnr := atOnce_norename hat hj
  have hp := op_plain hat hj hi.link hop
  obtain ⟨hs1, hs2, hs3⟩ := hs hp
  have hmv : ∀ t d, op = .mv t d → (st'.lower = st.lower ∨ FS.Renamed st.lower st'.lower t d) ∧ ∃ e ∈ sel, Spec.IsSet e ∧ e.dest = d ∧ ∃ s i, e.staged = some s ∧ s.node.isReg = true ∧
      t = copyTmp e.dest (env.uuidC i) ∧ st.lower.kindAt t = some s.node.kind := by
    rintro t d rfl
    refine ⟨hs3 t d rfl, ?_⟩
    obtain ⟨e, he, s, hie, hse, hreg, hd, hlast, i, ht⟩ := plan_mv hnr hbef.symm
    obtain ⟨n, hn, _, hk⟩ := htmp _ _ hlast
    rw [atOnce_stored hat (mem_all.2 ⟨_, hj, he⟩) hie hse] at hn
    cases hn
    exact ⟨e, he, hie, hd, s, i, hse, hreg, ht, hk⟩
  obtain ⟨hlow, hoth⟩ := low_step hat hj hok.staged hi.upper hi.low hop hs1 hs2 hmv
  refine ⟨hlow.wf, hi.upper.trans hup, ?_, fun q hq => ?_, fun q hq => ?_, ?_⟩
  · rw [hjobs]; exact hlow.link
  · rw [hjobs]
    refine hlow.kind q (fun j hj' => ?_)
    rw [← hjobs] at hj'
    obtain ⟨w, hw, rfl⟩ := List.mem_map.1 hj'
    exact hq w hw
  · refine hlow.keep q (fun j hj' => ?_)
    rw [← hjobs] at hj'
    obtain ⟨w, hw, rfl⟩ := List.mem_map.1 hj'
    exact hq w hw
  · -- the temporaries
    have other : ∀ w, w ∈ a ∨ w ∈ b → ∀ r', w.left = .ok r' → ∃ before, before ++ r' = plan w.env w.sel ∧
        ∀ s t, before.getLast? = some (.cp s t) → ∃ n, st0.upper.get s = some n ∧ n.isReg = true ∧ st'.lower.kindAt t = some n.kind := by
      intro w hw r' hr'
      have hwm : w ∈ a ++ (⟨env, sel, .ok (op :: r)⟩ : Accepting) :: b := by rcases hw with hw | hw <;> simp [hw]
      obtain ⟨before', hb', ht'⟩ := hi.temp w hwm r' hr'
      refine ⟨before', hb', fun s t hl => ?_⟩
      obtain ⟨n, hn, hr2, hk⟩ := ht' s t hl
      refine ⟨n, hn, hr2, ?_⟩
      have hwj : w.job ∈ (a ++ ⟨env, sel, .ok (op :: r)⟩ :: b).map Accepting.job := List.mem_map.2 ⟨w, hwm, rfl⟩
      have hcp : Op.cp s t ∈ plan w.env w.sel := by rw [← hb']; exact List.mem_append.2 (.inl (List.mem_of_getLast? hl))
      have hap : ∀ e ∈ Spec.allSelected ((a ++ ⟨env, sel, .ok (op :: r)⟩ :: b).map Accepting.job), ∀ e' ∈ Spec.allSelected ((a ++ ⟨env, sel, .ok (op :: r)⟩ :: b).map Accepting.job), ∀ x y,
          Spec.copyName e.dest (env.uuidC x) ≠ Spec.copyName e'.dest (w.env.uuidC y) := by
        have hpw := hat.apart
        generalize Spec.allSelected ((a ++ ⟨env, sel, .ok (op :: r)⟩ :: b).map Accepting.job) = U at hpw ⊢
        rw [List.map_append, List.map_cons, List.pairwise_append] at hpw
        rcases hw with hw | hw
        · intro e he e' he' x y hc
          exact hpw.2.2 w.job (List.mem_map.2 ⟨w, hw, rfl⟩) (env, sel) (by simp [Accepting.job]) e' he' e he y x hc.symm
        · intro e he e' he' x y
          exact (List.pairwise_cons.1 hpw.2.1).1 w.job (List.mem_map.2 ⟨w, hw, rfl⟩) e he e' he' x y
      rcases plan_ops (atOnce_norename hat hwj) hcp with ⟨_, _, h1 | h1⟩ | ⟨e, he, hie, s', i, hse, h1⟩ | ⟨_, h1⟩
      · cases h1
      · cases h1
      · rcases mem_setOps h1 with ⟨_, h1 | h1⟩ | ⟨_, h1 | h1⟩ | h1 | ⟨_, _, h1⟩ | ⟨_, h1⟩ <;> cases h1
        exact (hoth w.job hwj hap e he i).trans hk
      · cases h1
    intro w hw r' hr'
    rcases List.mem_append.1 hw with hw | hw
    · exact other w (.inl hw) r' hr'
    · rcases List.mem_cons.1 hw with rfl | hw
      · dsimp only at hr' ⊢
        rcases hleft r' hr' hp with ⟨rfl, hcp⟩ | ⟨rfl, hnm⟩
        · refine ⟨before ++ [op], by rw [← hbef]; simp, fun s t hl => ?_⟩
          simp only [List.getLast?_append, List.getLast?_singleton, Option.some_or, Option.some.injEq] at hl
          obtain ⟨n, hn, hreg, hk⟩ := hcp s t hl
          exact ⟨n, hi.upper.get hn hat.storage.nodup, hreg, hk⟩
        · refine ⟨before, hbef, fun s t hl => ?_⟩
          exfalso
          obtain ⟨l', hl'⟩ : ∃ l', before = l' ++ [.cp s t] := by
            rcases List.eq_nil_or_concat before with h0 | ⟨l', x, h0⟩
            · rw [h0] at hl; simp at hl
            · rw [List.concat_eq_append] at h0
              rw [h0] at hl
              simp only [List.getLast?_append, List.getLast?_singleton, Option.some_or, Option.some.injEq] at hl
              exact ⟨l', by rw [h0, hl]⟩
          obtain ⟨d, b', hb'⟩ := chained_plan (env := env) (sel := sel) l' (op :: r) s t (by rw [← hbef, hl']; simp)
          simp only [List.cons.injEq] at hb'
          exact hnm t d hb'.1
      · exact other w (.inr hw) r' hr'

theorem together_inv {env0 : Env} {st0 st : State} {ws : List Accepting} (h : Together st0 ws st) (hat : Spec.AtOnce env0 st0 (ws.map Accepting.job)) : TInv st0 ws st := by
  have hex : ∀ {op : Op} {st : State} (hw : st.lower.WF), (∀ x ∈ op.paths, NormalPath x ∧ st.lower.NoLinkAbove x) → StepOK op st.lower (exec op st).1.lower ∧
      (∀ q, KindStep st.upper op st.lower (exec op st).1.lower q) ∧ ∀ t d, op = .mv t d → (exec op st).1.lower = st.lower ∨ FS.Renamed st.lower (exec op st).1.lower t d := by
    intro op st hw hp
    refine ⟨exec_step hw hp, exec_kind hw hp, ?_⟩
    rintro t d rfl
    exact exec_mv hw hp
  have hmid : ∀ {op : Op} {st st' : State} (hw : st.lower.WF), Mid op st st' → (∀ x ∈ op.paths, NormalPath x ∧ st.lower.NoLinkAbove x) → StepOK op st.lower st'.lower ∧
      (∀ q, KindStep st.upper op st.lower st'.lower q) ∧ ∀ t d, op = .mv t d → st'.lower = st.lower ∨ FS.Renamed st.lower st'.lower t d := by
    intro op st st' hw hm hp
    refine ⟨mid_step hw hm hp, mid_kind hw hm hp, ?_⟩
    rintro t d rfl
    cases hm
  induction h with
  | none => exact ⟨hat.host, Thins.refl _, fun q hq => .inl hq, fun q _ => .inl rfl, fun _ _ => rfl, fun w hw => by cases hw⟩
  | @start ws st env hprev hchk ih =>
    rw [List.map_append] at hat
    have hi := ih (atOnce_prefix hat)
    have hsub : ∀ e ∈ Spec.allSelected (ws.map Accepting.job), e ∈ Spec.allSelected ((ws ++ [(⟨env, selected env st, .ok (plan env (selected env st))⟩ : Accepting)]).map Accepting.job) := by
      intro e he
      obtain ⟨j, hj, he⟩ := mem_all.1 he
      exact mem_all.2 ⟨j, by rw [List.map_append]; exact List.mem_append.2 (.inl hj), he⟩
    refine ⟨hi.wf, hi.upper, fun q hq => ?_, fun q hq => ?_, fun q hq => ?_, fun w hw r hr => ?_⟩
    · rcases hi.link q hq with h | ⟨e, he, hx⟩
      · exact .inl h
      · exact .inr ⟨e, hsub e he, hx⟩
    · exact complete_mono hsub (hi.kind q (fun w hw => hq w (List.mem_append.2 (.inl hw))))
    · exact hi.keep q (fun w hw => hq w (List.mem_append.2 (.inl hw)))
    · rcases List.mem_append.1 hw with hw | hw
      · exact hi.temp w hw r hr
      · rw [List.mem_singleton] at hw
        subst hw
        cases hr
        exact ⟨[], rfl, fun s t hl => by simp at hl⟩
  | @step a b env sel op r st st' hprev he ih =>
    have hj : (a ++ (⟨env, sel, .ok r⟩ : Accepting) :: b).map Accepting.job = (a ++ ⟨env, sel, .ok (op :: r)⟩ :: b).map Accepting.job := by simp [Accepting.job]
    rw [hj] at hat
    have hi := ih hat
    have hst : st' = (exec op st).1 := by rw [he]
    refine tinv_step hat (together_ok hprev _ (by simp)) hi (by rw [hst]; exact hex hi.wf) (by rw [hst]; exact thins_exec op st) ?_
    intro r' hr' hp
    cases hr'
    refine .inl ⟨rfl, ?_⟩
    rintro s t rfl
    exact cp_kind hi.wf (hp t (by simp [Op.paths])) he
  | @fail a b env sel op r st st' e hprev he ih =>
    have hj : (a ++ (⟨env, sel, .error e⟩ : Accepting) :: b).map Accepting.job = (a ++ ⟨env, sel, .ok (op :: r)⟩ :: b).map Accepting.job := by simp [Accepting.job]
    rw [hj] at hat
    have hi := ih hat
    have hst : st' = (exec op st).1 := by rw [he]
    exact tinv_step hat (together_ok hprev _ (by simp)) hi (by rw [hst]; exact hex hi.wf) (by rw [hst]; exact thins_exec op st) (fun r' hr' => by cases hr')
  | @half a b env sel op r st st' hprev hm ih =>
    have hi := ih hat
    refine tinv_step hat (together_ok hprev _ (by simp)) hi (hmid hi.wf hm) (thins_mid hm) ?_
    intro r' hr' _
    cases hr'
    refine .inr ⟨rfl, ?_⟩
    rintro t d rfl
    cases hm
  | @broken a b env sel op r st st' e hprev hm ih =>
    have hj : (a ++ (⟨env, sel, .error e⟩ : Accepting) :: b).map Accepting.job = (a ++ ⟨env, sel, .ok (op :: r)⟩ :: b).map Accepting.job := by simp [Accepting.job]
    rw [hj] at hat
    have hi := ih hat
    exact tinv_step hat (together_ok hprev _ (by simp)) hi (hmid hi.wf hm) (thins_mid hm) (fun r' hr' => by cases hr')
  | @late a b env sel op r st st' hop hprev he ih =>
    have hj : (a ++ (⟨env, sel, .ok r⟩ : Accepting) :: b).map Accepting.job = (a ++ ⟨env, sel, .ok (op :: r)⟩ :: b).map Accepting.job := by simp [Accepting.job]
    rw [hj] at hat
    have hi := ih hat
    have hu := hi.upper
    have hst : st' = (exec op ⟨st.lower, st0.upper⟩).1 := by rw [he]
    have := tinv_step (st' := st') (left := .ok r) hat (together_ok hprev _ (by simp)) hi.before (by rw [hst]; exact hex (st := ⟨st.lower, st0.upper⟩) hi.wf) (by rw [hst]; exact thins_exec op _) (fun r' hr' hp => by
      cases hr'
      refine .inl ⟨rfl, ?_⟩
      rintro s t rfl
      exact cp_kind (st := ⟨st.lower, st0.upper⟩) hi.wf (hp t (by simp [Op.paths])) he)
    exact ⟨this.wf, hu, this.link, this.kind, this.keep, this.temp⟩
  | @lateHalf a b env sel op r st st' hop hprev hm ih =>
    have hi := ih hat
    have hu := hi.upper
    have := tinv_step (st' := st') (left := .ok (op :: r)) hat (together_ok hprev _ (by simp)) hi.before (hmid (st := ⟨st.lower, st0.upper⟩) hi.wf hm) (thins_mid hm) (fun r' hr' _ => by
      cases hr'
      refine .inr ⟨rfl, ?_⟩
      rintro t d rfl
      cases hm)
    exact ⟨this.wf, hu, this.link, this.kind, this.keep, this.temp⟩
  | @stop a b env sel l st e hprev ih =>
    have hj : (a ++ (⟨env, sel, .error e⟩ : Accepting) :: b).map Accepting.job = (a ++ ⟨env, sel, l⟩ :: b).map Accepting.job := by simp [Accepting.job]
    rw [hj] at hat
    have hi := ih hat
    have same : ∀ w ∈ a ++ (⟨env, sel, l⟩ : Accepting) :: b, ∃ w' ∈ a ++ (⟨env, sel, .error e⟩ : Accepting) :: b, w'.env = w.env ∧ w'.sel = w.sel := by
      intro w hw
      simp only [List.mem_append, List.mem_cons] at hw ⊢
      rcases hw with hw | rfl | hw
      · exact ⟨w, .inl hw, rfl, rfl⟩
      · exact ⟨_, .inr (.inl rfl), rfl, rfl⟩
      · exact ⟨w, .inr (.inr hw), rfl, rfl⟩
    refine ⟨hi.wf, hi.upper, by rw [hj]; exact hi.link, fun q hq => ?_, fun q hq => ?_, fun w hw r hr => ?_⟩
    · rw [hj]
      refine hi.kind q (fun w hw => ?_)
      obtain ⟨w', hw', h1, h2⟩ := same w hw
      rw [← h1, ← h2]; exact hq w' hw'
    · refine hi.keep q (fun w hw => ?_)
      obtain ⟨w', hw', h1, h2⟩ := same w hw
      rw [← h1, ← h2]; exact hq w' hw'
    · simp only [List.mem_append, List.mem_cons] at hw
      rcases hw with hw | rfl | hw
      · exact hi.temp w (by simp [hw]) r hr
      · cases hr
      · exact hi.temp w (by simp [hw]) r hr
  | drop keep _ ih =>
    have hi := ih hat
    exact ⟨hi.wf, hi.upper.trans ⟨_, rfl⟩, hi.link, hi.kind, hi.keep, hi.temp⟩

end SB
