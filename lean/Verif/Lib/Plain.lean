import Verif.Lib.Phases

/-! Under `Spec.PlainHost` and `Spec.FreshTemps` all operations of an accept act on the paths they name (proof machinery). -/

namespace SB

theorem not_symlink_iff {n : Node} : Spec.ftype n.kind ≠ .symlink ↔ n.isLnk = false := by
  unfold Spec.ftype Node.isLnk; cases n.kind <;> simp [Kind.isLnk]

theorem symlink_iff {n : Node} : Spec.ftype n.kind = .symlink ↔ n.isLnk = true := by
  unfold Spec.ftype Node.isLnk; cases n.kind <;> simp [Kind.isLnk]

theorem normal_fileName {p : Path} (h : NormalPath p) (h0 : p ≠ []) : NormalName (fileName p) := by
  unfold fileName
  rw [List.getLast?_eq_getLast_of_ne_nil h0]
  exact h _ (List.getLast_mem h0)

theorem noslash_fileName {p : Path} (h : NormalPath p) : '/' ∉ fileName p := by
  by_cases h0 : p = []
  · subst h0; simp [fileName]
  · exact (normal_fileName h h0).2.1

theorem normal_of_long {n : Name} (h : '/' ∉ n) (hl : 2 < n.length) : NormalName n := by
  refine ⟨?_, h, ?_, ?_⟩ <;> rintro rfl <;> simp at hl

theorem normal_copyName {d : Path} {u : Str} (hd : NormalPath d) (h0 : d ≠ []) (hu : Spec.UuidText u) : NormalName (Spec.copyName d u) := by
  have hn := normal_fileName hd h0
  unfold Spec.copyName withExtension
  generalize fileName d = n at hn
  simp only
  set stem := n.take (n.length - (List.takeWhile (fun x => decide (x ≠ '.')) n.reverse).length - 1) with hst
  have hs : '/' ∉ stem := fun h => hn.2.1 (List.mem_of_mem_take h)
  have hul : 0 < u.length := List.length_pos_of_ne_nil hu.1
  split
  · rename_i h
    apply normal_of_long
    · simp [hs, hu.2]
    · have := List.length_pos_of_ne_nil h.2
      simp only [List.length_append, List.length_cons]; omega
  · apply normal_of_long
    · simp [hn.2.1, hu.2]
    · have := List.length_pos_of_ne_nil hn.1
      simp only [List.length_append, List.length_cons]; omega

theorem normal_renName {s d : Path} {u : Str} (hs : NormalPath s) (hd : NormalPath d) (hu : Spec.UuidText u) :
    NormalName (Spec.renName s d u) := by
  unfold Spec.renName
  apply normal_of_long
  · simp only [List.mem_append, not_or]
    refine ⟨⟨⟨⟨⟨by decide, noslash_fileName hs⟩, by decide⟩, noslash_fileName hd⟩, by decide⟩, hu.2⟩
  · simp only [List.length_append]
    have : (str ".rename-").length = 8 := by decide
    omega

section
variable {env : Env} {st : State} {sel : List Entry}

/-- Hypotheses shared by the theorems about accept's effect. -/
structure Good (env : Env) (host : FS) (sel : List Entry) : Prop where
  wf : host.WF
  plain : Spec.PlainHost env host sel
  fresh : Spec.FreshTemps env host sel
  src : ∀ e ∈ sel, e.op = .rename → ∃ s, e.source = some s

theorem normal_copyTmp (hg : Good env st.lower sel) {e : Entry} (he : e ∈ sel) (j : Nat) : NormalPath (copyTmp e.dest (env.uuidC j)) := by
  obtain ⟨h1, h2, _⟩ := hg.plain.dest e he
  rw [copyTmp_eq]
  refine h1.dropLast.append ?_
  intro n hn
  simp at hn; subst hn
  exact normal_copyName h1 h2 (hg.fresh.textC j)

theorem normal_renTmp (hg : Good env st.lower sel) {e : Entry} (he : e ∈ sel) {s : Details} (hs : e.source = some s) (j : Nat) :
    NormalPath (renameTmp env.cwd s.path e.dest (env.uuidR j)) := by
  rw [renameTmp_eq]
  refine hg.plain.cwd.1.append ?_
  intro n hn
  simp at hn; subst hn
  exact normal_renName (hg.plain.source e he s hs).1 (hg.plain.dest e he).1 (hg.fresh.textR j)

theorem below_copyTmp {d y : Path} {u : Str} (h0 : d ≠ []) (h : Below y (copyTmp d u)) : Below y d := by
  rw [copyTmp_eq] at h
  have := prefix_dropLast_of_below h
  rw [List.dropLast_concat] at this
  exact below_of_prefix_below this (dropLast_below h0)

theorem below_renTmp {cwd s d y : Path} {u : Str} (h : Below y (renameTmp cwd s d u)) : y <+: cwd := by
  rw [renameTmp_eq] at h
  have := prefix_dropLast_of_below h
  rwa [List.dropLast_concat] at this

theorem not_linkAt_of {fs : FS} {y : Path} (h : ∀ n, fs.get y = some n → Spec.ftype n.kind ≠ .symlink) : ¬ fs.linkAt y := by
  rintro ⟨n, hn, hl⟩
  exact h n hn (symlink_iff.2 hl)

/-- A path with a new name in it does not exist. -/
theorem NewName_none {host : FS} {x : Name} (h : Spec.NewName env host sel x) {q : Path} (hq : x ∈ q) : host.get q = none := by
  cases hg : host.get q with
  | none => rfl
  | some n => exact absurd hq (h.host q (FS.mem_keys.2 ⟨n, hg⟩))

/-! phase R -/

theorem plain_R (hg : Good env st.lower sel) : PlainOps (removeOps (realOrders env sel).1) st.lower := by
  intro op hop x hx
  obtain ⟨e, he, s, ho, hs, h⟩ := opFrom_remove hop
  have hxs : x = s.path := by rcases h with rfl | rfl <;> simpa [Op.paths] using hx
  subst hxs
  obtain ⟨h1, h2⟩ := hg.plain.source e he s hs
  refine ⟨h1, fun y hy hm => ?_⟩
  have : st.lower.linkAt y := by
    induction hm with
    | init h => exact h
    | ln h => obtain ⟨_, _, _, _, _, h⟩ := opFrom_remove h; rcases h with h | h <;> cases h
    | mv h _ _ => obtain ⟨_, _, _, _, _, h⟩ := opFrom_remove h; rcases h with h | h <;> cases h
  exact not_linkAt_of (h2 y hy) this

theorem links_R {gs : FS} (h : RunOK (removeOps (realOrders env sel).1) st.lower gs) : ∀ q, gs.linkAt q → st.lower.linkAt q := by
  intro q hq
  have hm := h.link q hq
  induction hm with
  | init h => exact h
  | ln h => obtain ⟨_, _, _, _, _, h⟩ := opFrom_remove h; rcases h with h | h <;> cases h
  | mv h _ _ => obtain ⟨_, _, _, _, _, h⟩ := opFrom_remove h; rcases h with h | h <;> cases h

/-! phase M, starting in a tree `gs` all of whose links are links of the host -/

/-- The file name of a rename's temporary. -/
def RenName (env : Env) (sel : List Entry) (x : Name) : Prop :=
  ∃ j, ∃ e ∈ sel, ∃ s, e.source = some s ∧ x = Spec.renName s.path e.dest (env.uuidR j)

theorem RenName.new {host : FS} (hg : Good env host sel) {x : Name} (h : RenName env sel x) : Spec.NewName env host sel x := by
  obtain ⟨j, e, he, s, hs, rfl⟩ := h
  exact hg.fresh.ren j e he s hs

theorem mayLink_M {gs : FS} (hl : ∀ q, gs.linkAt q → st.lower.linkAt q) {y : Path}
    (hm : MayLink (premoveOps (realOrders env sel).2.1) gs y) : st.lower.linkAt y ∨ ∃ x, RenName env sel x ∧ x ∈ y := by
  induction hm with
  | init h => left; exact hl _ h
  | ln h => obtain ⟨_, _, _, _, _, _, h⟩ := opFrom_premove h; cases h
  | @mv a b r h _ ih =>
    obtain ⟨e, he, s, j, ho, hs, h⟩ := opFrom_premove h
    cases h
    right; exact ⟨_, ⟨j, e, he, s, hs, rfl⟩, by rw [renameTmp_eq]; simp⟩

theorem plain_M (hg : Good env st.lower sel) {gs : FS} (hl : ∀ q, gs.linkAt q → st.lower.linkAt q) :
    PlainOps (premoveOps (realOrders env sel).2.1) gs := by
  intro op hop x hx
  obtain ⟨e, he, s, j, ho, hs, rfl⟩ := opFrom_premove hop
  simp [Op.paths] at hx
  rcases hx with rfl | rfl
  · obtain ⟨h1, h2⟩ := hg.plain.source e he s hs
    refine ⟨h1, fun y hy hm => ?_⟩
    rcases mayLink_M hl hm with h | ⟨x, hx, hxy⟩
    · exact not_linkAt_of (h2 y hy) h
    · exact (hx.new hg).source e he s hs (hy.prefix.subset hxy)
  · refine ⟨normal_renTmp hg he hs j, fun y hy hm => ?_⟩
    rcases mayLink_M hl hm with h | ⟨x, hx, hxy⟩
    · exact not_linkAt_of (hg.plain.cwd.2 y (below_renTmp hy)) h
    · exact (hx.new hg).cwd ((below_renTmp hy).subset hxy)

/-- Split a crash point of the applying part into the phases. -/
theorem crash_phases {st' : State} (h : CrashState (applyPlan env sel) st st') :
    CrashState (removeOps (realOrders env sel).1) st st' ∨
    (∃ st1, run (removeOps (realOrders env sel).1) st = (st1, none) ∧ CrashState (premoveOps (realOrders env sel).2.1) st1 st') ∨
    (∃ st1 st2, run (removeOps (realOrders env sel).1) st = (st1, none) ∧ run (premoveOps (realOrders env sel).2.1) st1 = (st2, none) ∧
      CrashState (applyOps env 0 (realOrders env sel).2.2) st2 st') := by
  have : applyPlan env sel = removeOps (realOrders env sel).1 ++ premoveOps (realOrders env sel).2.1 ++
      applyOps env 0 (realOrders env sel).2.2 := rfl
  rw [this, List.append_assoc] at h
  rcases crash_append h with h | ⟨st1, h1, h⟩
  · left; exact h
  · rcases crash_append h with h | ⟨st2, h2, h⟩
    · right; left; exact ⟨st1, h1, h⟩
    · right; right; exact ⟨st1, st2, h1, h2, h⟩

theorem ok_R (hg : Good env st.lower sel) {st1 : State} (h1 : run (removeOps (realOrders env sel).1) st = (st1, none)) :
    RunOK (removeOps (realOrders env sel).1) st.lower st1.lower := by
  have := run_region hg.wf (plain_R hg); rw [h1] at this; exact this

theorem ok_M (hg : Good env st.lower sel) {st1 st2 : State} (h1 : run (removeOps (realOrders env sel).1) st = (st1, none))
    (h2 : run (premoveOps (realOrders env sel).2.1) st1 = (st2, none)) :
    RunOK (premoveOps (realOrders env sel).2.1) st1.lower st2.lower := by
  have r1 := ok_R hg h1
  have := run_region r1.wf (plain_M hg (links_R r1)); rw [h2] at this; exact this

end

end SB
