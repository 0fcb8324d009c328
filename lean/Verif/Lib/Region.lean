import Verif.Lib.ExecLemmas

/-! Which host paths an operation can change (proof machinery). -/

namespace SB

/-- Host paths named by an operation. -/
def Op.paths : Op → List Path
  | .rm p | .rmdir p | .cp _ p | .rmIfExists p | .ln _ p | .mkdirIfNeeded p | .chown p _ _ | .chmod p _ => [p]
  | .mv a b => [a, b]
  | .clean _ => []

/-- Host paths an operation may change. -/
def Op.region (op : Op) (q : Path) : Prop :=
  match op with
  | .mv a b => a <+: q ∨ b <+: q
  | .clean _ => False
  | _ => q ∈ op.paths

/-- `op` may turn `q` into a symbolic link, given the links of `fs`. -/
def Op.newLink (op : Op) (fs : FS) (q : Path) : Prop :=
  match op with
  | .ln _ p => q = p
  | .mv a b => ∃ r n, q = b ++ r ∧ fs.get (a ++ r) = some n ∧ n.isLnk = true
  | _ => False

def FS.linkAt (fs : FS) (q : Path) : Prop := ∃ n, fs.get q = some n ∧ n.isLnk = true

structure StepOK (op : Op) (a b : FS) : Prop where
  wf : b.WF
  out : ∀ q, ¬ op.region q → b.get q = a.get q
  link : ∀ q, b.linkAt q → a.linkAt q ∨ op.newLink a q

theorem StepOK.refl {op : Op} {fs : FS} (h : fs.WF) : StepOK op fs fs := ⟨h, fun _ _ => rfl, fun _ h => Or.inl h⟩

theorem StepOK.del {op : Op} {fs : FS} {p : Path} (hw : (fs.del p).WF) (hp : op.region p) : StepOK op fs (fs.del p) := by
  refine ⟨hw, fun q hq => ?_, fun q hl => ?_⟩
  · rw [FS.get_del, if_neg]; rintro rfl; exact hq hp
  · obtain ⟨n, hn, hl⟩ := hl
    rw [FS.get_del] at hn
    split at hn
    · cases hn
    · exact Or.inl ⟨n, hn, hl⟩

theorem StepOK.set {op : Op} {fs : FS} {p : Path} {n : Node} (hw : (fs.set p n).WF) (hp : op.region p)
    (hl : n.isLnk = true → fs.linkAt p ∨ op.newLink fs p) : StepOK op fs (fs.set p n) := by
  refine ⟨hw, fun q hq => ?_, fun q hl' => ?_⟩
  · rw [FS.get_set, if_neg]; rintro rfl; exact hq hp
  · obtain ⟨m, hm, hl'⟩ := hl'
    rw [FS.get_set] at hm
    split at hm
    · rename_i h; cases hm; subst h; exact hl hl'
    · exact Or.inl ⟨m, hm, hl'⟩

theorem isLnk_kind {a b : Node} (h : a.kind = b.kind) : a.isLnk = b.isLnk := by unfold Node.isLnk; rw [h]

theorem liftLower_fst (st : State) (r : Except Errno FS) :
    (liftLower st r).1.lower = match r with | .ok fs => fs | .error _ => st.lower := by cases r <;> rfl

theorem step_lift {op : Op} {st : State} {r : Except Errno FS} (hw : st.lower.WF)
    (h : ∀ fs, r = .ok fs → StepOK op st.lower fs) : StepOK op st.lower (liftLower st r).1.lower := by
  cases r with
  | ok fs => exact h fs rfl
  | error e => exact StepOK.refl hw

/-- Every operation, successful or not, only changes its region and keeps the tree well-formed, if no link is above the paths it names. -/
theorem exec_step {op : Op} {st : State} (hw : st.lower.WF)
    (hp : ∀ x ∈ op.paths, NormalPath x ∧ st.lower.NoLinkAbove x) : StepOK op st.lower (exec op st).1.lower := by
  cases op with
  | rm p =>
    obtain ⟨hN, hl⟩ := hp p (by simp [Op.paths])
    refine step_lift hw (fun fs h => ?_)
    obtain ⟨rfl, hw', _⟩ := FS.unlink_plain hw hN hl h
    exact StepOK.del hw' (by simp [Op.region, Op.paths])
  | rmdir p =>
    obtain ⟨hN, hl⟩ := hp p (by simp [Op.paths])
    refine step_lift hw (fun fs h => ?_)
    obtain ⟨rfl, hw', _⟩ := FS.rmdir_plain hw hN hl h
    exact StepOK.del hw' (by simp [Op.region, Op.paths])
  | mv a b =>
    obtain ⟨hNa, hla⟩ := hp a (by simp [Op.paths])
    obtain ⟨hNb, hlb⟩ := hp b (by simp [Op.paths])
    refine step_lift hw (fun fs h => ?_)
    by_cases hab : a = b
    · subst hab
      have : fs = st.lower := by
        unfold FS.rename at h
        cases hc : st.lower.canon a with
        | error e => rw [hc] at h; cases h
        | ok c =>
          rw [hc] at h
          simp only at h
          cases hg : st.lower.get c with
          | none => rw [hg] at h; cases h
          | some n => rw [hg] at h; simp at h; exact h.symm
      rw [this]; exact StepOK.refl hw
    · obtain ⟨hr, hw'⟩ := FS.rename_plain hw hNa hla hNb hlb hab h
      refine ⟨hw', fun q hq => ?_, fun q hl => ?_⟩
      · simp only [Op.region, not_or] at hq
        rw [hr.get, if_neg hq.2, if_neg hq.1]
      · obtain ⟨n, hn, hl⟩ := hl
        rw [hr.get] at hn
        split at hn
        · rename_i hbq
          obtain ⟨r, rfl⟩ := hbq
          rw [List.drop_left] at hn
          exact Or.inr ⟨r, n, rfl, hn, hl⟩
        · split at hn
          · cases hn
          · exact Or.inl ⟨n, hn, hl⟩
  | cp s t =>
    obtain ⟨hN, hl⟩ := hp t (by simp [Op.paths])
    simp only [exec]
    split
    · exact StepOK.refl hw
    · split
      · refine step_lift hw (fun fs h => ?_)
        obtain ⟨n, rfl, hk, _, hw', _⟩ := FS.writeFile_plain hw hN hl h
        exact StepOK.set hw' (by simp [Op.region, Op.paths]) (fun h => by simp [Node.isLnk, hk, Kind.isLnk] at h)
      · exact StepOK.refl hw
  | rmIfExists p =>
    obtain ⟨hN, hl⟩ := hp p (by simp [Op.paths])
    simp only [exec]
    split
    · refine step_lift hw (fun fs h => ?_)
      obtain ⟨rfl, hw', _⟩ := FS.unlink_plain hw hN hl h
      exact StepOK.del hw' (by simp [Op.region, Op.paths])
    · exact StepOK.refl hw
    · exact StepOK.refl hw
  | ln s p =>
    obtain ⟨hN, hl⟩ := hp p (by simp [Op.paths])
    simp only [exec]
    split
    · exact StepOK.refl hw
    · split
      · refine step_lift hw (fun fs h => ?_)
        obtain ⟨rfl, hw', _⟩ := FS.symlink_plain hw hN hl h
        exact StepOK.set hw' (by simp [Op.region, Op.paths]) (fun _ => Or.inr rfl)
      · exact StepOK.refl hw
  | mkdirIfNeeded p =>
    obtain ⟨hN, hl⟩ := hp p (by simp [Op.paths])
    simp only [exec]
    split
    · exact StepOK.refl hw
    · refine step_lift hw (fun fs h => ?_)
      obtain ⟨rfl, hw', _⟩ := FS.mkdir_plain hw hN hl h
      exact StepOK.set hw' (by simp [Op.region, Op.paths]) (fun h => by simp [Node.isLnk, Kind.isLnk] at h)
  | chown p u g =>
    obtain ⟨hN, hl⟩ := hp p (by simp [Op.paths])
    refine step_lift hw (fun fs h => ?_)
    obtain ⟨n, hn, hw', rfl⟩ := FS.chown_plain hw hN hl h
    exact StepOK.set hw' (by simp [Op.region, Op.paths]) (fun h => Or.inl ⟨n, hn, h⟩)
  | chmod p m =>
    obtain ⟨hN, hl⟩ := hp p (by simp [Op.paths])
    refine step_lift hw (fun fs h => ?_)
    obtain ⟨n, hn, _, hw', rfl⟩ := FS.chmod_plain hw hN hl h
    exact StepOK.set hw' (by simp [Op.region, Op.paths]) (fun h => Or.inl ⟨n, hn, h⟩)
  | clean p =>
    have : (exec (.clean p) st).1.lower = st.lower := exec_lower_clean p st
    rw [this]; exact StepOK.refl hw

/-- Intermediate states of an operation. -/
theorem mid_step {op : Op} {st st' : State} (hw : st.lower.WF) (hm : Mid op st st')
    (hp : ∀ x ∈ op.paths, NormalPath x ∧ st.lower.NoLinkAbove x) : StepOK op st.lower st'.lower := by
  cases hm with
  | @cp _ s t _ d m fs _ _ h =>
    obtain ⟨hN, hl⟩ := hp t (by simp [Op.paths])
    obtain ⟨n, rfl, hk, _, hw', _⟩ := FS.writeFile_plain hw hN hl h
    exact StepOK.set hw' (by simp [Op.region, Op.paths]) (fun h => by simp [Node.isLnk, hk, Kind.isLnk] at h)
  | clean h => exact StepOK.refl hw

/-- Paths that can be symbolic links at some point while `ops` run from `fs`. -/
inductive MayLink (ops : List Op) (fs : FS) : Path → Prop where
  | init {q : Path} : fs.linkAt q → MayLink ops fs q
  | ln {s p : Path} : Op.ln s p ∈ ops → MayLink ops fs p
  | mv {a b r : Path} : Op.mv a b ∈ ops → MayLink ops fs (a ++ r) → MayLink ops fs (b ++ r)

/-- The paths named by `ops` are plain: valid names, and nothing above them can be a symbolic link while `ops` run. -/
def PlainOps (ops : List Op) (fs : FS) : Prop :=
  ∀ op ∈ ops, ∀ x ∈ op.paths, NormalPath x ∧ ∀ y, Below y x → ¬ MayLink ops fs y

structure RunOK (ops : List Op) (fs gs : FS) : Prop where
  wf : gs.WF
  out : ∀ q, (∀ op ∈ ops, ¬ op.region q) → gs.get q = fs.get q
  link : ∀ q, gs.linkAt q → MayLink ops fs q

theorem plain_now {ops : List Op} {fs gs : FS} (hl : ∀ q, gs.linkAt q → MayLink ops fs q) (hp : PlainOps ops fs) {op : Op} (hop : op ∈ ops) :
    ∀ x ∈ op.paths, NormalPath x ∧ gs.NoLinkAbove x := by
  intro x hx
  obtain ⟨h1, h2⟩ := hp op hop x hx
  refine ⟨h1, fun y hy n hn => ?_⟩
  by_contra hl'
  exact h2 y hy (hl y ⟨n, hn, by simpa using hl'⟩)

theorem mayLink_step {ops : List Op} {fs gs hs : FS} {op : Op} (hop : op ∈ ops) (h : StepOK op gs hs)
    (hl : ∀ q, gs.linkAt q → MayLink ops fs q) : ∀ q, hs.linkAt q → MayLink ops fs q := by
  intro q hq
  rcases h.link q hq with h | h
  · exact hl q h
  · cases op <;> simp only [Op.newLink] at h
    case mv a b =>
      obtain ⟨r, n, rfl, hn, hln⟩ := h
      exact .mv hop (hl _ ⟨n, hn, hln⟩)
    case ln s p => subst h; exact .ln hop

theorem crash_region_aux {all : List Op} {fs : FS} (hp : PlainOps all fs) : ∀ {ops : List Op} {st st' : State},
    CrashState ops st st' → (∀ op ∈ ops, op ∈ all) → st.lower.WF → (∀ q, st.lower.linkAt q → MayLink all fs q) →
    st'.lower.WF ∧ (∀ q, (∀ op ∈ all, ¬ op.region q) → st'.lower.get q = st.lower.get q) ∧
    (∀ q, st'.lower.linkAt q → MayLink all fs q) := by
  intro ops st st' h
  induction h with
  | here => intro _ hw hl; exact ⟨hw, fun _ _ => rfl, hl⟩
  | @mid op ops st st' hm =>
    intro hsub hw hl
    have hop := hsub op (by simp)
    have := mid_step hw hm (plain_now hl hp hop)
    exact ⟨this.wf, fun q hq => this.out q (hq op hop), mayLink_step hop this hl⟩
  | @failed op ops st st' e he =>
    intro hsub hw hl
    have hop := hsub op (by simp)
    have := exec_step (op := op) hw (plain_now hl hp hop)
    rw [he] at this
    exact ⟨this.wf, fun q hq => this.out q (hq op hop), mayLink_step hop this hl⟩
  | @later op ops st st1 st2 he _ ih =>
    intro hsub hw hl
    have hop := hsub op (by simp)
    have := exec_step (op := op) hw (plain_now hl hp hop)
    rw [he] at this
    obtain ⟨h1, h2, h3⟩ := ih (fun o ho => hsub o (by simp [ho])) this.wf (mayLink_step hop this hl)
    exact ⟨h1, fun q hq => by rw [h2 q hq, this.out q (hq op hop)], h3⟩

/-- At every crash point of plain operations: only their regions have changed. -/
theorem crash_region {ops : List Op} {st st' : State} (hw : st.lower.WF) (hp : PlainOps ops st.lower) (h : CrashState ops st st') :
    RunOK ops st.lower st'.lower := by
  obtain ⟨h1, h2, h3⟩ := crash_region_aux hp h (fun _ h => h) hw (fun q h => .init h)
  exact ⟨h1, h2, h3⟩

theorem run_region {ops : List Op} {st : State} (hw : st.lower.WF) (hp : PlainOps ops st.lower) :
    RunOK ops st.lower (run ops st).1.lower := crash_region hw hp crash_of_run

end SB
