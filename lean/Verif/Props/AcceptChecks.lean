import Verif.Lib.AcceptLemmas
import Verif.Spec.Core
import Verif.Spec.Overlay

/-!
# C02, C05, C07, C10, C12, C16
-/

namespace SB

/-! ### C02: checks before effects -/

/-- Specification: reasons for which a selected change must make accept refuse. -/
inductive Spec.Problem (host : FS) (e : Entry) : Prop where
  /-- unsupported file type, or a rename whose origin is missing -/
  | errorEntry (x : ChangeError) : e.op = .error x → Spec.Problem host e
  /-- removal without an existing source -/
  | removeNothing : e.op = .remove → e.source = none → Spec.Problem host e
  /-- removal of a device, FIFO or socket -/
  | removeSpecial (s : Details) : e.op = .remove → e.source = some s →
      Spec.ftype s.node.kind ∉ [.file, .directory, .symlink] → Spec.Problem host e
  /-- rename between mounts -/
  | crossMount (s : Details) : e.op = .rename → e.source = some s →
      findMountPoint host s.path ≠ findMountPoint host e.dest → Spec.Problem host e

theorem kind_supported (n : Node) : (n.isReg || n.isLnk || n.isDir) = true ↔ Spec.ftype n.kind ∈ [.file, .directory, .symlink] := by
  unfold Node.isReg Node.isLnk Node.isDir Spec.ftype
  cases n.kind <;> simp [Kind.isReg, Kind.isLnk]

theorem pretend_fails {env : Env} {st : State} {sel : List Entry} {e : Entry} (he : e ∈ sel)
    (hp : Spec.Problem st.lower e) : pretendCheck env st sel ≠ none := by
  intro hnone
  unfold pretendCheck at hnone
  simp only at hnone
  cases h1 : checkRemoves (stableSort byReverseSource sel) with
  | some x => rw [h1] at hnone; cases hnone
  | none =>
    rw [h1] at hnone
    simp only at hnone
    rw [checkRemoves_none] at h1
    have h1 := h1 e (mem_stableSort.2 he)
    generalize hc2 : assignTmps env 0 (stableSort byReverseSource (stableSort byReverseSource sel)) = c2 at hnone
    obtain ⟨e', he', hcore⟩ := mem_assignTmps' (env := env) (i := 0)
      (mem_stableSort (le := byReverseSource).2 (mem_stableSort (le := byReverseSource).2 he))
    rw [hc2] at he'
    obtain ⟨ho, hd, hs, hst⟩ := core_op hcore
    cases h2 : checkRenames st.lower c2 with
    | some x => rw [h2] at hnone; cases hnone
    | none =>
      rw [h2] at hnone
      simp only at hnone
      rw [checkRenames_none] at h2
      rw [checkApply_none] at hnone
      have h3 := hnone e' (mem_stableSort.2 he')
      cases hp with
      | errorEntry x hx => exact h3.1 x (by rw [ho, hx])
      | removeNothing hx hsn =>
        obtain ⟨s, hs', _⟩ := h1 hx
        rw [hsn] at hs'; cases hs'
      | removeSpecial s hx hss hk =>
        obtain ⟨s', hs', hk'⟩ := h1 hx
        rw [hss] at hs'; cases hs'
        exact hk ((kind_supported _).1 hk')
      | crossMount s hx hss hm =>
        have hss' : e'.source = some s := by rw [hs, hss]
        have hor : e'.op = .rename := by rw [ho, hx]
        obtain ⟨j, htmp⟩ := assignTmps_rename (by rw [hc2]; exact he') hor hss'
        obtain ⟨m1, m2⟩ := h2 e' he' hor s _ hss' htmp
        have m := m1.trans m2
        rw [hd] at m
        exact hm m

/-- **C02**: if any selected change has a problem, accept reports an error and the host and the storage are exactly as before. -/
theorem C02_checks_before_effects (env : Env) (st : State) (e : Entry) (he : e ∈ selected env st)
    (hp : Spec.Problem st.lower e) : (accept env st).error ≠ none ∧ (accept env st).state = st := by
  have hpre := pretend_fails (env := env) he hp
  have hne : matching env.glob env.cwd env.patterns (changes env st) ≠ [] := List.ne_nil_of_mem he
  unfold accept
  simp only [if_neg hne]
  cases h : pretendCheck env st (matching env.glob env.cwd env.patterns (changes env st)) with
  | none => exact absurd h hpre
  | some x => simp

/-- Contrapositive reading of C02: an accept that changed anything had no problem in its selection. -/
theorem C02_effects_imply_checked (env : Env) (st : State) (h : (accept env st).state ≠ st) :
    ∀ e ∈ selected env st, ¬ Spec.Problem st.lower e :=
  fun e he hp => h (C02_checks_before_effects env st e he hp).2

/-! A concrete state for non-vacuity examples: `/d/f` on the host; in the sandbox `f` deleted, a FIFO `p` and a file `g` created. -/

def exHost : FS :=
  [ ([], { kind := .dir, perm := 0o755 }), ([str "d"], { kind := .dir, perm := 0o755 }),
    ([str "d", str "f"], { kind := .reg (str "old"), perm := 0o644 }) ]

def exUpper : FS :=
  [ ([], { kind := .dir }), ([str "F4"], { kind := .dir, perm := 0o755 }), ([str "F4", str "d"], { kind := .dir, perm := 0o755 }),
    ([str "F4", str "d", str "f"], { kind := .chr 0 }),
    ([str "F4", str "d", str "g"], { kind := .reg (str "new"), uid := 7, perm := 0o4755 }),
    ([str "F4", str "d", str "p"], { kind := .fifo, perm := 0o644 }) ]

def exEnv : Env :=
  { decode := fun m => if m = str "F4" then some [] else none
    glob := fun _ _ => true
    cwd := [str "d"]
    patterns := []
    includeIgnored := true
    uuidR := fun n => List.replicate (n + 1) '#'
    uuidC := fun n => List.replicate (n + 1) '@' }

def exState : State := ⟨exHost, exUpper⟩

example : (accept exEnv exState).error = some (.entry [str "d", str "p"] .unsupportedFileType) ∧
    (accept exEnv exState).state = exState := by decide

/-- The same state without the FIFO: accept succeeds, `f` is gone, `g` has the staged content, owner and mode (set-user-id kept). -/
def exState2 : State := ⟨exHost, exUpper.dropLast⟩

example : (accept exEnv exState2).error = none ∧
    (accept exEnv exState2).state.lower.get [str "d", str "f"] = none ∧
    (accept exEnv exState2).state.lower.get [str "d", str "g"] = some { kind := .reg (str "new"), uid := 7, perm := 0o4755 } := by
  decide

/-! ### C05: no staged change is lost before it has been applied -/

/-- **C05**: at every point at which accept can be interrupted or fail (crash states of its whole program), either the sandbox storage is
completely intact, or every selected change has been applied to the host successfully (the host is in the final state of the applying part). -/
theorem C05_storage_intact_until_applied (env : Env) (st st' : State)
    (hc : CrashState (plan env (selected env st)) st st') :
    st'.upper = st.upper ∨ ∃ st1, run (applyPlan env (selected env st)) st = (st1, none) ∧ st'.lower = st1.lower := by
  unfold plan at hc
  rcases crash_append hc with h | ⟨st1, h1, h2⟩
  · left; exact crash_upper (applyPlan_noClean env _) h
  · right; exact ⟨st1, h1, crash_clean_lower (fun op ho => cleanOps_isClean ho) h2⟩

/-- **C05** for runs that report an error: if applying the changes failed, the storage is unchanged. -/
theorem C05_failed_apply_keeps_storage (env : Env) (st : State)
    (herr : (run (applyPlan env (selected env st)) st).2 ≠ none) : (accept env st).state.upper = st.upper := by
  have hrun : run (plan env (selected env st)) st = run (applyPlan env (selected env st)) st := by
    unfold plan
    rw [run_append]
    cases hr : run (applyPlan env (selected env st)) st with
    | mk a b => cases b with
      | none => rw [hr] at herr; exact absurd rfl herr
      | some x => rfl
  have hup := run_upper (applyPlan_noClean env (selected env st)) st
  rw [← hrun] at hup
  rcases accept_state env st with h | h
  · rw [h]
  · rw [h]; exact hup

/-- Non-vacuity: an accept that fails half-way. The host file `f` was removed by somebody after the sandbox deleted it: the whiteout has no source,
so `g` is created; here instead `g`'s parent vanished on the host. -/
def exState3 : State := ⟨[([], { kind := .dir })], exUpper.dropLast⟩
def exEnvG : Env := { exEnv with cwd := [str "d", str "g"], patterns := [str "/d/g"], glob := fun p s => p == s }

example : (run (applyPlan exEnvG (selected exEnvG exState3)) exState3).2 = some (.os .ENOENT) ∧
    (accept exEnvG exState3).state.upper = exState3.upper ∧ selected exEnvG exState3 ≠ [] := by decide

/-! ### C07 and C16: what is counted and listed -/

theorem sameMode_iff (a b : Node) : sameMode a b = true ↔ a.perm = b.perm ∧ Spec.ftype a.kind = Spec.ftype b.kind := by
  unfold sameMode Spec.ftype
  cases a.kind <;> cases b.kind <;> simp

theorem isDir_ftype (n : Node) : n.isDir = true ↔ Spec.ftype n.kind = .directory := by
  unfold Node.isDir Spec.ftype; cases n.kind <;> simp

theorem visibly_iff (s t : Node) : Spec.VisiblyModified s t ↔
    (if s.gid ≠ t.gid then true else if s.uid ≠ t.uid then true else if !sameMode s t then true else !s.isDir) = true := by
  unfold Spec.VisiblyModified
  by_cases h1 : s.gid = t.gid
  · by_cases h2 : s.uid = t.uid
    · by_cases h3 : sameMode s t = true
      · have h3' := (sameMode_iff s t).1 h3
        simp only [h1, h2, h3, h3'.1, h3'.2]
        have := isDir_ftype s
        rw [h3'.2] at this
        cases hd : s.isDir <;> simp_all
      · have h3' : ¬ (s.perm = t.perm ∧ Spec.ftype s.kind = Spec.ftype t.kind) := fun h => h3 ((sameMode_iff s t).2 h)
        simp only [h1, h2, h3, ne_eq, not_true_eq_false, if_false, false_or, Bool.not_false, if_true, iff_true]
        tauto
    · simp [h1, h2]
  · simp [h1]

theorem actionable_iff (e : Entry) : Spec.Actionable e ↔ e.countable = true := by
  unfold Spec.Actionable Entry.countable
  cases ho : e.op with
  | remove => simp
  | rename => simp
  | error x => simp
  | set t =>
    cases t with
    | create => simp [Entry.isActuallyModified, ho]
    | modify =>
      simp only [Entry.isActuallyModified, ho]
      cases hs : e.staged with
      | none => simp
      | some s => cases ht : e.source with
        | none => simp
        | some t =>
          simp only [Option.some.injEq]
          have := visibly_iff s.node t.node
          constructor
          · intro h; exact this.1 (h s t rfl rfl)
          · rintro h s' t' rfl rfl; exact this.2 h

instance (e : Entry) : Decidable (Spec.Actionable e) := decidable_of_iff _ (actionable_iff e).symm

theorem listed_iff (e : Entry) : Spec.Listed e ↔ (e.isError || e.isRemove || e.isRename || e.isShownSet) = true := by
  unfold Spec.Listed
  rw [actionable_iff]
  unfold Entry.countable Entry.isError Entry.isRemove Entry.isRename Entry.isShownSet
  cases ho : e.op <;> simp

instance (e : Entry) : Decidable (Spec.Listed e) := decidable_of_iff _ (listed_iff e).symm

theorem perm_filter_split (l : List Entry) :
    (l.filter (fun e => e.isError || e.isRemove || e.isRename || e.isShownSet)).Perm
      (l.filter Entry.isError ++ l.filter Entry.isRemove ++ l.filter Entry.isRename ++ l.filter Entry.isShownSet) := by
  have one : ∀ (p q : Entry → Bool) (l : List Entry), (∀ e, p e = true → q e = false) →
      (l.filter (fun e => p e || q e)).Perm (l.filter p ++ l.filter q) := by
    intro p q l hpq
    induction l with
    | nil => simp
    | cons e l ih =>
      by_cases hp : p e = true
      · have hq := hpq e hp
        simp only [List.filter_cons, hp, hq, Bool.true_or, if_true, Bool.false_eq_true, if_false, List.cons_append]
        exact ih.cons e
      · by_cases hq : q e = true
        · simp only [List.filter_cons, hp, hq, Bool.or_true, if_true, Bool.false_eq_true, if_false]
          exact (ih.cons e).trans (List.perm_middle.symm)
        · simp only [List.filter_cons, hp, hq, Bool.or_false, Bool.false_eq_true, if_false]
          exact ih
  have d1 : ∀ e : Entry, (e.isError || e.isRemove || e.isRename) = true → e.isShownSet = false := by
    intro e; unfold Entry.isError Entry.isRemove Entry.isRename Entry.isShownSet; cases e.op <;> simp
  have d2 : ∀ e : Entry, (e.isError || e.isRemove) = true → e.isRename = false := by
    intro e; unfold Entry.isError Entry.isRemove Entry.isRename; cases e.op <;> simp
  have d3 : ∀ e : Entry, e.isError = true → e.isRemove = false := by
    intro e; unfold Entry.isError Entry.isRemove; cases e.op <;> simp
  refine (one _ _ l d1).trans (List.Perm.append_right _ ?_)
  refine (one _ _ l d2).trans (List.Perm.append_right _ ?_)
  exact one _ _ l d3

/-- **C16**: the listing of status contains each selected change that must be listed exactly once and nothing else (it is a rearrangement of the
selected changes that satisfy `Spec.Listed`); text and JSON output are produced from this one list. -/
theorem C16_status_complete (env : Env) (st : State) :
    (status env st).1.Perm ((selected env st).filter (fun e => decide (Spec.Listed e))) := by
  have hfil : (selected env st).filter (fun e => decide (Spec.Listed e)) =
      (selected env st).filter (fun e => e.isError || e.isRemove || e.isRename || e.isShownSet) := by
    congr 1; funext e
    have := listed_iff e
    cases h : (e.isError || e.isRemove || e.isRename || e.isShownSet)
    · rw [h] at this; simp at this; simpa using this
    · rw [h] at this; simp at this; simpa using this
  rw [hfil]
  unfold status statusList
  simp only
  split
  · refine List.Perm.trans ?_ (perm_filter_split (selected env st)).symm
    have P1 := perm_stableSort byDestination (selected env st)
    have P2 := (perm_stableSort byReverseSource (stableSort byDestination (selected env st))).trans P1
    have P3 := (perm_stableSort byReverseSource (stableSort byReverseSource (stableSort byDestination (selected env st)))).trans P2
    have P4 := (perm_stableSort byDestination (stableSort byReverseSource (stableSort byReverseSource
      (stableSort byDestination (selected env st))))).trans P3
    exact (((P1.filter _).append (P2.filter _)).append (P3.filter _)).append (P4.filter _)
  · next h =>
    have : (selected env st).filter (fun e => e.isError || e.isRemove || e.isRename || e.isShownSet) = [] := by
      rw [List.filter_eq_nil_iff]
      intro e he
      simp only [List.any_eq_true, not_exists, not_and, Bool.not_eq_true] at h
      have := h e he
      unfold Entry.isError Entry.isRemove Entry.isRename Entry.isShownSet
      cases ho : e.op <;> simp_all
    rw [this]

/-- **C16**, order: errors, then removals, then renames, then creations and modifications. -/
theorem C16_status_groups (env : Env) (st : State) :
    ∃ a b c d, (status env st).1 = a ++ b ++ c ++ d ∧ (∀ e ∈ a, ∃ x, e.op = .error x) ∧ (∀ e ∈ b, e.op = .remove) ∧
      (∀ e ∈ c, e.op = .rename) ∧ (∀ e ∈ d, ∃ t, e.op = .set t) := by
  unfold status statusList
  simp only
  split
  · refine ⟨_, _, _, _, rfl, ?_, ?_, ?_, ?_⟩ <;> intro e he <;> have he := (List.mem_filter.1 he).2
    · unfold Entry.isError at he; cases ho : e.op <;> simp_all
    · unfold Entry.isRemove at he; cases ho : e.op <;> simp_all
    · unfold Entry.isRename at he; cases ho : e.op <;> simp_all
    · unfold Entry.isShownSet at he; cases ho : e.op <;> simp_all
  · exact ⟨[], [], [], [], rfl, by simp, by simp, by simp, by simp⟩

example : (status exEnv exState).1.map (·.op) = [.error .unsupportedFileType, .remove, .set .create] := by decide

theorem accepted_eq_count {env : Env} {st : State} {sel : List Entry} (h : ∀ e ∈ sel, e ∈ changes env st) :
    acceptedCount sel = countActionable sel := by
  unfold acceptedCount countActionable
  congr 1
  apply List.filter_congr
  intro e he
  unfold Entry.countable
  cases ho : e.op with
  | set t =>
    obtain ⟨s, hs, _⟩ := changes_set_staged (h e he) ho
    simp [hs]
  | _ => simp

/-- **C07**: on success the accepted number is the number of actionable selected changes, it equals the length of the list status shows, and together
with the "external or non-matching" number it is the number of actionable changes of the whole sandbox. -/
theorem C07_counts (env : Env) (st : State) (h : (accept env st).error = none) :
    (accept env st).accepted = ((selected env st).filter (fun e => decide (Spec.Actionable e))).length ∧
    (accept env st).accepted = (status env st).1.length ∧
    (accept env st).accepted + (accept env st).nonMatching =
      ((changes env st).filter (fun e => decide (Spec.Actionable e))).length := by
  have hact : ∀ l : List Entry, (l.filter (fun e => decide (Spec.Actionable e))).length = countActionable l := by
    intro l
    unfold countActionable
    congr 2; funext e
    have := actionable_iff e
    cases hc : e.countable
    · rw [hc] at this; simpa using this
    · rw [hc] at this; simpa using this
  have hsub : countActionable (selected env st) ≤ countActionable (changes env st) := by
    unfold countActionable selected matching
    exact (List.Sublist.filter _ List.filter_sublist).length_le
  have hnoerr : ∀ e ∈ selected env st, ∀ x, e.op ≠ .error x := by
    intro e he x hx
    exact (C02_checks_before_effects env st e he (.errorEntry x hx)).1 h
  have hacc : (accept env st).accepted = countActionable (selected env st) := by
    unfold accept at h ⊢
    simp only at h ⊢
    split
    · next hn =>
      have : selected env st = [] := hn
      rw [this]; rfl
    · next hn =>
      rw [if_neg hn] at h
      split
      · next x hx => rw [hx] at h; simp at h
      · next hx =>
        rw [hx] at h
        simp only at h
        rw [h]
        simp only [Option.isNone_none, if_true]
        exact accepted_eq_count (env := env) (st := st) (fun e he => mem_selected he)
  have hnm : (accept env st).nonMatching = countActionable (changes env st) - countActionable (selected env st) := by
    unfold accept
    simp only
    split
    · rfl
    · split <;> rfl
  refine ⟨by rw [hacc, hact], ?_, by rw [hacc, hnm, hact]; omega⟩
  rw [(C16_status_complete env st).length_eq, hacc, ← hact]
  congr 1
  apply List.filter_congr
  intro e he
  rw [decide_eq_decide]
  unfold Spec.Listed
  constructor
  · exact Or.inl
  · rintro (h | ⟨x, hx⟩)
    · exact h
    · exact absurd hx (hnoerr e he x)

example : (accept exEnv exState2).accepted = 2 ∧ (accept exEnv exState2).nonMatching = 0 := by decide

/-! ### C10: whiteouts -/

/-- **C10 (partial)**: for character devices with major and minor below 256 and for all other file types, a storage node counts as deleted exactly if it
is the 0:0 character device or carries the whiteout attribute. Missing: device numbers of 256 and above, where the claim is false (`C10_refuted`). -/
theorem C10_whiteout_partial (n : Node) :
    (∀ a b, n.kind = .chr (Spec.makedev a b) → a < 256 → b < 256 → (n.isRemoved = true ↔ a = 0 ∧ b = 0)) ∧
    (Spec.ftype n.kind ≠ .charDev → (n.isRemoved = true ↔ n.whiteout = true)) := by
  constructor
  · intro a b hk ha hb
    unfold Node.isRemoved
    rw [hk]
    have hd : Spec.makedev a b = b + a * 256 := by unfold Spec.makedev; omega
    simp only [hd, Bool.and_eq_true, beq_iff_eq]
    omega
  · intro hk
    unfold Node.isRemoved
    cases hkk : n.kind <;> simp_all [Spec.ftype]

/-- Exact description for all device numbers: the code only looks at the low 8 bits of major and minor. -/
theorem C10_exact (n : Node) (a b : Nat) (hk : n.kind = .chr (Spec.makedev a b)) :
    n.isRemoved = true ↔ a % 256 = 0 ∧ b % 256 = 0 := by
  unfold Node.isRemoved
  rw [hk]
  unfold Spec.makedev
  simp only [Bool.and_eq_true, beq_iff_eq]
  omega

/-- **C10 refuted**: a character device with major 256, minor 256 (not a whiteout) is treated as a deletion. -/
theorem C10_refuted : ∃ n : Node, n.kind = .chr (Spec.makedev 256 256) ∧ n.whiteout = false ∧ n.isRemoved = true :=
  ⟨{ kind := .chr (Spec.makedev 256 256) }, rfl, rfl, by decide⟩

/-! ### C12: special files -/

/-- **C12**: a create or modify change always stages a regular file, a directory or a symbolic link. -/
theorem C12_sets_are_ordinary (env : Env) (st : State) (e : Entry) (t : SetType) (h : e ∈ changes env st) (ho : e.op = .set t) :
    ∃ s, e.staged = some s ∧ st.upper.get s.path = some s.node ∧ Spec.ftype s.node.kind ∈ [.file, .directory, .symlink] := by
  obtain ⟨s, h1, h2, h3, _⟩ := changes_set_staged h ho
  refine ⟨s, h1, h2, (kind_supported _).1 ?_⟩
  unfold Node.supported at h3
  cases hr : s.node.isReg <;> cases hl : s.node.isLnk <;> cases hd : s.node.isDir <;> simp_all

/-- The node is what the overlay file system makes and the code can tell apart: device numbers below 256, whiteout attributes on plain files only. -/
structure Spec.SmallDevices (n : Node) : Prop where
  numbers : ∀ r, n.kind = .chr r → ∃ major minor, major < 256 ∧ minor < 256 ∧ r = Spec.makedev major minor
  marked : n.whiteout = true → Spec.ftype n.kind = .file

theorem isRemoved_iff_small {n : Node} (h : Spec.SmallDevices n) : n.isRemoved = true ↔ Spec.isWhiteout n = true := by
  unfold Spec.isWhiteout
  simp only [Bool.or_eq_true, beq_iff_eq]
  by_cases hc : ∃ r, n.kind = .chr r
  · obtain ⟨r, hr⟩ := hc
    obtain ⟨a, b, ha, hb, rfl⟩ := h.numbers r hr
    have hw : ¬ n.whiteout = true := fun hw => by have := h.marked hw; rw [hr] at this; cases this
    rw [(C10_whiteout_partial n).1 a b hr ha hb, hr]
    have hm : Spec.makedev a b = b + a * 256 := by unfold Spec.makedev; omega
    rw [hm]
    constructor
    · rintro ⟨rfl, rfl⟩; exact Or.inl rfl
    · rintro (h0 | h0)
      · have := Kind.chr.inj h0
        omega
      · exact absurd h0 hw
  · rw [(C10_whiteout_partial n).2 (by unfold Spec.ftype; cases hk : n.kind <;> simp_all)]
    constructor
    · exact Or.inr
    · rintro (h0 | h0)
      · exact absurd ⟨0, h0⟩ hc
      · exact h0

/-- **C10 (partial)**: a stored path (not skipped by ignore rules) stands for something created, modified, renamed or erroneous exactly if it is no whiteout.
Missing: device numbers of 256 and above, where the claim is false (`C10_refuted`). -/
theorem C10_reported_partial (env : Env) (st : State) (m : Name) (mp sub : Path) (n : Node) (hk : (m, mp, sub) ∈ kept env st) (hg : st.upper.get (m :: sub) = some n)
    (hd : Spec.SmallDevices n) : (∃ e ∈ changes env st, e.staged = some ⟨m :: sub, n⟩ ∧ e.op ≠ .remove) ↔ Spec.isWhiteout n = false := by
  rw [← Bool.not_eq_true, ← isRemoved_iff_small hd]
  constructor
  · rintro ⟨e, he, hs, ho⟩ hr
    obtain ⟨ue, _, h | h⟩ := mem_changes.1 he
    · obtain ⟨_, _, _, _, h2, _⟩ := mem_removesOf h
      exact ho h2
    · obtain ⟨h1, _, h3, _⟩ := mem_setsOf h
      rw [hs] at h3
      have h4 := congrArg Details.node (Option.some.inj h3)
      simp only at h4
      rw [← h4, hr] at h1
      cases h1
  · intro hr
    rw [Bool.not_eq_true] at hr
    obtain ⟨ue, hue, hu, hn⟩ := upperEntries_of_kept hk hg
    subst hn
    obtain ⟨e, he⟩ := setsOf_singleton (st := st) hr
    have hem : e ∈ setsOf st ue := by rw [he]; simp
    obtain ⟨_, h2, h3, _, _, h5⟩ := mem_setsOf hem
    refine ⟨e, mem_changes.2 ⟨ue, hue, Or.inr hem⟩, by rw [h3, hu.upperPath], ?_⟩
    rcases h5 with ⟨_, _, h⟩ | ⟨_, _, h⟩ | ⟨_, _, h⟩ | ⟨_, _, h⟩ <;> rw [h] <;> simp

/-- **C12 (partial)**: a device, FIFO or socket in the storage that is not a whiteout (and, as overlayfs guarantees for everything but directories, carries no
redirect) and is not skipped by ignore rules produces an `unsupported file type` error for its path.
Missing: character devices with numbers of 256 and above, which may be taken for deletions (`C12_refuted_device`). -/
theorem C12_special_is_error_partial (env : Env) (st : State) (m : Name) (mp sub : Path) (n : Node)
    (hk : (m, mp, sub) ∈ kept env st) (hg : st.upper.get (m :: sub) = some n)
    (hs : Spec.ftype n.kind ∉ [.file, .directory, .symlink]) (hw : Spec.isWhiteout n = false) (hd : Spec.SmallDevices n) (hr : n.redirect = none) :
    ∃ e ∈ changes env st, e.dest = mp ++ sub ∧ e.op = .error .unsupportedFileType ∧ e.staged = some ⟨m :: sub, n⟩ := by
  have hw : n.isRemoved = false := by
    rw [← Bool.not_eq_true, isRemoved_iff_small hd, hw]
    simp
  obtain ⟨ue, hue, hu, hn⟩ := upperEntries_of_kept hk hg
  subst hn
  have hsup : ue.node.supported = false := by
    have := mt (kind_supported ue.node).1 hs
    unfold Node.supported
    cases h1 : ue.node.isReg <;> cases h2 : ue.node.isLnk <;> cases h3 : ue.node.isDir <;> simp_all
  obtain ⟨e, he⟩ := setsOf_singleton (st := st) hw
  have hem : e ∈ setsOf st ue := by rw [he]; simp
  refine ⟨e, mem_changes.2 ⟨ue, hue, Or.inr hem⟩, ?_⟩
  obtain ⟨_, h2, h3, _, _, h5⟩ := mem_setsOf hem
  refine ⟨by rw [h2, hu.lowerPath], ?_, by rw [h3, hu.upperPath]⟩
  rcases h5 with ⟨h, _⟩ | ⟨h, _⟩ | ⟨_, _, h⟩ | ⟨_, h, _⟩
  · rw [hr] at h; cases h
  · rw [hr] at h; cases h
  · exact h
  · rw [hsup] at h; cases h

/-- **C12**: if the selection contains such a special file, accept fails and changes nothing. -/
theorem C12_accept_refuses (env : Env) (st : State) (e : Entry) (he : e ∈ selected env st)
    (ho : e.op = .error .unsupportedFileType) : (accept env st).error ≠ none ∧ (accept env st).state = st :=
  C02_checks_before_effects env st e he (.errorEntry _ ho)

example : (str "F4", ([] : Path), [str "d", str "p"]) ∈ kept exEnv exState := by decide

/-- Non-vacuity of `C10_reported_partial` and `C12_special_is_error_partial`: the null device (1:3), not a whiteout, beside a whiteout. -/
def exDevice : State := ⟨exHost, [([], { kind := .dir }), ([str "F4"], { kind := .dir }), ([str "F4", str "d"], { kind := .dir }), ([str "F4", str "d", str "null"], { kind := .chr 0x103 }),
  ([str "F4", str "d", str "f"], { kind := .chr 0 })]⟩
example : (str "F4", ([] : Path), [str "d", str "null"]) ∈ kept exEnv exDevice ∧ (str "F4", ([] : Path), [str "d", str "f"]) ∈ kept exEnv exDevice ∧
    Spec.isWhiteout { kind := .chr 0x103 } = false ∧ Spec.isWhiteout { kind := .chr 0 } = true := by decide
example : Spec.SmallDevices { kind := .chr 0x103 } := ⟨fun r h => ⟨1, 3, by decide, by decide, by cases h; decide⟩, fun h => by cases h⟩

/-- **C12 refuted**: a character device with major and minor number 256 in the place of a file is no error: accept deletes the file. -/
theorem C12_refuted_device :
    let st : State := ⟨exHost, [([], { kind := .dir }), ([str "F4"], { kind := .dir }), ([str "F4", str "d"], { kind := .dir, perm := 0o755 }), ([str "F4", str "d", str "f"], { kind := .chr (Spec.makedev 256 256) })]⟩
    Spec.isWhiteout { kind := .chr (Spec.makedev 256 256) } = false ∧ (∀ e ∈ selected exEnv st, ∀ x, e.op ≠ .error x) ∧ (accept exEnv st).error = none ∧
    st.lower.get [str "d", str "f"] ≠ none ∧ (accept exEnv st).state.lower.get [str "d", str "f"] = none := by
  intro st
  refine ⟨by decide, ?_, by decide +kernel, by decide +kernel, by decide +kernel⟩
  intro e he x hx
  have := (by decide +kernel : ∀ e ∈ selected exEnv st, (match e.op with | .error _ => false | _ => true) = true) e he
  rw [hx] at this
  cases this

end SB
