import Verif.Lib.AttrsRun
import Verif.Props.Links

/-!
# C116: attributes beyond owner and mode
-/

namespace SB

/-! ### Specification -/

/-- An access control list (acl(5)): rights of named users, and of the file's group; the group bits of the file's mode are its mask. -/
structure Spec.Acl where
  users : List (Nat × Nat)
  group : Nat
deriving DecidableEq

/-- The rights (4 read, 2 write, 1 execute) of a member of the file's group. -/
def Spec.groupMay (n : Node) : Option Spec.Acl → Nat
  | none => n.perm / 8 % 8
  | some a => a.group &&& (n.perm / 8 % 8)

/-- What accept does with the attributes `before` of the host's files, if the selected changes are `sel`: a file that is neither changed nor moved keeps its own; what is moved takes its own along; a new or changed file or link has
none; a changed directory keeps those that are there. -/
structure Spec.Carried {X : Type} (bare : X) (sel : List Entry) (host : FS) (before after : Path → X) : Prop where
  kept : ∀ q, host.get q ≠ none → (∀ e ∈ sel, Spec.IsSet e → e.dest ≠ q) → (∀ s d, Spec.Renames sel s d → ¬ d <+: q ∧ ¬ s <+: q) → ¬ Spec.Removes sel q → after q = before q
  moved : ∀ s d r, Spec.Renames sel s d → host.get (s ++ r) ≠ none → (∀ e ∈ sel, Spec.IsSet e → e.dest ≠ d ++ r) → (∀ s' d', Spec.Renames sel s' d' → Below d d' → ¬ d' <+: d ++ r) →
    ¬ Spec.Removes sel (s ++ r) → (∀ s' d', Spec.Renames sel s' d' → Below s s' → ¬ s' <+: s ++ r) → after (d ++ r) = before (s ++ r)
  file : ∀ e ∈ sel, Spec.IsSet e → ∀ x, e.staged = some x → Spec.ftype x.node.kind ≠ .directory → after e.dest = bare
  dir : ∀ e ∈ sel, Spec.IsSet e → ∀ x, e.staged = some x → Spec.ftype x.node.kind = .directory → (∀ s d, Spec.Renames sel s d → ¬ d <+: e.dest ∧ ¬ s <+: e.dest) → ¬ Spec.Removes sel e.dest →
    (host.get e.dest ≠ none → after e.dest = before e.dest) ∧ (host.get e.dest = none → after e.dest = bare)
  movedDir : ∀ e ∈ sel, Spec.IsSet e → ∀ x, e.staged = some x → Spec.ftype x.node.kind = .directory → ∀ s d r, Spec.Renames sel s d → e.dest = d ++ r →
    (∀ s' d', Spec.Renames sel s' d' → Below d d' → ¬ d' <+: e.dest) → ¬ Spec.Removes sel (s ++ r) → (∀ s' d', Spec.Renames sel s' d' → Below s s' → ¬ s' <+: s ++ r) →
    host.get (s ++ r) ≠ none → after e.dest = before (s ++ r)

/-! ### Proofs -/

/-- Every host file carries the number of its path. -/
def labelFS (fs : FS) : FS := fs.map (fun e => (e.1, { e.2 with redirect := some (List.replicate (fs.keys.idxOf e.1) 'x') }))

def labelled (st : State) : State := ⟨labelFS st.lower, st.upper⟩

def labelName {X : Type} (fs : FS) (a : Path → X) (t : Str) : X := a (fs.keys[t.length]?.getD [])

theorem labelled_same (st : State) : SameBut st (labelled st) := by
  have : (labelFS st.lower).strip = st.lower.strip := by
    unfold labelFS FS.strip
    rw [List.map_map]
    rfl
  unfold SameBut State.strip labelled
  rw [this]

theorem get_map_node (g : Path → Node → Node) (fs : FS) (p : Path) : FS.get (fs.map (fun e => (e.1, g e.1 e.2))) p = (fs.get p).map (g p) := by
  induction fs with
  | nil => rfl
  | cons e r ih =>
    obtain ⟨q, n⟩ := e
    show (if q = p then some (g q n) else FS.get (r.map (fun e => (e.1, g e.1 e.2))) p) = (if q = p then some n else FS.get r p).map (g p)
    by_cases h : q = p
    · subst h; simp
    · simp [h, ih]

theorem get_label (fs : FS) (p : Path) : (labelFS fs).get p = (fs.get p).map (fun n => { n with redirect := some (List.replicate (fs.keys.idxOf p) 'x') }) :=
  get_map_node (fun p n => { n with redirect := some (List.replicate (fs.keys.idxOf p) 'x') }) fs p

theorem keys_label (fs : FS) : (labelFS fs).keys = fs.keys := by
  unfold labelFS FS.keys
  rw [List.map_map]
  rfl

section
variable {X : Type} {bare : X} {fs : FS} {a : Path → X}

theorem label_att {q : Path} {n : Node} (h : (labelFS fs).get q = some n) : attOf bare (labelName fs a) n.redirect = a q := by
  rw [get_label] at h
  cases hg : fs.get q with
  | none => rw [hg] at h; cases h
  | some m =>
    rw [hg] at h
    cases h
    have hk : q ∈ fs.keys := FS.mem_keys.2 ⟨m, hg⟩
    show a (fs.keys[(List.replicate (fs.keys.idxOf q) 'x').length]?.getD []) = a q
    rw [List.length_replicate, List.getElem?_idxOf hk]
    rfl

theorem label_tells : Tells bare (labelName fs a) (labelFS fs) a := fun _ _ h => (label_att h).symm

theorem label_elim {q : Path} : attOf bare (labelName fs a) (((labelFS fs).get q).elim none (·.redirect)) = if fs.get q = none then bare else a q := by
  cases hg : (labelFS fs).get q with
  | none =>
    have : fs.get q = none := by rw [get_label] at hg; simpa using hg
    rw [if_pos this]
    rfl
  | some n =>
    have : fs.get q ≠ none := by rw [get_label] at hg; intro h; rw [h] at hg; cases hg
    rw [if_neg this]
    exact label_att hg

end

theorem label_wf {fs : FS} (h : fs.WF) : (labelFS fs).WF := by
  have hd : ∀ p, (labelFS fs).isDirAt p = fs.isDirAt p := by
    intro p
    unfold FS.isDirAt
    rw [get_label]
    cases fs.get p <;> rfl
  refine ⟨by rw [keys_label]; exact h.nodup, by rw [hd]; exact h.root, ?_, ?_⟩
  · intro p hp h0
    rw [keys_label] at hp
    rw [hd]
    exact h.parent p hp h0
  · intro p hp
    rw [keys_label] at hp
    exact h.normal p hp

theorem label_kind {fs : FS} {p : Path} {n : Node} (h : (labelFS fs).get p = some n) : ∃ m, fs.get p = some m ∧ m.kind = n.kind := by
  rw [get_label] at h
  cases hg : fs.get p with
  | none => rw [hg] at h; cases h
  | some m => rw [hg] at h; cases h; exact ⟨m, rfl, rfl⟩

theorem label_new {env : Env} {fs : FS} {sel : List Entry} {x : Name} (h : Spec.NewName env fs sel x) : Spec.NewName env (labelFS fs) sel x :=
  ⟨by rw [keys_label]; exact h.host, h.dest, h.source, h.cwd⟩

theorem label_ready {env : Env} {st : State} {sel : List Entry} (h : Ready env st sel) : Ready env (labelled st) sel := by
  have hg := h.good
  refine ⟨⟨label_wf hg.wf, ⟨?_, ?_, ?_, ?_, hg.plain.links⟩, ?_, hg.src⟩, h.staged⟩
  · intro e he
    refine ⟨(hg.plain.dest e he).1, (hg.plain.dest e he).2.1, fun y hy n hn => ?_⟩
    obtain ⟨m, hm, hk⟩ := label_kind hn
    rw [← hk]
    exact (hg.plain.dest e he).2.2 y hy m hm
  · intro e he s hs
    refine ⟨(hg.plain.source e he s hs).1, fun y hy n hn => ?_⟩
    obtain ⟨m, hm, hk⟩ := label_kind hn
    rw [← hk]
    exact (hg.plain.source e he s hs).2 y hy m hm
  · refine ⟨hg.plain.cwd.1, fun y hy n hn => ?_⟩
    obtain ⟨m, hm, hk⟩ := label_kind hn
    rw [← hk]
    exact hg.plain.cwd.2 y hy m hm
  · intro e he ho s hs r n hn
    obtain ⟨m, hm, hk⟩ := label_kind hn
    rw [← hk]
    exact hg.plain.renamed e he ho s hs r m hm
  · exact ⟨hg.fresh.textR, hg.fresh.textC, fun i e he => label_new (hg.fresh.copy i e he), fun i e he s hs => label_new (hg.fresh.ren i e he s hs), hg.fresh.renInj, hg.fresh.renCopy⟩

theorem run_same : ∀ {ops : List Op} {st l : State}, SameBut st l → SameBut (run ops st).1 (run ops l).1 ∧ (run ops l).2 = (run ops st).2 := by
  intro ops
  induction ops with
  | nil => intro st l h; exact ⟨h, rfl⟩
  | cons op ops ih =>
    intro st l h
    obtain ⟨h1, h2⟩ := h.exec op
    simp only [run]
    cases hx : exec op st with
    | mk s e =>
      cases hy : exec op l with
      | mk l1 e1 =>
        rw [hx, hy] at h1 h2
        dsimp only at h1 h2
        subst h2
        cases e1 with
        | some e => exact ⟨h1, rfl⟩
        | none => exact ih h1

theorem exec_fails {op : Op} {st st' : State} {e : AccErr} (h : exec op st = (st', some e)) : st'.lower = st.lower := by
  cases op <;> simp only [exec] at h
  case rm => rcases exec_lift h with ⟨_, _, _, h⟩ | ⟨_, _, rfl, _⟩ <;> first | rfl | cases h
  case rmdir => rcases exec_lift h with ⟨_, _, _, h⟩ | ⟨_, _, rfl, _⟩ <;> first | rfl | cases h
  case mv => rcases exec_lift h with ⟨_, _, _, h⟩ | ⟨_, _, rfl, _⟩ <;> first | rfl | cases h
  case chown => rcases exec_lift h with ⟨_, _, _, h⟩ | ⟨_, _, rfl, _⟩ <;> first | rfl | cases h
  case chmod => rcases exec_lift h with ⟨_, _, _, h⟩ | ⟨_, _, rfl, _⟩ <;> first | rfl | cases h
  case cp =>
    split at h
    · cases h; rfl
    · split at h
      · rcases exec_lift h with ⟨_, _, _, h⟩ | ⟨_, _, rfl, _⟩ <;> first | rfl | cases h
      · cases h; rfl
  case ln =>
    split at h
    · cases h; rfl
    · split at h
      · rcases exec_lift h with ⟨_, _, _, h⟩ | ⟨_, _, rfl, _⟩ <;> first | rfl | cases h
      · cases h; rfl
  case rmIfExists =>
    split at h
    · rcases exec_lift h with ⟨_, _, _, h⟩ | ⟨_, _, rfl, _⟩ <;> first | rfl | cases h
    · cases h
    · cases h; rfl
  case mkdirIfNeeded =>
    split at h
    · cases h
    · rcases exec_lift h with ⟨_, _, _, h⟩ | ⟨_, _, rfl, _⟩ <;> first | rfl | cases h
  case clean =>
    split at h
    · cases h; rfl
    · split at h
      · split at h <;> cases h; rfl
      · split at h <;> cases h; rfl

section
variable {X : Type} {bare : X} {name : Str → X}

theorem runs_tell : ∀ {ops : List Op} {S : AttrState X} {l : State}, SameBut S.st l → Tells bare name l.lower S.attr → Tells bare name (run ops l).1.lower (runAttrs bare ops S).1.attr := by
  intro ops
  induction ops with
  | nil => intro S l _ ht; exact ht
  | cons op ops ih =>
    intro S l h ht
    obtain ⟨h2, h3⟩ := h.exec op
    simp only [run, runAttrs, execAttrs]
    cases hx : exec op S.st with
    | mk s1 e =>
      cases hy : exec op l with
      | mk l1 e1 =>
        rw [hx, hy] at h2 h3
        dsimp only at h2 h3
        subst h3
        cases e1 with
        | some e =>
          dsimp only
          rw [exec_fails hy]
          exact ht
        | none =>
          have ht1 := ht.exec hy
          rw [← attrAfter_same h op S.attr] at ht1
          exact ih (S := ⟨s1, attrAfter bare S.st.lower op S.attr⟩) h2 ht1

end

theorem carried_of_run {X : Type} {bare : X} {env : Env} {S : AttrState X} {sel : List Entry} (h : Ready env S.st sel) (hdist : Spec.DistinctDests sel) {s1 : State}
    (hr : run (applyPlan env sel) S.st = (s1, none)) : Spec.Carried bare sel S.st.lower S.attr (runAttrs bare (applyPlan env sel) S).1.attr := by
  have hsame := labelled_same S.st
  have ht := runs_tell (bare := bare) (name := labelName S.st.lower S.attr) (ops := applyPlan env sel) hsame label_tells
  have hrl : run (applyPlan env sel) (labelled S.st) = ((run (applyPlan env sel) (labelled S.st)).1, none) := by
    refine Prod.ext rfl ?_
    rw [(run_same hsame).2, hr]
  generalize (run (applyPlan env sel) (labelled S.st)).1 = l1 at ht hrl
  generalize (runAttrs bare (applyPlan env sel) S).1.attr = a' at ht ⊢
  have hready := label_ready h
  have hap := (applied_of_run hready hdist hrl).1
  have hlow : (labelled S.st).lower = labelFS S.st.lower := rfl
  rw [hlow] at hap
  have same : ∀ p q, S.st.lower.get q ≠ none → l1.lower.get p = (labelFS S.st.lower).get q → a' p = S.attr q := by
    intro p q hq hpq
    have : (labelFS S.st.lower).get q ≠ none := by rw [get_label]; simpa using hq
    obtain ⟨n, hn⟩ := Option.ne_none_iff_exists'.1 this
    rw [ht p n (hpq.trans hn)]
    exact label_att hn
  refine ⟨fun q hq h1 h2 h3 => same q q hq (hap.kept q h1 h2 h3), fun s d r hr hq h1 h2 h3 h4 => same _ _ hq (hap.renamed s d r hr h1 h2 h3 h4), fun e he hs x hx hk => ?_, fun e he hs x hx hk h1 h2 => ?_,
    fun e he hs x hx hk s d r hr hd h1 h2 h3 h4 => ?_⟩
  · obtain ⟨n, g1, g2, _, _⟩ := set_label hready hdist hrl he hs hx
    rw [ht _ n g1, g2]
    · rfl
    · cases hd : x.node.isDir with
      | false => rfl
      | true =>
        exfalso
        apply hk
        unfold Node.isDir at hd
        rw [beq_iff_eq] at hd
        rw [hd]
        rfl
  · obtain ⟨n, g1, _, g2, _⟩ := set_label hready hdist hrl he hs hx
    rw [ht _ n g1, g2 (dir_of_ftype hk) h1 h2, hlow, label_elim]
    exact ⟨fun h => if_neg h, fun h => if_pos h⟩
  · obtain ⟨n, g1, _, _, g2⟩ := set_label hready hdist hrl he hs hx
    rw [ht _ n g1, g2 (dir_of_ftype hk) s d r hr hd h1 h2 h3, hlow, label_elim, if_neg h4]

/-- What runs after the storage begins to be cleared changes no attribute. -/
theorem clean_attrs {X : Type} {bare : X} : ∀ {ops : List Op} {S : AttrState X}, (∀ op ∈ ops, op.isClean = true) → (runAttrs bare ops S).1.attr = S.attr := by
  intro ops
  induction ops with
  | nil => intros; rfl
  | cons op ops ih =>
    intro S h
    have h1 := h op (by simp)
    simp only [runAttrs, execAttrs]
    cases hx : exec op S.st with
    | mk s e =>
      cases e with
      | some e => rfl
      | none =>
        dsimp only
        rw [ih (S := ⟨s, attrAfter bare S.st.lower op S.attr⟩) (fun op ho => h op (by simp [ho]))]
        cases op <;> simp [Op.isClean] at h1
        rfl

theorem runAttrs_append {X : Type} {bare : X} : ∀ {x y : List Op} {S : AttrState X}, (runAttrs bare x S).2 = none → runAttrs bare (x ++ y) S = runAttrs bare y (runAttrs bare x S).1 := by
  intro x
  induction x with
  | nil => intros; rfl
  | cons op x ih =>
    intro y S h
    simp only [List.cons_append, runAttrs] at h ⊢
    cases hx : execAttrs bare op S with
    | mk S1 e =>
      rw [hx] at h
      cases e with
      | some e => cases h
      | none => exact ih h

theorem acceptAttrs_is {X : Type} {bare : X} {env : Env} {S : AttrState X} (h0 : selected env S.st ≠ []) (hc : pretendCheck env S.st (selected env S.st) = none) :
    acceptAttrs bare env S = runAttrs bare (plan env (selected env S.st)) S := by
  have hsel : selected env S.st = matching env.glob env.cwd env.patterns (changes env S.st) := rfl
  unfold acceptAttrs
  simp only
  rw [← hsel]
  simp only [h0, hc, if_false]

/-! ### Theorems -/

/-- **C116 (partial)**: after a complete accept the attributes of the host's files are those of `Spec.Carried`, whatever attributes are.  Accept leaves the same tree and reports the same whether or not files have attributes.
Missing: accept with an error (`C116_interrupted_partial` says what is known); the conditions of `Spec.Ordinary`; attributes inherited from a directory. -/
theorem C116_attributes_partial {X : Type} (bare : X) (env : Env) (S : AttrState X) (ho : Spec.Ordinary env S.st) (hok : (accept env S.st).error = none) :
    (acceptAttrs bare env S).1.st = (accept env S.st).state ∧ (acceptAttrs bare env S).2 = none ∧
    Spec.Carried bare (selected env S.st) S.st.lower S.attr (acceptAttrs bare env S).1.attr := by
  by_cases h0 : selected env S.st = []
  · have h1 : acceptAttrs bare env S = (S, none) := by
      unfold acceptAttrs
      have : matching env.glob env.cwd env.patterns (changes env S.st) = [] := h0
      simp [this]
    have h2 : (accept env S.st).state = S.st := by
      unfold accept
      have : matching env.glob env.cwd env.patterns (changes env S.st) = [] := h0
      simp [this]
    rw [h1, h2, h0]
    refine ⟨rfl, rfl, fun _ _ _ _ _ => rfl, ?_, ?_, ?_, ?_⟩
    · rintro s d r ⟨e, he, _⟩; cases he
    · intro e he; cases he
    · intro e he; cases he
    · intro e he; cases he
  · obtain ⟨hp, st1, h1, h2, h3⟩ := accept_ok hok h0
    have hplan : run (plan env (selected env S.st)) S.st = ((accept env S.st).state, none) := by
      unfold plan
      rw [run_append, h1]
      exact h3
    rw [acceptAttrs_is h0 hp]
    have hst := runAttrs_st (bare := bare) (ops := plan env (selected env S.st)) (S := S)
    rw [hplan] at hst
    have h4 : (runAttrs bare (applyPlan env (selected env S.st)) S).2 = none := by
      have := runAttrs_st (bare := bare) (ops := applyPlan env (selected env S.st)) (S := S)
      rw [h1] at this
      exact (congrArg Prod.snd this).symm
    have h5 : (runAttrs bare (plan env (selected env S.st)) S).1.attr = (runAttrs bare (applyPlan env (selected env S.st)) S).1.attr := by
      unfold plan
      rw [runAttrs_append h4]
      exact clean_attrs (fun op ho => by obtain ⟨p, rfl⟩ := cleanOps_isClean ho; rfl)
    have h6 := carried_of_run (bare := bare) ho.ready ho.distinct h1
    rw [← h5] at h6
    generalize runAttrs bare (plan env (selected env S.st)) S = T at hst h6 ⊢
    obtain ⟨T1, T2⟩ := T
    obtain ⟨hst, he⟩ := Prod.mk.inj hst
    exact ⟨hst.symm, he.symm, h6⟩

/-- **C116 (partial)**, on the way and after errors: a file that accept does not touch has its attributes after any number of operations.
Missing: as above; the files that are touched. -/
theorem C116_interrupted_partial {X : Type} (bare : X) (env : Env) (S : AttrState X) (ho : Spec.Ordinary env S.st) (k : Nat) (q : Path) (hq : ¬ Spec.Touched env (selected env S.st) q) (he : S.st.lower.get q ≠ none) :
    (runAttrs bare ((plan env (selected env S.st)).take k) S).1.attr q = S.attr q := by
  have hsame := labelled_same S.st
  have ht := runs_tell (bare := bare) (name := labelName S.st.lower S.attr) (ops := (plan env (selected env S.st)).take k) hsame label_tells
  have hc : CrashState (plan env (selected env S.st)) (labelled S.st) (run ((plan env (selected env S.st)).take k) (labelled S.st)).1 := by
    conv => arg 1; rw [← List.take_append_drop k (plan env (selected env S.st))]
    exact crash_more crash_of_run
  generalize (run ((plan env (selected env S.st)).take k) (labelled S.st)).1 = l1 at ht hc
  have hl : ∃ l2, CrashState (applyPlan env (selected env S.st)) (labelled S.st) l2 ∧ l1.lower = l2.lower := by
    unfold plan at hc
    rcases crash_append hc with h | ⟨st1, h1, h2⟩
    · exact ⟨l1, h, rfl⟩
    · have := crash_of_run (ops := applyPlan env (selected env S.st)) (st := labelled S.st)
      rw [h1] at this
      exact ⟨st1, this, crash_clean_lower (fun op ho => cleanOps_isClean ho) h2⟩
  obtain ⟨l2, hc2, hl⟩ := hl
  have hk := (crash_host (label_ready ho.ready) hc2).1 q hq
  rw [← hl] at hk
  have : (labelFS S.st.lower).get q ≠ none := by rw [get_label]; simpa using he
  obtain ⟨n, hn⟩ := Option.ne_none_iff_exists'.1 this
  rw [ht q n (hk.trans hn)]
  exact label_att hn

/-! ### Concrete cases -/

/-- `/f` may be written by its owner and by user 7, and read by its group; the mode shows `rw-rw----`, as the group bits are the mask. -/
def exAcl : Spec.Acl := { users := [(7, 6)], group := 4 }

/-- Host: `/f` and `/d/x` have an access control list.  In the sandbox: `echo new >> f` (the copy in the storage has the list of the original), `mv d e`. -/
def exAttrs : AttrState (Option Spec.Acl) :=
  { st := ⟨[([], { kind := .dir }), ([str "d"], { kind := .dir }), ([str "d", str "x"], { kind := .reg (str "x"), gid := 5, perm := 0o660 }), ([str "f"], { kind := .reg (str "old"), gid := 5, perm := 0o660 })],
      [([], { kind := .dir }), ([str "F4"], { kind := .dir }), ([str "F4", str "d"], { kind := .chr 0 }), ([str "F4", str "e"], { kind := .dir, redirect := some (str "/d") }),
       ([str "F4", str "f"], { kind := .reg (str "new"), gid := 5, perm := 0o660 })]⟩
    attr := fun p => if p = [str "f"] ∨ p = [str "d", str "x"] then some exAcl else none }

theorem exAttrs_ordinary : Spec.Ordinary exViewEnv exAttrs.st := ordinary_of_check (fun _ => rfl) (fun _ => rfl) (by decide +kernel) (by decide +kernel) (by decide +kernel)

/-- **C116 refuted** for attributes of changed files: the file's access control list is there on the host and in the sandbox and is gone after accept.  The mode is kept, so its group bits, until now the mask of the
list, are the rights of the group: it could read the file, now it can write it. -/
theorem C116_refuted_acl :
    let storage : Path → Option Spec.Acl := fun p => if p = [str "F4", str "f"] then some exAcl else none
    Spec.Ordinary exViewEnv exAttrs.st ∧ (acceptAttrs none exViewEnv exAttrs).2 = none ∧
    (exAttrs.st.lower.get [str "f"]).map (fun n => Spec.groupMay n (exAttrs.attr [str "f"])) = some 4 ∧
    (exAttrs.st.upper.get [str "F4", str "f"]).map (fun n => Spec.groupMay n (storage [str "F4", str "f"])) = some 4 ∧
    ((acceptAttrs none exViewEnv exAttrs).1.st.lower.get [str "f"]).map (fun n => Spec.groupMay n ((acceptAttrs none exViewEnv exAttrs).1.attr [str "f"])) = some 6 :=
  ⟨exAttrs_ordinary, by decide +kernel, by decide +kernel, by decide +kernel, by decide +kernel⟩

-- Non-vacuity of the theorems, and what they say: the moved file keeps its list.
example : Spec.Carried none (selected exViewEnv exAttrs.st) exAttrs.st.lower exAttrs.attr (acceptAttrs none exViewEnv exAttrs).1.attr :=
  (C116_attributes_partial none exViewEnv exAttrs exAttrs_ordinary (by decide +kernel)).2.2
example : (acceptAttrs none exViewEnv exAttrs).1.attr [str "e", str "x"] = some exAcl ∧ ((acceptAttrs none exViewEnv exAttrs).1.st.lower.get [str "e", str "x"]).isSome = true := by decide +kernel
example (k : Nat) : (runAttrs none ((plan exViewEnv (selected exViewEnv exAttrs.st)).take k) exAttrs).1.attr [] = exAttrs.attr [] := by
  refine C116_interrupted_partial none exViewEnv exAttrs exAttrs_ordinary k [] ?_ (by decide +kernel)
  intro h
  have h1 : ∀ e ∈ selected exViewEnv exAttrs.st, e.dest ≠ [] ∧ ∀ s ∈ e.source, s.path ≠ [] := by decide +kernel
  cases h with
  | removed e s he _ hs hp => exact (h1 e he).2 s hs hp
  | dest e he _ hp => exact (h1 e he).1 hp
  | copyTemp e i he _ hp => simp at hp
  | renSource e s he _ hs hp => exact (h1 e he).2 s hs (List.prefix_nil.1 hp)
  | renDest e he _ hp => exact (h1 e he).1 (List.prefix_nil.1 hp)
  | renTemp e s i he _ hs hp => simp at hp

end SB
