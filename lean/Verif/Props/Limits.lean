import Verif.Model.Limits
import Verif.Lib.Phases
import Verif.Props.Renames
import Verif.Props.View

/-!
# C95: temporary names and the length limit of file names
-/

namespace SB

/-- The file system takes every name on the path. -/
def Spec.Short (p : Path) : Prop := ∀ n ∈ p, (utf8 n).length ≤ 255

/-- `s` is the name `n` without its extension: up to the last dot, or the whole name if there is no dot after its first character. -/
def Spec.Stem (n s : Str) : Prop :=
  (s ≠ [] ∧ ∃ e, '.' ∉ e ∧ n = s ++ '.' :: e) ∨ (s = n ∧ ∀ s' e, s' ≠ [] → '.' ∉ e → n ≠ s' ++ '.' :: e)

/-- The last name of a path. -/
def Spec.lastName (p : Path) : Str := p.getLast?.getD []

/-- The names are short enough for accept:
* a created or modified file's name without its extension has at most 218 bytes;
* the two last names of a renamed path have at most 206 bytes together. -/
structure Spec.TempsFit (sel : List Entry) : Prop where
  copies : ∀ e ∈ sel, Spec.IsSet e → ∀ s t, e.staged = some s → Spec.ftype s.node.kind = .file → Spec.Stem (Spec.lastName e.dest) t → (utf8 t).length ≤ 218
  renames : ∀ e ∈ sel, e.op = .rename → ∀ s, e.source = some s → (utf8 (Spec.lastName s.path)).length + (utf8 (Spec.lastName e.dest)).length ≤ 206

theorem byteLen_append (a b : Str) : byteLen (a ++ b) = byteLen a + byteLen b := by
  simp [byteLen, utf8, List.flatMap_append]

theorem shortPath_iff {p : Path} : shortPath p = true ↔ Spec.Short p := by
  unfold shortPath Spec.Short byteLen
  rw [List.all_eq_true]
  exact forall₂_congr (fun n _ => decide_eq_true_iff)

theorem short_append {a b : Path} : Spec.Short (a ++ b) ↔ Spec.Short a ∧ Spec.Short b := by
  simp only [Spec.Short, List.mem_append]
  exact ⟨fun h => ⟨fun n hn => h n (Or.inl hn), fun n hn => h n (Or.inr hn)⟩, fun h n hn => hn.elim (h.1 n) (h.2 n)⟩

theorem short_single {n : Name} : Spec.Short [n] ↔ byteLen n ≤ 255 := by simp [Spec.Short, byteLen]

theorem short_dropLast {p : Path} (h : Spec.Short p) : Spec.Short p.dropLast := fun n hn => h n (List.mem_of_mem_dropLast hn)

/-! ### running with the limit -/

theorem runN_none {ops : List Op} : ∀ {st : State}, (runN ops st).2 = none ↔ (run ops st).2 = none ∧ ∀ op ∈ ops, op.paths.all shortPath = true := by
  induction ops with
  | nil => intro st; simp [runN, run]
  | cons op ops ih =>
    intro st
    unfold runN run execN
    by_cases h : op.paths.all shortPath = true
    · rw [if_pos h]
      cases hx : exec op st with
      | mk st' e =>
        cases e with
        | some e => simp
        | none =>
          refine Iff.trans ih ?_
          simp only [List.mem_cons, forall_eq_or_imp]
          exact ⟨fun ⟨a, b⟩ => ⟨a, h, b⟩, fun ⟨a, _, b⟩ => ⟨a, b⟩⟩
    · rw [if_neg h]
      constructor
      · intro hh; cases hh
      · intro hh; exact absurd (hh.2 op (by simp)) h

theorem runN_eq {ops : List Op} : ∀ {st : State}, (∀ op ∈ ops, op.paths.all shortPath = true) → runN ops st = run ops st := by
  induction ops with
  | nil => intro st _; rfl
  | cons op ops ih =>
    intro st h
    unfold runN run execN
    rw [if_pos (h op (by simp))]
    cases hx : exec op st with
    | mk st' e =>
      cases e with
      | some e => rfl
      | none => exact ih (fun o ho => h o (List.mem_cons_of_mem _ ho))

theorem runN_crash {ops : List Op} : ∀ {st : State}, CrashState ops st (runN ops st).1 := by
  induction ops with
  | nil => intro st; exact .here
  | cons op ops ih =>
    intro st
    unfold runN execN
    by_cases h : op.paths.all shortPath = true
    · rw [if_pos h]
      cases hx : exec op st with
      | mk st' e =>
        cases e with
        | some e => exact .failed hx
        | none => exact .later hx ih
    · rw [if_neg h]; exact .here

/-! ### the temporary names -/

theorem takeWhile_split (n : Str) : n.reverse.takeWhile (· ≠ '.') ++ n.reverse.dropWhile (· ≠ '.') = n.reverse := List.takeWhile_append_dropWhile

/-- The text before the dot that `with_extension` adds is the stem. -/
theorem withExtension_stem (n : Name) (ext : Str) : ∃ t, Spec.Stem n t ∧ withExtension n ext = t ++ '.' :: ext := by
  unfold withExtension
  dsimp only
  by_cases h : '.' ∈ n ∧ n.take (n.length - (n.reverse.takeWhile (· ≠ '.')).length - 1) ≠ []
  · refine ⟨_, ?_, by rw [if_pos h]⟩
    left
    refine ⟨h.2, (n.reverse.takeWhile (· ≠ '.')).reverse, ?_, ?_⟩
    · intro hm
      have := List.all_eq_true.1 (List.all_takeWhile (p := fun x : Char => decide (x ≠ '.')) (l := n.reverse)) _ (List.mem_reverse.1 hm)
      simp at this
    · have hd : n.reverse.dropWhile (· ≠ '.') ≠ [] := by
        intro h0
        have hs := takeWhile_split n
        rw [h0, List.append_nil] at hs
        have hm : '.' ∈ n.reverse.takeWhile (· ≠ '.') := by rw [hs]; exact List.mem_reverse.2 h.1
        have := List.all_eq_true.1 (List.all_takeWhile (p := fun x : Char => decide (x ≠ '.')) (l := n.reverse)) _ hm
        simp at this
      obtain ⟨c, r, hcr⟩ := List.exists_cons_of_ne_nil hd
      have hc : c = '.' := by
        have := List.head_dropWhile_not (p := fun x : Char => decide (x ≠ '.')) (l := n.reverse) hd
        simp only [hcr, List.head_cons] at this
        simpa using this
      subst hc
      have hs := takeWhile_split n
      rw [hcr] at hs
      have hn : n = r.reverse ++ '.' :: (n.reverse.takeWhile (· ≠ '.')).reverse := by
        have := congrArg List.reverse hs
        simp only [List.reverse_append, List.reverse_cons, List.reverse_reverse, List.append_assoc, List.singleton_append] at this
        exact this.symm
      have hl : n.length - (n.reverse.takeWhile (· ≠ '.')).length - 1 = r.reverse.length := by
        have := congrArg List.length hs
        simp only [List.length_append, List.length_cons, List.length_reverse] at this ⊢
        omega
      rw [hl]
      conv => rhs; rw [show n.take r.reverse.length = r.reverse by
        conv => lhs; rw [hn]
        exact List.take_left' rfl]
      exact hn
  · refine ⟨n, Or.inr ⟨rfl, ?_⟩, by rw [if_neg h]⟩
    intro s' e hs he hn
    apply h
    refine ⟨by rw [hn]; simp, ?_⟩
    have : n.reverse.takeWhile (· ≠ '.') = e.reverse := by
      rw [hn]
      simp only [List.reverse_append, List.reverse_cons, List.append_assoc, List.singleton_append]
      rw [List.takeWhile_append_of_pos (by intro a ha; simp only [decide_eq_true_eq]; rintro rfl; exact he (List.mem_reverse.1 ha))]
      simp
    rw [this, hn]
    simp only [List.length_append, List.length_cons, List.length_reverse]
    rw [show s'.length + (e.length + 1) - e.length - 1 = s'.length by omega, List.take_left' rfl]
    exact hs

theorem stem_unique {n s t : Str} (h : Spec.Stem n s) (h' : Spec.Stem n t) : s = t := by
  rcases h with ⟨hs, e, he, hn⟩ | ⟨rfl, hno⟩
  · rcases h' with ⟨ht, e', he', hn'⟩ | ⟨rfl, hno⟩
    · have : s ++ '.' :: e = t ++ '.' :: e' := by rw [← hn, ← hn']
      rcases List.append_eq_append_iff.1 this with ⟨a, ha, hb⟩ | ⟨a, ha, hb⟩
      · cases a with
        | nil => simpa using ha.symm
        | cons c a =>
          simp only [List.cons_append, List.cons.injEq] at hb
          exact absurd (by rw [hb.2]; simp) he
      · cases a with
        | nil => simpa using ha
        | cons c a =>
          simp only [List.cons_append, List.cons.injEq] at hb
          exact absurd (by rw [hb.2]; simp) he'
    · exact absurd hn (hno _ _ hs he)
  · rcases h' with ⟨ht, e', he', hn'⟩ | ⟨rfl, _⟩
    · exact absurd hn' (hno _ _ ht he')
    · rfl

section
variable {env : Env} {st : State}

theorem cp_mem {l : List Entry} {e : Entry} {s : Details} {ty : SetType} (ho : e.op = .set ty) (hs : e.staged = some s) (hr : s.node.isReg = true) :
    ∀ i, e ∈ l → ∃ j, Op.cp s.path (copyTmp e.dest (env.uuidC j)) ∈ applyOps env i l := by
  induction l with
  | nil => intro i he; cases he
  | cons a r ih =>
    intro i he
    rcases List.mem_cons.1 he with rfl | he
    · refine ⟨i, ?_⟩
      simp only [applyOps, ho, hs, setOps, hr, if_true]
      simp
    · obtain ⟨j, hj⟩ := ih (i + 1) he
      refine ⟨j, ?_⟩
      simp only [applyOps]
      exact List.mem_append_right _ hj

theorem isReg_ftype {n : Node} : n.isReg = true ↔ Spec.ftype n.kind = .file := by
  unfold Node.isReg
  cases n.kind <;> simp [Kind.isReg, Spec.ftype]

theorem short_copyTmp {dest : Path} {u : Str} (hd : Spec.Short dest) (hu : byteLen u = 36) :
    Spec.Short (copyTmp dest u) ↔ ∀ t, Spec.Stem (Spec.lastName dest) t → (utf8 t).length ≤ 218 := by
  obtain ⟨t, ht, he⟩ := withExtension_stem (fileName dest) u
  have hlen : byteLen (withExtension (fileName dest) u) = byteLen t + 37 := by
    rw [he, byteLen_append, show '.' :: u = ['.'] ++ u from rfl, byteLen_append, hu]
    rfl
  unfold copyTmp
  rw [short_append, short_single, hlen]
  constructor
  · rintro ⟨_, h⟩ t' ht'
    rw [stem_unique ht' ht]
    show byteLen t ≤ 218
    omega
  · intro h
    have : byteLen t ≤ 218 := h t ht
    exact ⟨short_dropLast hd, by omega⟩

theorem short_renameTmp {cwd src dst : Path} {u : Str} (hc : Spec.Short cwd) (hu : byteLen u = 36) :
    Spec.Short (renameTmp cwd src dst u) ↔ (utf8 (Spec.lastName src)).length + (utf8 (Spec.lastName dst)).length ≤ 206 := by
  unfold renameTmp
  rw [short_append, short_single]
  simp only [byteLen_append, hu]
  rw [show byteLen (str ".rename-") = 8 by decide, show byteLen (str "-to-") = 4 by decide, show byteLen (str "-") = 1 by decide]
  show _ ∧ 8 + byteLen (Spec.lastName src) + 4 + byteLen (Spec.lastName dst) + 1 + 36 ≤ 255 ↔ byteLen (Spec.lastName src) + byteLen (Spec.lastName dst) ≤ 206
  constructor
  · rintro ⟨_, h⟩; omega
  · intro h; exact ⟨hc, by omega⟩

theorem rename_has_source (h : pretendCheck env st (selected env st) = none) : ∀ e ∈ selected env st, e.op = .rename → ∃ s, e.source = some s := by
  intro e he ho
  obtain ⟨s, hs⟩ := changes_rename_source (mem_selected he) ho
  exact ⟨s, hs⟩

/-- All paths of the plan are short exactly if the temporary names are. -/
theorem plan_short (hcwd : Spec.Short env.cwd) (hR : ∀ i, (utf8 (env.uuidR i)).length = 36) (hC : ∀ i, (utf8 (env.uuidC i)).length = 36)
    (hpre : pretendCheck env st (selected env st) = none)
    (hn : ∀ e ∈ selected env st, Spec.Short e.dest ∧ ∀ s, e.source = some s → Spec.Short s.path) :
    (∀ op ∈ plan env (selected env st), op.paths.all shortPath = true) ↔ Spec.TempsFit (selected env st) := by
  have hsrc := rename_has_source hpre
  constructor
  · intro h
    constructor
    · intro e he hset s t hs hf ht
      obtain ⟨e', he', hc⟩ := mem_of_From (core_c5 env (selected env st)) he
      obtain ⟨h1, h2, h3, h4⟩ := core_op hc
      obtain ⟨ty, hty⟩ := hset
      obtain ⟨j, hj⟩ := cp_mem (env := env) (h1.trans hty) (h4.trans hs) (isReg_ftype.2 hf) 0 he'
      have := h _ (by unfold plan applyPlan; simp only [List.mem_append]; exact Or.inl (Or.inr hj))
      rw [h2] at this
      have := shortPath_iff.1 (List.all_eq_true.1 this _ (by simp [Op.paths]; rfl))
      exact (short_copyTmp (hn e he).1 (hC j)).1 this t ht
    · intro e he ho s hs
      obtain ⟨e', he', hc⟩ := mem_of_From (core_c4 env (selected env st)) he
      obtain ⟨h1, h2, h3, h4⟩ := core_op hc
      obtain ⟨j, hj⟩ := c4_tmp he' (h1.trans ho) (h3.trans hs)
      have := h (.mv s.path (renameTmp env.cwd s.path e'.dest (env.uuidR j))) (by
        unfold plan applyPlan
        simp only [List.mem_append]
        refine Or.inl (Or.inl (Or.inr ?_))
        rw [premoveOps_eq]
        exact List.mem_map.2 ⟨_, movePairs_of he' (h1.trans ho) (h3.trans hs) hj, rfl⟩)
      rw [h2] at this
      have := shortPath_iff.1 (List.all_eq_true.1 this (renameTmp env.cwd s.path e.dest (env.uuidR j)) (by simp [Op.paths]))
      exact (short_renameTmp hcwd (hR j)).1 this
  · intro h op hop
    rw [List.all_eq_true]
    intro x hx
    rw [shortPath_iff]
    unfold plan applyPlan at hop
    simp only [List.mem_append] at hop
    rcases hop with ((hop | hop) | hop) | hop
    · obtain ⟨e, he, s, ho, hs, rfl | rfl⟩ := opFrom_remove hop <;> (simp [Op.paths] at hx; subst hx; exact (hn e he).2 s hs)
    · obtain ⟨e, he, s, j, ho, hs, rfl⟩ := opFrom_premove hop
      simp [Op.paths] at hx
      rcases hx with rfl | rfl
      · exact (hn e he).2 s hs
      · exact (short_renameTmp hcwd (hR j)).2 (h.renames e he ho s hs)
    · obtain ⟨e, he, ⟨ty, s, j, ho, hs, hop⟩ | ⟨s, j, ho, hs, rfl⟩⟩ := opFrom_apply hsrc hop
      · rcases setOps_paths hop x hx with rfl | ⟨rfl, hreg⟩
        · exact (hn e he).1
        · refine (short_copyTmp (hn e he).1 (hC j)).2 (fun t ht => ?_)
          exact h.copies e he ⟨ty, ho⟩ s t hs (isReg_ftype.1 hreg) ht
      · simp [Op.paths] at hx
        rcases hx with rfl | rfl
        · exact (short_renameTmp hcwd (hR j)).2 (h.renames e he ho s hs)
        · exact (hn e he).1
    · obtain ⟨p, _, rfl⟩ := List.mem_map.1 hop
      simp [Op.paths] at hx

/-- **C95, exactly when the names allow it**: on file systems that take names of up to 255 bytes, accept succeeds exactly if it would succeed without that limit and every created or modified
file's name without its extension has at most 218 bytes and the two names of every renamed path at most 206 bytes together. -/
theorem C95_exact_partial (hcwd : Spec.Short env.cwd) (hR : ∀ i, (utf8 (env.uuidR i)).length = 36) (hC : ∀ i, (utf8 (env.uuidC i)).length = 36)
    (hn : ∀ e ∈ selected env st, Spec.Short e.dest ∧ ∀ s, e.source = some s → Spec.Short s.path) :
    (acceptN env st).error = none ↔ (accept env st).error = none ∧ Spec.TempsFit (selected env st) := by
  have hp := plan_short (env := env) (st := st) hcwd hR hC
  unfold selected at hp hn ⊢
  unfold acceptN accept
  dsimp only
  by_cases h0 : matching env.glob env.cwd env.patterns (changes env st) = []
  · rw [if_pos h0, if_pos h0, h0]
    simp only [true_and, true_iff]
    exact ⟨(fun e he => by cases he), (fun e he => by cases he)⟩
  · rw [if_neg h0, if_neg h0]
    cases hpre : pretendCheck env st (matching env.glob env.cwd env.patterns (changes env st)) with
    | some e => simp
    | none => exact runN_none.trans (and_congr_right fun _ => hp hpre hn)

/-- **C95**: if the names are that short, the limit makes no difference: result, counts and final state are those of accept without it, to which all the theorems about accept apply. -/
theorem C95_same_partial (hcwd : Spec.Short env.cwd) (hR : ∀ i, (utf8 (env.uuidR i)).length = 36) (hC : ∀ i, (utf8 (env.uuidC i)).length = 36)
    (hn : ∀ e ∈ selected env st, Spec.Short e.dest ∧ ∀ s, e.source = some s → Spec.Short s.path) (hf : Spec.TempsFit (selected env st)) :
    acceptN env st = accept env st := by
  have hp := plan_short (env := env) (st := st) hcwd hR hC
  unfold selected at hp hn hf
  unfold acceptN accept
  dsimp only
  by_cases h0 : matching env.glob env.cwd env.patterns (changes env st) = []
  · rw [if_pos h0, if_pos h0]
  · rw [if_neg h0, if_neg h0]
    cases hpre : pretendCheck env st (matching env.glob env.cwd env.patterns (changes env st)) with
    | some e => rfl
    | none => rw [runN_eq ((hp hpre hn).2 hf)]

/-- **C95**: whatever the names, the state accept ends in is one of those in which accept without the limit can be interrupted, so everything proved about interrupted accepts holds for it. -/
theorem C95_interrupted : AcceptState env st (acceptN env st).state := by
  unfold acceptN
  dsimp only
  by_cases h0 : matching env.glob env.cwd env.patterns (changes env st) = []
  · rw [if_pos h0]; exact .before
  · rw [if_neg h0]
    cases hpre : pretendCheck env st (matching env.glob env.cwd env.patterns (changes env st)) with
    | some e => exact .before
    | none => exact .during hpre runN_crash

end

/-! ### a run -/

/-- A name of `k` letters. -/
def exName (k : Nat) : Name := List.replicate k 'n'

def exLimitEnv : Env := { exViewEnv with
  uuidR := fun i => List.replicate 36 (if i = 0 then 'R' else 'S'),
  uuidC := fun i => List.replicate 36 (if i = 0 then 'C' else if i = 1 then 'D' else 'E') }

/-- In the sandbox: `echo 1 > a; mv d e; echo new > N` where the directory `d` and the file `N`, with a name of `k` letters, are on the host. -/
def exLimit (k : Nat) : State := ⟨[([], { kind := .dir, dev := 1 }), ([exName k], { kind := .reg (str "old"), dev := 1 }), ([str "d"], { kind := .dir, dev := 1 })],
  [([], { kind := .dir }), ([str "F4"], { kind := .dir }), ([str "F4", str "a"], { kind := .reg (str "1") }), ([str "F4", str "d"], { kind := .chr 0 }),
   ([str "F4", str "e"], { kind := .dir, redirect := some (str "d") }), ([str "F4", exName k], { kind := .reg (str "new") })]⟩

theorem exLimit_uuidR (i : Nat) : (utf8 (exLimitEnv.uuidR i)).length = 36 := by
  unfold exLimitEnv
  dsimp only
  split <;> decide

theorem exLimit_uuidC (i : Nat) : (utf8 (exLimitEnv.uuidC i)).length = 36 := by
  unfold exLimitEnv
  dsimp only
  split
  · decide
  · split <;> decide

/-- Executable form of the condition on the names of the changes. -/
theorem names_of_check {sel : List Entry} (h : (sel.all fun e => shortPath e.dest && (e.source.all fun s => shortPath s.path)) = true) :
    ∀ e ∈ sel, Spec.Short e.dest ∧ ∀ s, e.source = some s → Spec.Short s.path := by
  intro e he
  have := List.all_eq_true.1 h e he
  rw [Bool.and_eq_true] at this
  exact ⟨shortPath_iff.1 this.1, fun s hs => by rw [hs] at this; exact shortPath_iff.1 this.2⟩

-- a name of 218 letters: the conditions hold, and the changes are accepted
example : (acceptN exLimitEnv (exLimit 218)).error = none ∧ ((acceptN exLimitEnv (exLimit 218)).state.lower.get [exName 218]).map (·.kind) = some (.reg (str "new")) ∧
    Spec.TempsFit (selected exLimitEnv (exLimit 218)) ∧ acceptN exLimitEnv (exLimit 218) = accept exLimitEnv (exLimit 218) := by
  have h1 : (acceptN exLimitEnv (exLimit 218)).error = none := by decide +kernel
  have hn := names_of_check (sel := selected exLimitEnv (exLimit 218)) (by decide +kernel)
  have hc : Spec.Short exLimitEnv.cwd := shortPath_iff.1 (by decide +kernel)
  have h2 := ((C95_exact_partial hc exLimit_uuidR exLimit_uuidC hn).1 h1).2
  exact ⟨h1, by decide +kernel, h2, C95_same_partial hc exLimit_uuidR exLimit_uuidC hn h2⟩

/-- **C95 refuted** for files: a file on the host has a name of 219 bytes and is modified in the sandbox.  All checks pass, the other changes are applied, and the accept stops with "file name
too long"; the file is left as it was, the moved directory is under its new name, the created file is there, and the storage still holds everything. -/
theorem C95_refuted_copy :
    pretendCheck exLimitEnv (exLimit 219) (selected exLimitEnv (exLimit 219)) = none ∧ (accept exLimitEnv (exLimit 219)).error = none ∧
    (acceptN exLimitEnv (exLimit 219)).error = some (.os .ENAMETOOLONG) ∧
    (acceptN exLimitEnv (exLimit 219)).state.lower.get [exName 219] = some { kind := .reg (str "old"), dev := 1 } ∧
    (acceptN exLimitEnv (exLimit 219)).state.lower.get [str "d"] = none ∧
    (acceptN exLimitEnv (exLimit 219)).state.lower.get [str "e"] = some { kind := .dir, dev := 1 } ∧
    ((acceptN exLimitEnv (exLimit 219)).state.lower.get [str "a"]).map (·.kind) = some (.reg (str "1")) ∧
    (acceptN exLimitEnv (exLimit 219)).state.upper = (exLimit 219).upper := by decide +kernel

/-- In the sandbox: `rm -r a; mv N M`, where the directory `N` on the host has a name of 104 letters and `M` one of 103. -/
def exLimitMove : State := ⟨[([], { kind := .dir, dev := 1 }), ([str "a"], { kind := .reg (str "1"), dev := 1 }), ([exName 104], { kind := .dir, dev := 1 })],
  [([], { kind := .dir }), ([str "F4"], { kind := .dir }), ([str "F4", str "a"], { kind := .chr 0 }), ([str "F4", exName 104], { kind := .chr 0 }),
   ([str "F4", exName 103], { kind := .dir, redirect := some (exName 104) })]⟩

/-- **C95 refuted** for renames: a directory with a name of 104 bytes is renamed to one of 103 bytes.  All checks pass, what was deleted in the sandbox is deleted on the host, and the accept stops
before the rename. -/
theorem C95_refuted_rename :
    pretendCheck exLimitEnv exLimitMove (selected exLimitEnv exLimitMove) = none ∧ (accept exLimitEnv exLimitMove).error = none ∧
    (acceptN exLimitEnv exLimitMove).error = some (.os .ENAMETOOLONG) ∧ (acceptN exLimitEnv exLimitMove).state.lower.get [str "a"] = none ∧
    (acceptN exLimitEnv exLimitMove).state.lower.get [exName 104] = some { kind := .dir, dev := 1 } ∧ (acceptN exLimitEnv exLimitMove).state.lower.get [exName 103] = none ∧
    (acceptN exLimitEnv exLimitMove).state.upper = exLimitMove.upper := by decide +kernel

end SB
