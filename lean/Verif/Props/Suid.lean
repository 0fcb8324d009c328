import Verif.Props.Rights

/-!
# C87: no set-uid programs of other users while accept runs

Accept copies a staged file with its mode as root, gives it its name, and then its owner (src/actions/accept.rs:303-312).
-/

namespace SB

/-! ### Specification -/

/-- The bits of the mode that give rights to whoever executes a file. -/
inductive Spec.Gives where | uid | gid

/-- The place of the bit in the mode: 04000, 02000. -/
def Spec.Gives.bit : Spec.Gives → Nat
  | .uid => 11
  | .gid => 10

/-- Executing the node gives the rights of its owner (of its group). -/
def Spec.Giving (g : Spec.Gives) (n : Node) : Prop := (∃ c, n.kind = .reg c) ∧ n.perm.testBit g.bit = true

/-! ### Proofs -/

/-- Every giving file among the entries is, up to its name, one of the initial ones. -/
def OldGiving (g : Spec.Gives) (old fs : FS) : Prop := ∀ e ∈ fs, Spec.Giving g e.2 → ∃ e0 ∈ old, e0.2.kind = e.2.kind ∧ e0.2.uid = e.2.uid ∧ e0.2.gid = e.2.gid ∧ e0.2.perm = e.2.perm

theorem mem_fsSet {fs : FS} {p : Path} {n : Node} {e : Path × Node} (h : e ∈ fs.set p n) : e ∈ fs ∨ e.2 = n := by
  induction fs with
  | nil => simp only [FS.set, List.mem_singleton] at h; exact Or.inr (by rw [h])
  | cons x r ih =>
    obtain ⟨q, m⟩ := x
    simp only [FS.set] at h
    split at h
    · rcases List.mem_cons.1 h with rfl | h
      · exact Or.inr rfl
      · exact Or.inl (List.mem_cons_of_mem _ h)
    · rcases List.mem_cons.1 h with rfl | h
      · exact Or.inl List.mem_cons_self
      · rcases ih h with h | h
        · exact Or.inl (List.mem_cons_of_mem _ h)
        · exact Or.inr h

variable {g : Spec.Gives} {old fs fs' : FS}

theorem OldGiving.set (h : OldGiving g old fs) {p : Path} {n : Node} (hn : ¬ Spec.Giving g n) : OldGiving g old (fs.set p n) := by
  intro e he hg
  rcases mem_fsSet he with h1 | h1
  · exact h e h1 hg
  · rw [h1] at hg; exact absurd hg hn

theorem OldGiving.sub (h : OldGiving g old fs) (hs : ∀ e ∈ fs', ∃ e0 ∈ fs, e0.2 = e.2) : OldGiving g old fs' := by
  intro e he hg
  obtain ⟨e0, h0, h1⟩ := hs e he
  rw [← h1] at hg ⊢
  exact h e0 h0 hg

theorem OldGiving.del (h : OldGiving g old fs) (p : Path) : OldGiving g old (fs.del p) := h.sub (fun e he => ⟨e, (List.mem_filter.1 he).1, rfl⟩)

theorem OldGiving.move (h : OldGiving g old fs) (a b : Path) : OldGiving g old (fs.moveTree a b) := h.sub (fun e he => by
  obtain ⟨e0, h0, rfl⟩ := List.mem_map.1 he
  refine ⟨e0, (List.mem_filter.1 h0).1, ?_⟩
  split <;> rfl)

theorem OldGiving.unlink (h : OldGiving g old fs) {p : Path} (hx : fs.unlink p = .ok fs') : OldGiving g old fs' := by
  unfold FS.unlink at hx
  split at hx
  · cases hx
  · split at hx
    · cases hx
    · split at hx
      · cases hx
      · cases hx; exact h.del _

theorem OldGiving.rmdir (h : OldGiving g old fs) {p : Path} (hx : fs.rmdir p = .ok fs') : OldGiving g old fs' := by
  unfold FS.rmdir at hx
  repeat' (split at hx)
  all_goals first | (cases hx; done) | skip
  cases hx
  exact h.del _

theorem OldGiving.rename (h : OldGiving g old fs) {p q : Path} (hx : fs.rename p q = .ok fs') : OldGiving g old fs' := by
  unfold FS.rename at hx
  repeat' (split at hx)
  all_goals first | (cases hx; done) | skip
  all_goals cases hx
  all_goals first | exact h | exact h.move _ _

theorem OldGiving.symlink (h : OldGiving g old fs) {t : Str} {p : Path} (hx : fs.symlink t p = .ok fs') : OldGiving g old fs' := by
  unfold FS.symlink at hx
  split at hx
  · cases hx
  · split at hx
    · cases hx
    · cases hx
      exact h.set (fun hg => by obtain ⟨⟨c, hc⟩, _⟩ := hg; cases hc)

theorem OldGiving.mkdir (h : OldGiving g old fs) {p : Path} (hx : fs.mkdir p = .ok fs') : OldGiving g old fs' := by
  unfold FS.mkdir at hx
  split at hx
  · cases hx
  · split at hx
    · cases hx
    · cases hx
      exact h.set (fun hg => by obtain ⟨⟨c, hc⟩, _⟩ := hg; cases hc)

theorem OldGiving.writeFile (h : OldGiving g old fs) {p : Path} {d : Str} {m : Nat} (hm : m.testBit g.bit = false) (hx : fs.writeFile p d m = .ok fs') : OldGiving g old fs' := by
  unfold FS.writeFile at hx
  repeat' (split at hx)
  all_goals first | (cases hx; done) | skip
  all_goals
    cases hx
    exact h.set (fun hg => by have := hg.2; simp only at this; rw [hm] at this; cases this)

theorem OldGiving.chown (h : OldGiving g old fs) {p : Path} {u k : Nat} (hx : fs.chown p u k = .ok fs') : OldGiving g old fs' := by
  unfold FS.chown at hx
  split at hx
  · cases hx
  · split at hx
    · cases hx
    · cases hx
      rename_i n _
      refine h.set (fun hg => ?_)
      obtain ⟨⟨c, hc⟩, h2⟩ := hg
      simp only at hc h2
      have hd : n.isDir = false := by simp [Node.isDir, hc]
      rw [hd] at h2
      simp only [FS.killSuid, Bool.false_eq_true, if_false, show (1024 : Nat) = 2 ^ 10 from rfl, Nat.testBit_mod_two_pow] at h2
      cases g <;> simp [Spec.Gives.bit] at h2

theorem OldGiving.chmod (h : OldGiving g old fs) {p : Path} {m : Nat} (hm : m.testBit g.bit = false) (hx : fs.chmod p m = .ok fs') : OldGiving g old fs' := by
  unfold FS.chmod at hx
  repeat' (split at hx)
  all_goals first | (cases hx; done) | skip
  cases hx
  exact h.set (fun hg => by have := hg.2; simp only at this; rw [hm] at this; cases this)

theorem liftLower_cases {st st' : State} {r : Except Errno FS} {x : Option AccErr} (h : liftLower st r = (st', x)) : st' = st ∨ ∃ fs, r = .ok fs ∧ st' = { st with lower := fs } := by
  cases r with
  | ok fs => right; exact ⟨fs, rfl, by simp only [liftLower, Prod.mk.injEq] at h; exact h.1.symm⟩
  | error e => left; simp only [liftLower, Prod.mk.injEq] at h; exact h.1.symm

/-- The operation gives no file the bit. -/
def Op.gives (g : Spec.Gives) (upper : FS) : Op → Prop
  | .cp s _ => ∃ n, upper.get s = some n ∧ n.perm.testBit g.bit = true
  | .chmod _ m => m.testBit g.bit = true
  | _ => False

theorem exec_giving {op : Op} {st st' : State} {x : Option AccErr} (h : OldGiving g old st.lower) (ho : ¬ op.gives g st.upper) (hx : exec op st = (st', x)) : OldGiving g old st'.lower := by
  have lift : ∀ {r : Except Errno FS}, liftLower st r = (st', x) → (∀ fs, r = .ok fs → OldGiving g old fs) → OldGiving g old st'.lower := by
    intro r h1 h2
    rcases liftLower_cases h1 with rfl | ⟨fs, h3, rfl⟩
    · exact h
    · exact h2 fs h3
  cases op with
  | rm p => exact lift hx (fun fs hf => h.unlink hf)
  | rmdir p => exact lift hx (fun fs hf => h.rmdir hf)
  | mv a b => exact lift hx (fun fs hf => h.rename hf)
  | chown p u k => exact lift hx (fun fs hf => h.chown hf)
  | chmod p m => exact lift hx (fun fs hf => h.chmod (by simpa [Op.gives] using ho) hf)
  | cp s t =>
    simp only [exec] at hx
    split at hx
    · cases hx; exact h
    · rename_i n hn
      split at hx
      · refine lift hx (fun fs hf => h.writeFile ?_ hf)
        simp only [Op.gives, not_exists, not_and, Bool.not_eq_true] at ho
        exact ho n hn
      · cases hx; exact h
  | rmIfExists p =>
    simp only [exec] at hx
    split at hx
    · exact lift hx (fun fs hf => h.unlink hf)
    · cases hx; exact h
    · cases hx; exact h
  | ln s p =>
    simp only [exec] at hx
    split at hx
    · cases hx; exact h
    · split at hx
      · exact lift hx (fun fs hf => h.symlink hf)
      · cases hx; exact h
  | mkdirIfNeeded p =>
    simp only [exec] at hx
    split at hx
    · cases hx; exact h
    · exact lift hx (fun fs hf => h.mkdir hf)
  | clean p =>
    simp only [exec] at hx
    repeat' (split at hx)
    all_goals cases hx
    all_goals exact h

theorem crash_giving {ops : List Op} {st st' : State} (hc : CrashState ops st st') (h : OldGiving g old st.lower) (ho : ∀ op ∈ ops, op.isClean = false ∧ ¬ op.gives g st.upper) : OldGiving g old st'.lower := by
  induction hc with
  | here => exact h
  | @mid op ops st st' hm =>
    cases hm with
    | @cp _ s t n d m fs hn hbits hf =>
      refine h.writeFile ?_ hf
      have := (ho _ List.mem_cons_self).2
      simp only [Op.gives, not_exists, not_and, Bool.not_eq_true] at this
      by_contra hb
      rw [Bool.not_eq_false] at hb
      have h2 := hbits _ hb
      rw [this n hn] at h2
      cases h2
    | clean _ => exact h
  | @failed op ops st st' e hx => exact exec_giving h (ho _ List.mem_cons_self).2 hx
  | @later op ops st st' st'' hx _ ih =>
    have hu : st'.upper = st.upper := by have := exec_upper (ho op List.mem_cons_self).1 st; rw [hx] at this; exact this
    exact ih (exec_giving h (ho _ List.mem_cons_self).2 hx) (fun o hm => by rw [hu]; exact ho o (List.mem_cons_of_mem _ hm))

theorem apply_gives {env : Env} {st : State} {op : Op} (hs : ∀ e ∈ selected env st, Spec.IsSet e → ∀ s, e.staged = some s → s.node.perm.testBit g.bit = false) (ho : op ∈ applyPlan env (selected env st)) :
    op.isClean = false ∧ ¬ op.gives g st.upper := by
  unfold applyPlan at ho
  simp only at ho
  rcases List.mem_append.1 ho with ho | ho
  · rcases List.mem_append.1 ho with ho | ho
    · obtain ⟨_, _, _, _, _, rfl | rfl⟩ := opFrom_remove ho <;> exact ⟨rfl, id⟩
    · obtain ⟨_, _, _, _, _, _, rfl⟩ := opFrom_premove ho
      exact ⟨rfl, id⟩
  · obtain ⟨e, he, h⟩ := mem_applyOps ho
    obtain ⟨e0, h0, hc⟩ := from_c5 e he
    obtain ⟨h1, h2, h3, h4⟩ := core_op hc
    rcases h with ⟨ty, s, j, hop, hst, hm⟩ | ⟨t, _, _, rfl⟩
    · have hb := hs e0 h0 ⟨ty, by rw [← h1, hop]⟩ s (by rw [← h4, hst])
      have hg := (changes_staged (mem_selected h0) (by rw [← h4, hst])).1
      have hperm : ∀ op ∈ permOps e.dest s.node, op.isClean = false ∧ ¬ op.gives g st.upper := by
        intro op hop
        unfold permOps at hop
        rcases List.mem_cons.1 hop with rfl | hop
        · exact ⟨rfl, id⟩
        · split at hop
          · cases hop
          · rw [List.mem_singleton] at hop
            subst hop
            exact ⟨rfl, by simp [Op.gives, hb]⟩
      unfold setOps at hm
      split at hm
      · rcases List.mem_cons.1 hm with rfl | hm
        · exact ⟨rfl, by simp [Op.gives, hg, hb]⟩
        · rcases List.mem_cons.1 hm with rfl | hm
          · exact ⟨rfl, id⟩
          · exact hperm op hm
      · split at hm
        · rcases List.mem_cons.1 hm with rfl | hm
          · exact ⟨rfl, id⟩
          · rcases List.mem_cons.1 hm with rfl | hm
            · exact ⟨rfl, id⟩
            · exact hperm op hm
        · rcases List.mem_cons.1 hm with rfl | hm
          · exact ⟨rfl, id⟩
          · exact hperm op hm
    · exact ⟨rfl, id⟩

/-- **C87 (partial)**: if nothing that is created or changed has the set-uid (set-gid) bit in the sandbox, then at every moment of accept, and however it is interrupted, every set-uid (set-gid) file of the host was
there before, with the same content, owner, group and mode (perhaps under another name).
Missing: files that have the bit in the sandbox, for which the claim is false (`C87_refuted_window`). -/
theorem C87_no_new_partial (g : Spec.Gives) (env : Env) (st st' : State) (hw : st.lower.WF)
    (hs : ∀ e ∈ selected env st, Spec.IsSet e → ∀ s, e.staged = some s → s.node.perm.testBit g.bit = false) (h : AcceptState env st st') (p : Path) (n : Node)
    (hn : st'.lower.get p = some n) (hg : Spec.Giving g n) :
    ∃ p0 n0, st.lower.get p0 = some n0 ∧ n0.kind = n.kind ∧ n0.uid = n.uid ∧ n0.gid = n.gid ∧ n0.perm = n.perm := by
  obtain ⟨st1, hc, hl⟩ := acceptState_lower h
  rw [hl] at hn
  have := crash_giving (g := g) (old := st.lower) hc (fun e he _ => ⟨e, he, rfl, rfl, rfl, rfl⟩) (fun op ho => apply_gives hs ho)
  obtain ⟨e0, h0, h1⟩ := this _ (FS.mem_of_get hn) hg
  exact ⟨e0.1, e0.2, FS.get_of_mem hw.nodup h0, h1⟩

/-- Accept can be found between two operations. -/
theorem crash_take {ops : List Op} {st s : State} (k : Nat) (h : run (ops.take k) st = (s, none)) : CrashState ops st s := by
  induction ops generalizing st k with
  | nil => rw [List.take_nil] at h; cases h; exact .here
  | cons op ops ih =>
    cases k with
    | zero => cases h; exact .here
    | succ k =>
      rw [List.take_succ_cons] at h
      unfold run at h
      cases hx : exec op st with
      | mk st1 e =>
        rw [hx] at h
        cases e with
        | none => exact .later hx (ih k h)
        | some e => cases h

/-- Non-vacuity of `C87_no_new_partial`: a host with `/su`, which is moved away in the sandbox, and a new file; there is a set-uid file on the host after every accept. -/
def exSuidAccept : State :=
  ⟨[ ([], { kind := .dir, perm := 0o755 }), ([str "bin"], { kind := .dir, perm := 0o755 }), ([str "bin", str "su"], { kind := .reg (str "su"), perm := 0o4755 }) ],
   [ ([], { kind := .dir }), ([str "F4"], { kind := .dir, perm := 0o755 }), ([str "F4", str "bin"], { kind := .chr 0 }),
     ([str "F4", str "sbin"], { kind := .dir, perm := 0o755, redirect := some (str "bin") }), ([str "F4", str "new"], { kind := .reg (str "x"), uid := 1000, perm := 0o755 }) ]⟩

example : exSuidAccept.lower.WF ∧ (∀ e ∈ selected exViewEnv exSuidAccept, ∀ s ∈ e.staged, s.node.perm.testBit (Spec.Gives.uid.bit) = false) ∧ (selected exViewEnv exSuidAccept).length = 2 ∧
    (accept exViewEnv exSuidAccept).error = none ∧ (accept exViewEnv exSuidAccept).state.lower.get [str "sbin", str "su"] = some { kind := .reg (str "su"), perm := 0o4755 } := by
  decide +kernel

/-- **C87 refuted**: the user makes a set-uid program of his own in the sandbox, as he may.  Accept copies it with its mode, as root, and gives it to the user only after it has its name: in between
executing it gives root's rights.  (The user can stop or kill accept there: it runs with his real user id.) -/
theorem C87_refuted_window :
    let acts : List Act := [⟨[str "home", str "u", str "sh"], .put (.reg (str "shell")) 1000 1000 0o4755⟩]
    let st := runInAs exMe exRightsMounts exRightsNew acts
    Spec.NewSandbox exRightsMounts exRightsNew ∧ (∀ a ∈ acts, ActOk exRightsMounts a) ∧ runOnAs exMe exRightsMounts exRightsHost acts ≠ exRightsHost ∧
    ∃ s n, AcceptState exViewEnv st s ∧ s.lower.get [str "home", str "u", str "sh"] = some n ∧ n.kind = .reg (str "shell") ∧ Spec.Reaches s.lower exMe [str "home", str "u", str "sh"] 1 ∧
      execUid exMe n false = 0 ∧ (∀ p k, exRightsHost.get p = some k → k.kind ≠ n.kind) := by
  refine ⟨exRights_new, actsOk_of_check (by decide +kernel), by decide +kernel, _, { kind := .reg (str "shell"), perm := 0o4755, dev := 1 },
    .during (by decide +kernel) (crash_take 8 (Prod.ext_iff.2 ⟨rfl, by decide +kernel⟩)), by decide +kernel, rfl, ?_, by decide +kernel, ?_⟩
  · rw [← reachesB_iff]
    decide +kernel
  · intro p k hk
    exact (by decide +kernel : ∀ e ∈ exRightsHost, e.2.kind ≠ .reg (str "shell")) _ (FS.mem_of_get hk)

end SB
