import Verif.Lib.SetRun

/-! The ascending pass of accept (sets and final renames), change by change (proof machinery). -/

namespace SB

def CopyName (env : Env) (sel : List Entry) (x : Name) : Prop := ∃ i, ∃ e ∈ sel, x = Spec.copyName e.dest (env.uuidC i)

/-- The working list of the pass. -/
structure AList (env : Env) (st : State) (sel : List Entry) (l : List Entry) : Prop where
  fr : ∀ e ∈ l, From sel e
  ren : ∀ e ∈ l, e.op = .rename → ∃ s j, e.source = some s ∧ e.tmp = some (renameTmp env.cwd s.path e.dest (env.uuidR j))
  tmps : l.Pairwise (fun e e' => e.op = .rename → e'.op = .rename → e.tmp ≠ e'.tmp)
  set : ∀ e ∈ l, Spec.IsSet e → ∃ s, e.staged = some s ∧ s.node.supported = true ∧ st.upper.get s.path = some s.node

/-- Invariant at the start of every block: `all`/`G` are the operations and the tree of the whole pass. -/
structure AInv (env : Env) (sel : List Entry) (all : List Op) (G : FS) (l : List Entry) (fs : FS) : Prop where
  wf : fs.WF
  links : ∀ q, fs.linkAt q → MayLink all G q
  noCopy : ∀ x, CopyName env sel x → ∀ q, x ∈ q → fs.get q = none
  tmps : ∀ e ∈ l, e.op = .rename → ∀ t, e.tmp = some t → ∀ r, fs.get (t ++ r) = G.get (t ++ r)
  exist : ∀ e ∈ l, e.op = .rename → ∀ t, e.tmp = some t → ∃ n, fs.get t = some n

/-- The operations of one change. -/
def blockOps (env : Env) (i : Nat) (e : Entry) : List Op :=
  match e.op, e.staged, e.tmp with
  | .set _, some s, _ => setOps e.dest s (copyTmp e.dest (env.uuidC i))
  | .rename, _, some t => [.mv t e.dest]
  | _, _, _ => []

theorem applyOps_cons (env : Env) (i : Nat) (e : Entry) (r : List Entry) :
    applyOps env i (e :: r) = blockOps env i e ++ applyOps env (i + 1) r := rfl

section
variable {env : Env} {host : FS} {st : State} {sel l : List Entry} {all : List Op} {G : FS}

theorem dest_facts (hg : Good env host sel) {e : Entry} (hf : From sel e) :
    NormalPath e.dest ∧ e.dest ≠ [] ∧ ∃ e0 ∈ sel, e.op = e0.op ∧ e.dest = e0.dest ∧ e.source = e0.source ∧ e.staged = e0.staged := by
  obtain ⟨e0, h0, hc⟩ := hf
  obtain ⟨h1, h2, h3, h4⟩ := core_op hc
  obtain ⟨hn, hne, _⟩ := hg.plain.dest e0 h0
  exact ⟨h2 ▸ hn, h2 ▸ hne, e0, h0, h1, h2, h3, h4⟩

theorem copyName_notin_dest (hg : Good env host sel) {x : Name} (hx : CopyName env sel x) {e : Entry} (hf : From sel e) : x ∉ e.dest := by
  obtain ⟨_, _, e0, h0, _, h2, _⟩ := dest_facts hg hf
  obtain ⟨i, e1, h1, rfl⟩ := hx
  rw [h2]; exact (hg.fresh.copy i e1 h1).dest e0 h0

/-- Where one `Set` of the pass acts. -/
theorem slot_of (hg : Good env host sel) (hp : PlainOps all G) {fs : FS} (hi : AInv env sel all G l fs) {e : Entry}
    (hf : From sel e) {s : Details} {i : Nat} (hin : ∀ op ∈ setOps e.dest s (copyTmp e.dest (env.uuidC i)), op ∈ all) :
    Slot e.dest (copyTmp e.dest (env.uuidC i)) fs := by
  obtain ⟨hn, hne, e0, h0, _, h2, _⟩ := dest_facts hg hf
  have hop : ∃ op ∈ setOps e.dest s (copyTmp e.dest (env.uuidC i)), e.dest ∈ op.paths := by
    unfold setOps
    split
    · exact ⟨.mv (copyTmp e.dest (env.uuidC i)) e.dest, by simp, by simp [Op.paths]⟩
    · split
      · exact ⟨.rmIfExists e.dest, by simp, by simp [Op.paths]⟩
      · exact ⟨.mkdirIfNeeded e.dest, by simp, by simp [Op.paths]⟩
  obtain ⟨op, hop, hpath⟩ := hop
  obtain ⟨_, hnl⟩ := plain_now hi.links hp (hin op hop) _ hpath
  have hlen : (copyTmp e.dest (env.uuidC i)).length = e.dest.length := by
    rw [copyTmp_eq]; simp
    have := List.length_pos_of_ne_nil hne; omega
  have hdl : (copyTmp e.dest (env.uuidC i)).dropLast = e.dest.dropLast := by rw [copyTmp_eq, List.dropLast_concat]
  have hx : CopyName env sel (Spec.copyName e.dest (env.uuidC i)) := ⟨i, e0, h0, by rw [h2]⟩
  refine ⟨hi.wf, hn, ?_, hlen, fun y => ⟨below_copyTmp hne, fun hy => ?_⟩, fun h => ?_, hnl⟩
  · rw [h2]; exact normal_copyTmp (st := ⟨host, []⟩) hg h0 i
  · have h1 := prefix_dropLast_of_below hy
    rw [← hdl] at h1
    exact below_of_prefix_below h1 (dropLast_below (by rw [copyTmp_eq]; simp))
  · apply copyName_notin_dest hg hx hf
    have : Spec.copyName e.dest (env.uuidC i) ∈ copyTmp e.dest (env.uuidC i) := by rw [copyTmp_eq]; simp
    rwa [h] at this

theorem renTmp_notin (hg : Good env host sel) {e : Entry} (hf : From sel e) {s : Details} {j : Nat} (hs : e.source = some s) :
    Spec.NewName env host sel (Spec.renName s.path e.dest (env.uuidR j)) := by
  obtain ⟨_, _, e0, h0, _, h2, h3, _⟩ := dest_facts hg hf
  rw [h2]; exact hg.fresh.ren j e0 h0 s (h3 ▸ hs)

/-- A path at or below a rename's temporary is not a destination, and not a copy's temporary. -/
theorem renTmp_ne_dest (hg : Good env host sel) {e e' : Entry} (hf : From sel e) (hf' : From sel e') {s : Details} {j : Nat}
    (hs : e.source = some s) {q : Path} (hq : renameTmp env.cwd s.path e.dest (env.uuidR j) <+: q) : e'.dest ≠ q := by
  rintro rfl
  obtain ⟨_, _, e0, h0, _, h2, _⟩ := dest_facts hg hf'
  apply (renTmp_notin (j := j) hg hf hs).dest e0 h0
  rw [← h2]
  apply hq.subset
  rw [renameTmp_eq]; simp

theorem renTmp_ne_copy (hg : Good env host sel) {e e' : Entry} (hf : From sel e) (hf' : From sel e') {s : Details} {i j : Nat}
    (hs : e.source = some s) {q : Path} (hq : renameTmp env.cwd s.path e.dest (env.uuidR j) <+: q) :
    copyTmp e'.dest (env.uuidC i) ≠ q := by
  rintro rfl
  obtain ⟨_, _, e0, h0, _, h2, h3, _⟩ := dest_facts hg hf
  obtain ⟨_, _, e0', h0', _, h2', _⟩ := dest_facts hg hf'
  have hx := renTmp_notin (j := j) hg hf hs
  have : Spec.renName s.path e.dest (env.uuidR j) ∈ copyTmp e'.dest (env.uuidC i) := hq.subset (by rw [renameTmp_eq]; simp)
  rw [copyTmp_eq, List.mem_append] at this
  rcases this with h | h
  · exact hx.dest e0' h0' (h2' ▸ List.dropLast_subset _ h)
  · simp only [List.mem_singleton] at h
    rw [h2, h2'] at h
    exact hg.fresh.renCopy j i e0 h0 e0' h0' s (h3 ▸ hs) h

/-- The two temporaries of different renames are disjoint. -/
theorem renTmp_disjoint {cwd : Path} {s d s' d' : Path} {u u' : Str} (hne : renameTmp cwd s d u ≠ renameTmp cwd s' d' u') {q : Path}
    (h1 : renameTmp cwd s d u <+: q) (h2 : renameTmp cwd s' d' u' <+: q) : False := by
  have hl : (renameTmp cwd s d u).length = (renameTmp cwd s' d' u').length := by simp [renameTmp]
  rcases prefix_total h1 h2 with h | h
  · exact hne (h.eq_of_length hl)
  · exact hne (h.eq_of_length hl.symm).symm

/-- Effect of one block. -/
inductive BlockOK (env : Env) (i : Nat) (e : Entry) (a b : FS) : Prop where
  | set (s : Details) : Spec.IsSet e → e.staged = some s → Agree e.dest (copyTmp e.dest (env.uuidC i)) a b →
      (∃ n, b.get e.dest = some n ∧ Spec.SameNode n s.node) → b.get (copyTmp e.dest (env.uuidC i)) = none → BlockOK env i e a b
  | ren (t : Path) : e.op = .rename → e.tmp = some t → FS.Renamed a b t e.dest → BlockOK env i e a b
  | skip : ¬ Spec.IsSet e → e.op ≠ .rename → b = a → BlockOK env i e a b

theorem block_run {e : Entry} {r : List Entry} {i : Nat} (hg : Good env host sel) (hp : PlainOps all G) (ha : AList env st sel (e :: r))
    (hi : AInv env sel all G (e :: r) st.lower) (hin : ∀ op ∈ blockOps env i e, op ∈ all) {st' : State}
    (h : run (blockOps env i e) st = (st', none)) : BlockOK env i e st.lower st'.lower := by
  have hf := ha.fr e (by simp)
  unfold blockOps at h hin
  cases ho : e.op with
  | set ty =>
    obtain ⟨s, hs, hsup, hup⟩ := ha.set e (by simp) ⟨ty, ho⟩
    simp only [ho, hs] at h hin
    obtain ⟨_, _, e0, h0, _, h2, _⟩ := dest_facts hg hf
    have ht : st.lower.get (copyTmp e.dest (env.uuidC i)) = none :=
      hi.noCopy _ ⟨i, e0, h0, rfl⟩ _ (by rw [copyTmp_eq, h2]; simp)
    obtain ⟨_, hag, hd, htt⟩ := setOps_run (slot_of hg hp hi hf hin) hup ht hsup h
    exact .set s ⟨ty, ho⟩ hs hag hd htt
  | rename =>
    obtain ⟨s, j, hs, ht⟩ := ha.ren e (by simp) ho
    simp only [ho, ht] at h hin
    obtain ⟨st1, he, h⟩ := run_cons h
    simp only [run, Prod.mk.injEq, and_true] at h
    subst h
    simp only [exec] at he
    obtain ⟨fs, hfs, rfl⟩ := run_liftLower he
    have hpl := plain_now hi.links hp (hin _ (List.mem_singleton.2 rfl))
    obtain ⟨h1, h2⟩ := hpl _ (show renameTmp env.cwd s.path e.dest (env.uuidR j) ∈ _ by simp [Op.paths])
    obtain ⟨h3, h4⟩ := hpl e.dest (by simp [Op.paths])
    have hne : renameTmp env.cwd s.path e.dest (env.uuidR j) ≠ e.dest :=
      fun h => renTmp_ne_dest hg hf hf hs (List.prefix_refl _) h.symm
    exact .ren _ ho ht (FS.rename_plain hi.wf h1 h2 h3 h4 hne hfs).1
  | remove =>
    simp only [ho, run, Prod.mk.injEq, and_true] at h
    subst h
    exact .skip (by rintro ⟨ty, h⟩; rw [ho] at h; cases h) (by rw [ho]; simp) rfl
  | error x =>
    simp only [ho, run, Prod.mk.injEq, and_true] at h
    subst h
    exact .skip (by rintro ⟨ty, h⟩; rw [ho] at h; cases h) (by rw [ho]; simp) rfl

/-- The temporaries of later renames survive a block. -/
theorem block_tmps {e : Entry} {r : List Entry} {i : Nat} (hg : Good env host sel) (ha : AList env st sel (e :: r)) {a b : FS}
    (hb : BlockOK env i e a b) {e' : Entry} (he' : e' ∈ r) (ho' : e'.op = .rename) {t : Path} (ht : e'.tmp = some t)
    (hex : ∃ n, a.get t = some n) (q : Path) (hq : t <+: q) : b.get q = a.get q := by
  have hf := ha.fr e (by simp)
  have hf' := ha.fr e' (by simp [he'])
  obtain ⟨s', j', hs', ht'⟩ := ha.ren e' (by simp [he']) ho'
  rw [ht] at ht'; cases ht'
  cases hb with
  | set s _ _ hag _ _ =>
    exact hag q (renTmp_ne_dest hg hf' hf hs' hq).symm (renTmp_ne_copy hg hf' hf hs' hq).symm
  | ren t0 ho ht0 hR =>
    obtain ⟨s0, j0, hs0, ht0'⟩ := ha.ren e (by simp) ho
    rw [ht0] at ht0'; cases ht0'
    have hne := (List.pairwise_cons.1 ha.tmps).1 e' he' ho ho'
    rw [ht0, ht] at hne
    have hne' : renameTmp env.cwd s0.path e.dest (env.uuidR j0) ≠ renameTmp env.cwd s'.path e'.dest (env.uuidR j') := fun h => hne (by rw [h])
    have hnd : ¬ e.dest <+: q := by
      intro hd
      -- then the destination is a directory above the other temporary, and the move would have failed
      have hb : Below e.dest (renameTmp env.cwd s'.path e'.dest (env.uuidR j')) := by
        refine below_iff.2 ⟨?_, (renTmp_ne_dest hg hf' hf hs' (List.prefix_refl _))⟩
        rcases prefix_total hd hq with h | h
        · exact h
        · exact absurd rfl (renTmp_ne_dest hg hf' hf hs' h)
      obtain ⟨n, hn, hcl, hmd⟩ := hR.ex
      obtain ⟨m, hm⟩ := hex
      cases hnd : n.isDir with
      | true => rw [hcl hnd _ hb] at hm; cases hm
      | false =>
        -- `e.dest` lies on the way to the temporary `t0` too
        have h1 : e.dest <+: env.cwd := by
          have := prefix_dropLast_of_below hb; rwa [renameTmp_eq, List.dropLast_concat] at this
        apply hR.notba
        rw [renameTmp_eq]; exact h1.trans (List.prefix_append _ _)
    have hnt : ¬ renameTmp env.cwd s0.path e.dest (env.uuidR j0) <+: q := fun h => renTmp_disjoint hne' h hq
    rw [hR.get, if_neg hnd, if_neg hnt]
  | skip _ _ h => rw [h]

theorem block_inv {e : Entry} {r : List Entry} {i : Nat} (hg : Good env host sel) (hp : PlainOps all G) (ha : AList env st sel (e :: r))
    (hi : AInv env sel all G (e :: r) st.lower) (hin : ∀ op ∈ blockOps env i e, op ∈ all) {st' : State}
    (h : run (blockOps env i e) st = (st', none)) : AInv env sel all G r st'.lower := by
  have hb := block_run hg hp ha hi hin h
  have hf := ha.fr e (by simp)
  have hc : CrashState (blockOps env i e) st st' := by
    have := crash_of_run (ops := blockOps env i e) (st := st); rw [h] at this; exact this
  obtain ⟨h1, _, h3⟩ := crash_region_aux hp hc hin hi.wf hi.links
  refine ⟨h1, h3, fun x hx q hq => ?_, fun e' he' ho' t ht q => ?_, fun e' he' ho' t ht => ?_⟩
  · have hxd := copyName_notin_dest hg hx hf
    cases hb with
    | set s _ _ hag _ ht =>
      by_cases hqt : q = copyTmp e.dest (env.uuidC i)
      · rw [hqt, ht]
      · rw [hag q (by rintro rfl; exact hxd hq) hqt]; exact hi.noCopy x hx q hq
    | ren t _ _ hR =>
      rw [hR.get]
      split
      · rename_i hdq
        obtain ⟨r', rfl⟩ := hdq
        rw [List.drop_left]
        refine hi.noCopy x hx _ ?_
        rw [List.mem_append] at hq ⊢
        exact Or.inr (hq.resolve_left hxd)
      · split
        · rfl
        · exact hi.noCopy x hx q hq
    | skip _ _ h => rw [h]; exact hi.noCopy x hx q hq
  · rw [block_tmps hg ha hb he' ho' ht (hi.exist e' (by simp [he']) ho' t ht) _ (List.prefix_append _ _)]
    exact hi.tmps e' (by simp [he']) ho' t ht q
  · rw [block_tmps hg ha hb he' ho' ht (hi.exist e' (by simp [he']) ho' t ht) _ (List.prefix_refl _)]
    exact hi.exist e' (by simp [he']) ho' t ht

theorem AList.tail {e : Entry} {r : List Entry} {st' : State} (ha : AList env st sel (e :: r)) (hu : st'.upper = st.upper) :
    AList env st' sel r :=
  ⟨fun x hx => ha.fr x (by simp [hx]), fun x hx => ha.ren x (by simp [hx]), (List.pairwise_cons.1 ha.tmps).2,
    fun x hx => by rw [hu]; exact ha.set x (by simp [hx])⟩

theorem blockOps_noClean (env : Env) (i : Nat) (e : Entry) : ∀ op ∈ blockOps env i e, op.isClean = false := by
  intro op hop
  unfold blockOps at hop
  split at hop
  · rcases mem_setOps hop with ⟨_, rfl | rfl⟩ | ⟨_, rfl | rfl⟩ | rfl | ⟨u, g, rfl⟩ | ⟨m, rfl⟩ <;> rfl
  · simp at hop; subst hop; rfl
  · simp at hop

end

end SB
