import Verif.Lib.RaceLemmas
import Verif.Lib.Bridge
import Verif.Props.Suid

/-!
# C88: accept beside other programs
-/

namespace SB

/-! ### Specification -/

/-- Work at host path `w` does not concern accept: `w` is none of its paths and not above one of them (above a destination, a removed path, a renamed file, a temporary); and if it is below one of them, then
below a directory that is only created (or given other rights), and not removed. -/
structure Spec.Elsewhere (env : Env) (sel : List Entry) (w : Path) : Prop where
  above : ∀ q, Spec.Touched env sel q → ¬ w <+: q
  below : ∀ q, Spec.Touched env sel q → q <+: w → ¬ Spec.Removes sel q ∧ ∃ e ∈ sel, Spec.IsSet e ∧ e.dest = q ∧ ∃ s, e.staged = some s ∧ Spec.ftype s.node.kind = .directory

/-- No new directory takes the place of a symbolic link. -/
structure Spec.NoLinkToDir (host : FS) (sel : List Entry) : Prop where
  stays : ∀ e ∈ sel, Spec.IsSet e → ∀ s, e.staged = some s → Spec.ftype s.node.kind = .directory → ∀ n, host.get e.dest = some n → Spec.ftype n.kind ≠ .symlink
  moved : ∀ e ∈ sel, Spec.IsSet e → ∀ s, e.staged = some s → Spec.ftype s.node.kind = .directory → ∀ x d r, Spec.Renames sel x d → e.dest = d ++ r →
    ∀ n, host.get (x ++ r) = some n → Spec.ftype n.kind ≠ .symlink

/-! ### Proofs -/

section
variable {env : Env} {st : State} {sel : List Entry}

theorem apart_plan (h : Ready env st sel) (hdist : Spec.DistinctDests sel) (hl : Spec.NoLinkToDir st.lower sel) {P : Path → Prop} (hP : ∀ w, P w → Spec.Elsewhere env sel w) :
    ApartRun P (plan env sel) st := by
  have hg := h.good
  have unique : ∀ e ∈ sel, ∀ e' ∈ sel, Puts e → Puts e' → e.dest = e'.dest → e = e' := by
    intro e he e' he' h1 h2 h3
    by_contra hne
    have := pairwise_forall (R := fun e e' => Puts e → Puts e' → e.dest ≠ e'.dest) (fun a b hab hb ha he => hab ha hb he.symm) hdist he he' hne
    exact this h1 h2 h3
  have hclean : ∀ st3 : State, ApartRun P (cleanOps (realOrders env sel).2.2) st3 := fun st3 => apartRun_clean (fun op ho => by
    unfold cleanOps at ho
    obtain ⟨p, _, rfl⟩ := List.mem_map.1 ho
    rfl)
  unfold plan
  refine apartRun_append ?_ (fun st3 _ => hclean st3)
  have : applyPlan env sel = removeOps (realOrders env sel).1 ++ (premoveOps (realOrders env sel).2.1 ++ applyOps env 0 (realOrders env sel).2.2) := by
    rw [← List.append_assoc]; rfl
  rw [this]
  refine apartRun_append ?_ (fun st1 h1 => apartRun_append ?_ (fun st2 h2 => ?_))
  · refine apartRun_plain (plain_R hg) ?_ ?_ ?_ (fun _ h => h) hg.wf (fun q h => .init h)
    · intro op hop x hx w hw
      obtain ⟨e, he, s, ho, hs, hh⟩ := opFrom_remove hop
      have hxs : x = s.path := by rcases hh with rfl | rfl <;> simpa [Op.paths] using hx
      exact (hP w hw).above x (.removed e s he ho hs hxs.symm)
    · intro op hop w hw hd
      obtain ⟨e, he, s, ho, hs, rfl | rfl⟩ := opFrom_remove hop
      · exact hd
      · exact ((hP w hw).below s.path (.removed e s he ho hs rfl) hd).1 ⟨e, he, ho, s, hs, rfl⟩
    · intro p hp
      obtain ⟨_, _, _, _, _, h | h⟩ := opFrom_remove hp <;> cases h
  · have r1 := ok_R hg h1
    refine apartRun_plain (plain_M hg (links_R r1)) ?_ ?_ ?_ (fun _ h => h) r1.wf (fun q h => .init h)
    · intro op hop x hx w hw
      obtain ⟨e, he, s, j, ho, hs, rfl⟩ := opFrom_premove hop
      simp only [Op.paths, List.mem_cons, List.not_mem_nil, or_false] at hx
      rcases hx with rfl | rfl
      · exact (hP w hw).above _ (.renSource e s he ho hs (List.prefix_refl _))
      · exact (hP w hw).above _ (.renTemp e s j he ho hs (by rw [renameTmp_eq]))
    · intro op hop w hw hd
      obtain ⟨e, he, s, j, ho, hs, rfl⟩ := opFrom_premove hop
      rcases hd with hd | hd
      · exact (hP w hw).above _ (.renSource e s he ho hs hd) (List.prefix_refl _)
      · exact (hP w hw).above _ (.renTemp e s j he ho hs (by rw [← renameTmp_eq]; exact hd)) (List.prefix_refl _)
    · intro p hp
      obtain ⟨_, _, _, _, _, _, h⟩ := opFrom_premove hp
      cases h
  · obtain ⟨hA, _⟩ := afterRM_run hg h1 h2
    have hlk := hA.links (fun _ h => h)
    refine apartRun_plain (plain_A hg hlk) ?_ ?_ ?_ (fun _ h => h) hA.wf (fun q h => .init h)
    · intro op hop x hx w hw
      obtain ⟨e, he, hh⟩ := opFrom_apply hg.src hop
      rcases hh with ⟨ty, s, j, ho, hs, hh⟩ | ⟨s, j, ho, hs, rfl⟩
      · rcases setOps_paths hh x hx with rfl | ⟨rfl, _⟩
        · exact (hP w hw).above _ (.dest e he ⟨ty, ho⟩ rfl)
        · exact (hP w hw).above _ (.copyTemp e j he ⟨ty, ho⟩ (by rw [copyTmp_eq]))
      · simp only [Op.paths, List.mem_cons, List.not_mem_nil, or_false] at hx
        rcases hx with rfl | rfl
        · exact (hP w hw).above _ (.renTemp e s j he ho hs (by rw [renameTmp_eq]))
        · exact (hP w hw).above _ (.renDest e he ho (List.prefix_refl _))
    · intro op hop w hw hd
      obtain ⟨e, he, hh⟩ := opFrom_apply hg.src hop
      rcases hh with ⟨ty, s, j, ho, hs, hh⟩ | ⟨s, j, ho, hs, rfl⟩
      · rcases mem_setOps hh with ⟨hr, rfl | rfl⟩ | ⟨_, rfl | rfl⟩ | rfl | ⟨u, g, rfl⟩ | ⟨m, rfl⟩
        · exact hd
        · rcases hd with hd | hd
          · obtain ⟨_, e', he', _, hde, _⟩ := (hP w hw).below _ (.copyTemp e j he ⟨ty, ho⟩ (by rw [copyTmp_eq])) hd
            refine (hg.fresh.copy j e he).dest e' he' ?_
            rw [hde, copyTmp_eq]
            simp
          · obtain ⟨_, e', he', hset, hde, s', hs', hdir⟩ := (hP w hw).below _ (.dest e he ⟨ty, ho⟩ rfl) hd
            have := unique e' he' e he (Or.inl hset) (Or.inl ⟨ty, ho⟩) hde
            subst this
            rw [hs] at hs'
            cases hs'
            unfold Spec.ftype at hdir
            unfold Node.isReg at hr
            cases hk : s.node.kind <;> simp [hk, Kind.isReg] at hr hdir
        all_goals exact hd
      · rcases hd with hd | hd
        · exact (hP w hw).above _ (.renTemp e s j he ho hs (by rw [← renameTmp_eq]; exact hd)) (List.prefix_refl _)
        · exact (hP w hw).above _ (.renDest e he ho hd) (List.prefix_refl _)
    · intro p hp hm
      obtain ⟨e, he, hh⟩ := opFrom_apply hg.src hp
      rcases hh with ⟨ty, s, j, ho, hs, hh⟩ | ⟨s, j, ho, hs, hh⟩
      swap
      · cases hh
      obtain ⟨s', hs', hsup, _⟩ := h.staged e he ⟨ty, ho⟩
      rw [hs] at hs'
      cases hs'
      have hset : Spec.IsSet e := ⟨ty, ho⟩
      have hpd : p = e.dest ∧ Spec.ftype s.node.kind = .directory := by
        unfold setOps at hh
        split at hh
        · simp [permOps] at hh
          try (split at hh <;> simp at hh)
        · split at hh
          · simp [permOps] at hh
            try (split at hh <;> simp at hh)
          · rename_i h1 h2
            refine ⟨?_, ?_⟩
            · rcases List.mem_cons.1 hh with h | h
              · exact Op.mkdirIfNeeded.inj h
              · rcases mem_permOps h with ⟨_, _, h⟩ | ⟨_, h⟩ <;> cases h
            · unfold Node.supported at hsup
              unfold Node.isReg at h1
              unfold Node.isLnk at h2
              unfold Spec.ftype
              cases hk : s.node.kind <;> simp [hk, Kind.isReg, Kind.isLnk, Node.isReg, Node.isDir, Node.isLnk] at h1 h2 hsup ⊢
      obtain ⟨rfl, hdir⟩ := hpd
      rcases mayLink_A hg hlk hm with ⟨n, hn, hln⟩ | ⟨e', he', hset', s', hs', hln, hde⟩ | ⟨p, hp, r, hpr, _⟩ | ⟨e', he', ho', s', hs', r, hde, n, hn, hln⟩
      · exact hl.stays e he hset s hs hdir n hn (symlink_iff.2 hln)
      · have := unique e' he' e he (Or.inl hset') (Or.inl hset) hde
        subst this
        rw [hs] at hs'
        cases hs'
        rw [symlink_iff.2 hln] at hdir
        cases hdir
      · obtain ⟨e1, h1, s1, j1, ho1, hs1, hp1, hp2⟩ := pairs_c4 hg hp
        refine (hg.fresh.ren j1 e1 h1 s1 hs1).dest e he ?_
        rw [hpr, hp2, renameTmp_eq]
        simp
      · exact hl.moved e he hset s hs hdir s'.path e'.dest r ⟨e', he', ho', rfl, s', hs', rfl⟩ hde n hn (symlink_iff.2 hln)

end

theorem interleaved_nil {ws : List Write} {st st' : State} {r : Option AccErr} (h : Interleaved [] ws st st' r) : r = none ∧ st'.upper = st.upper ∧ st'.lower = ws.foldl write st.lower := by
  generalize hops : ([] : List Op) = ops at h
  induction h with
  | done => exact ⟨rfl, rfl, rfl⟩
  | other _ _ ih => exact ih hops
  | step => cases hops
  | failed => cases hops

/-- **C88 (partial)**: while accept runs, other programs write, create and remove files elsewhere on the host, at any moments.  Then accept ends with the same error (or none) and the same storage as without them,
and the host is what accept alone would have made of it, with their work done to it: nothing of it is lost, none of it is mixed up with accept's.
Missing: writes between the scan and the end of the checks; writes at or above accept's own paths (there the claim is false, `C88_refuted_link`); other operations than `write` (renames of whole directories, hard links);
directories that take the place of a link. -/
theorem C88_beside_partial (env : Env) (st st' : State) (r : Option AccErr) (ws : List Write) (ho : Spec.Ordinary env st) (hl : Spec.NoLinkToDir st.lower (selected env st))
    (hw : ∀ w ∈ ws, Spec.Elsewhere env (selected env st) w.path) (h : AcceptBeside env st ws st' r) :
    r = (accept env st).error ∧ st'.upper = (accept env st).state.upper ∧ ∀ q, st'.lower.get q = (ws.foldl write (accept env st).state.lower).get q := by
  have hsel : selected env st = matching env.glob env.cwd env.patterns (changes env st) := rfl
  cases h with
  | nothing hm hi =>
    obtain ⟨h1, h2, h3⟩ := interleaved_nil hi
    have : accept env st = { state := st, error := none, accepted := 0, nonMatching := nonMatchingCount (changes env st) [] } := by
      unfold accept; simp [hm]
    rw [this]
    exact ⟨rfl, h2, fun q => by rw [h3]⟩
  | @refused e hm hc hi =>
    obtain ⟨h1, h2, h3⟩ := interleaved_nil hi
    have h4 : (accept env st).state = st ∧ (accept env st).error = some e := by unfold accept; simp [hm, hc]
    rw [h4.1, h4.2]
    exact ⟨rfl, h2, fun q => by rw [h3]⟩
  | ran hm hc hi =>
    rw [← hsel] at hm hc hi
    have h4 : (accept env st).state = (run (plan env (selected env st)) st).1 ∧ (accept env st).error = (run (plan env (selected env st)) st).2 := by
      unfold accept
      simp only
      rw [← hsel]
      simp only [hm, hc, if_false, and_self]
    rw [h4.1, h4.2]
    have hap := apart_plan ho.ready ho.distinct hl (P := fun q => ∃ w ∈ ws, w.path = q) (fun q hq => by obtain ⟨w, hw', rfl⟩ := hq; exact hw w hw')
    have key := interleaved_off hi (P := fun q => ∃ w ∈ ws, w.path = q) (fun w hw' => ⟨w, hw', rfl⟩) st.lower ho.wf ho.wf (fun _ _ => rfl) hap
    rw [show (⟨st.lower, st.upper⟩ : State) = st from rfl] at key
    generalize run (plan env (selected env st)) st = R at key ⊢
    obtain ⟨h1, h2, h3, h5⟩ := key
    refine ⟨h1, h2, fun q => ?_⟩
    by_cases hq : ∃ w ∈ ws, w.path = q
    · exact (h5 q hq).trans (writes_mem hq _ _)
    · exact (h3 q hq).symm.trans (writes_other (fun w hw' he => hq ⟨w, hw', he⟩) _).symm

/-! ### Examples -/

/-- All writes leave file systems. -/
def writesOk : FS → List Write → Bool
  | _, [] => true
  | fs, w :: ws => decide (write fs w).WF && writesOk (write fs w) ws

theorem interleaved_writes {ops : List Op} {ws : List Write} {st st' : State} {r : Option AccErr} (hw : writesOk st.lower ws = true)
    (h : Interleaved ops [] { st with lower := ws.foldl write st.lower } st' r) : Interleaved ops ws st st' r := by
  induction ws generalizing st with
  | nil => exact h
  | cons w ws ih =>
    simp only [writesOk, Bool.and_eq_true, decide_eq_true_eq] at hw
    exact .other hw.1 (ih (st := { st with lower := write st.lower w }) hw.2 h)

theorem interleaved_run (ops : List Op) (st : State) : Interleaved ops [] st (run ops st).1 (run ops st).2 := by
  induction ops generalizing st with
  | nil => exact .done
  | cons op ops ih =>
    cases hx : exec op st with
    | mk s e =>
      cases e with
      | none => simp only [run, hx]; exact .step hx (ih s)
      | some e => simp only [run, hx]; exact .failed hx .done

/-- The writes of others happen together, after `k` operations. -/
theorem interleaved_at {ops : List Op} {ws : List Write} {st s1 st' : State} {r : Option AccErr} (k : Nat) (h1 : run (ops.take k) st = (s1, none)) (hw : writesOk s1.lower ws = true)
    (h2 : run (ops.drop k) { s1 with lower := ws.foldl write s1.lower } = (st', r)) : Interleaved ops ws st st' r := by
  induction k generalizing ops st with
  | zero =>
    cases h1
    refine interleaved_writes hw ?_
    have := interleaved_run ops { s1 with lower := ws.foldl write s1.lower }
    rw [List.drop_zero] at h2
    rw [h2] at this
    exact this
  | succ k ih =>
    cases ops with
    | nil => rw [List.take_nil] at h1; exact ih (by rw [List.take_nil]; exact h1) (by rw [List.drop_nil] at h2 ⊢; exact h2)
    | cons op ops =>
      rw [List.take_succ_cons] at h1
      unfold run at h1
      cases hx : exec op st with
      | mk s e =>
        rw [hx] at h1
        cases e with
        | none => exact .step hx (ih h1 h2)
        | some e => cases h1

/-- The state before, and the result after, the writes of others at step `k`. -/
def besideAt (env : Env) (st : State) (ws : List Write) (k : Nat) : State × Option AccErr :=
  let ops := plan env (selected env st)
  let s1 := (run (ops.take k) st).1
  run (ops.drop k) { s1 with lower := ws.foldl write s1.lower }

theorem beside_at {env : Env} {st : State} {ws : List Write} (k : Nat) (h0 : selected env st ≠ []) (hc : pretendCheck env st (selected env st) = none)
    (h1 : (run ((plan env (selected env st)).take k) st).2 = none) (hw : writesOk (run ((plan env (selected env st)).take k) st).1.lower ws = true)
    {r : Option AccErr} (hr : (besideAt env st ws k).2 = r) : AcceptBeside env st ws (besideAt env st ws k).1 r :=
  .ran h0 hc (interleaved_at k (Prod.ext_iff.2 ⟨rfl, h1⟩) hw (Prod.ext_iff.2 ⟨rfl, hr⟩))

theorem mem_withExtension {n : Name} {x : Str} {c : Char} (h : c ∈ x) : c ∈ withExtension n x := by
  unfold withExtension
  simp only
  split <;> simp [h]

/-- A decidable form of `Spec.Elsewhere`. -/
def elsewhereCheck (env : Env) (sel : List Entry) (w : Path) : Bool :=
  w.all (fun x => !x.contains '#' && !x.contains '@') && !w.isPrefixOf env.cwd && sel.all (fun e => match e.op with
    | .remove => match e.source with | some s => !w.isPrefixOf s.path && !s.path.isPrefixOf w | none => true
    | .rename => !w.isPrefixOf e.dest && !e.dest.isPrefixOf w && match e.source with | some s => !w.isPrefixOf s.path && !s.path.isPrefixOf w | none => true
    | .set _ => !w.isPrefixOf e.dest && (!e.dest.isPrefixOf w || match e.staged with | some s => Spec.ftype s.node.kind == .directory | none => false)
    | .error _ => true)

theorem elsewhere_of_check {env : Env} {sel : List Entry} {w : Path} (hR : ∀ i, env.uuidR i = List.replicate (i + 1) '#') (hC : ∀ i, env.uuidC i = List.replicate (i + 1) '@')
    (h : elsewhereCheck env sel w = true) : Spec.Elsewhere env sel w := by
  unfold elsewhereCheck at h
  simp only [Bool.and_eq_true, List.all_eq_true, Bool.not_eq_true', List.contains_eq_mem, decide_eq_false_iff_not] at h
  obtain ⟨⟨h1, h2⟩, h3⟩ := h
  have pre : ∀ {a b : Path}, a.isPrefixOf b = false → ¬ a <+: b := fun hf hp => by rw [List.isPrefixOf_iff_prefix.2 hp] at hf; cases hf
  have hcopy : ∀ (d : Path) i, Spec.copyName d (env.uuidC i) ∉ w := fun d i hm => (h1 _ hm).2 (by rw [hC]; exact mem_withExtension (by simp))
  have hren : ∀ (s d : Path) i, Spec.renName s d (env.uuidR i) ∉ w := fun s d i hm => (h1 _ hm).1 (by rw [hR]; unfold Spec.renName; simp)
  have rem : ∀ e ∈ sel, e.op = .remove → ∀ s, e.source = some s → ¬ w <+: s.path ∧ ¬ s.path <+: w := by
    intro e he ho s hs
    have := h3 e he
    rw [ho, hs] at this
    simp only [Bool.and_eq_true, Bool.not_eq_true'] at this
    exact ⟨pre this.1, pre this.2⟩
  have ren : ∀ e ∈ sel, e.op = .rename → ¬ w <+: e.dest ∧ ¬ e.dest <+: w ∧ ∀ s, e.source = some s → ¬ w <+: s.path ∧ ¬ s.path <+: w := by
    intro e he ho
    have := h3 e he
    rw [ho] at this
    simp only [Bool.and_eq_true, Bool.not_eq_true'] at this
    refine ⟨pre this.1.1, pre this.1.2, fun s hs => ?_⟩
    have h4 := this.2
    rw [hs] at h4
    simp only [Bool.and_eq_true, Bool.not_eq_true'] at h4
    exact ⟨pre h4.1, pre h4.2⟩
  have st : ∀ e ∈ sel, Spec.IsSet e → ¬ w <+: e.dest ∧ (e.dest <+: w → ∃ s, e.staged = some s ∧ Spec.ftype s.node.kind = .directory) := by
    rintro e he ⟨t, ho⟩
    have := h3 e he
    rw [ho] at this
    simp only [Bool.and_eq_true, Bool.not_eq_true', Bool.or_eq_true] at this
    refine ⟨pre this.1, fun hp => ?_⟩
    rcases this.2 with h4 | h4
    · exact absurd hp (pre h4)
    · cases hst : e.staged with
      | none => rw [hst] at h4; cases h4
      | some s => rw [hst] at h4; exact ⟨s, rfl, by simpa using h4⟩
  constructor
  · intro q hq hp
    cases hq with
    | removed e s he ho hs hq => subst hq; exact (rem e he ho s hs).1 hp
    | dest e he hset hq => subst hq; exact (st e he hset).1 hp
    | copyTemp e i he hset hq =>
      subst hq
      rcases List.prefix_concat_iff.1 hp with hx | hx
      · exact hcopy e.dest i (by rw [hx]; simp)
      · exact (st e he hset).1 (hx.trans (List.dropLast_prefix _))
    | renSource e s he ho hs hq =>
      rcases prefix_total hp hq with hx | hx
      · exact ((ren e he ho).2.2 s hs).1 hx
      · exact ((ren e he ho).2.2 s hs).2 hx
    | renDest e he ho hq =>
      rcases prefix_total hp hq with hx | hx
      · exact (ren e he ho).1 hx
      · exact (ren e he ho).2.1 hx
    | renTemp e s i he ho hs hq =>
      rcases prefix_total hp hq with hx | hx
      · rcases List.prefix_concat_iff.1 hx with hy | hy
        · exact hren s.path e.dest i (by rw [hy]; simp)
        · exact pre h2 hy
      · exact hren s.path e.dest i (hx.subset (by simp))
  · intro q hq hp
    have nr : ¬ Spec.Removes sel q := by
      rintro ⟨e, he, ho, s, hs, rfl⟩
      exact (rem e he ho s hs).2 hp
    refine ⟨nr, ?_⟩
    cases hq with
    | removed e s he ho hs hq => exact absurd ⟨e, he, ho, s, hs, hq⟩ nr
    | dest e he hset hq =>
      subst hq
      obtain ⟨s, hs, hd⟩ := (st e he hset).2 hp
      exact ⟨e, he, hset, rfl, s, hs, hd⟩
    | copyTemp e i he hset hq => subst hq; exact absurd (hp.subset (by simp)) (hcopy e.dest i)
    | renSource e s he ho hs hq => exact absurd (hq.trans hp) ((ren e he ho).2.2 s hs).2
    | renDest e he ho hq => exact absurd (hq.trans hp) (ren e he ho).2.1
    | renTemp e s i he ho hs hq => exact absurd ((hq.trans hp).subset (by simp)) (hren s.path e.dest i)

def noLinkToDirCheck (host : FS) (sel : List Entry) : Bool :=
  let notLink := fun q => match host.get q with | some n => !n.isLnk | none => true
  sel.all (fun e => match e.op, e.staged with
    | .set _, some s => !s.node.isDir || (notLink e.dest && sel.all (fun e' => e'.op != .rename || !e'.dest.isPrefixOf e.dest || match e'.source with
      | some x => notLink (x.path ++ e.dest.drop e'.dest.length)
      | none => true))
    | _, _ => true)

theorem noLinkToDir_of_check {host : FS} {sel : List Entry} (h : noLinkToDirCheck host sel = true) : Spec.NoLinkToDir host sel := by
  unfold noLinkToDirCheck at h
  simp only [List.all_eq_true] at h
  have key : ∀ e ∈ sel, Spec.IsSet e → ∀ s, e.staged = some s → Spec.ftype s.node.kind = .directory →
      (match host.get e.dest with | some n => !n.isLnk | none => true) = true ∧ ∀ e' ∈ sel, e'.op = .rename → ∀ r, e.dest = e'.dest ++ r → ∀ x, e'.source = some x →
        (match host.get (x.path ++ r) with | some n => !n.isLnk | none => true) = true := by
    rintro e he ⟨t, ho⟩ s hs hd
    have h1 := h e he
    rw [ho, hs] at h1
    have hd' : s.node.isDir = true := by unfold Spec.ftype at hd; unfold Node.isDir; cases hk : s.node.kind <;> simp [hk] at hd ⊢
    simp only [hd', Bool.not_true, Bool.false_or, Bool.and_eq_true, List.all_eq_true] at h1
    refine ⟨h1.1, fun e' he' ho' r hr x hx => ?_⟩
    have h2 := h1.2 e' he'
    rw [hx, hr, ho', List.isPrefixOf_iff_prefix.2 (List.prefix_append _ _)] at h2
    simpa using h2
  constructor
  · intro e he hset s hs hd n hn
    have := (key e he hset s hs hd).1
    rw [hn] at this
    exact not_symlink_iff.2 (by simpa using this)
  · rintro e he hset s hs hd x d r ⟨e', he', ho', rfl, y, hy, rfl⟩ hr n hn
    have := (key e he hset s hs hd).2 e' he' ho' r hr y hy
    rw [hn] at this
    exact not_symlink_iff.2 (by simpa using this)

/-- What another program does meanwhile: it writes a log in `d`, a directory that accept changes, and removes `o2` where it has put a file. -/
def exWrites : List Write :=
  [⟨[str "d", str "log"], some { kind := .reg (str "line"), dev := 1 }⟩, ⟨[str "o2"], some { kind := .dir, dev := 1 }⟩, ⟨[str "o2", str "q"], some { kind := .reg [], dev := 1 }⟩,
   ⟨[str "o2", str "q"], none⟩]

-- Non-vacuity of `C88_beside_partial`: the writes come after nine of the operations of accepting `exView`.
example : ∃ st' r, AcceptBeside exViewEnv exView exWrites st' r ∧ Spec.Ordinary exViewEnv exView ∧ Spec.NoLinkToDir exView.lower (selected exViewEnv exView) ∧
    (∀ w ∈ exWrites, Spec.Elsewhere exViewEnv (selected exViewEnv exView) w.path) ∧ r = none ∧ (st'.lower.get [str "d", str "log"]).map (·.kind) = some (.reg (str "line")) ∧
    (st'.lower.get [str "d", str "f"]).map (·.kind) = some (.reg (str "new")) ∧ st'.lower.get [str "d", str "g"] = none := by
  refine ⟨(besideAt exViewEnv exView exWrites 9).1, none, beside_at 9 (by decide +kernel) (by decide +kernel) (by decide +kernel) (by decide +kernel) (by decide +kernel), exView_ordinary, noLinkToDir_of_check (by decide +kernel),
    fun w hw => elsewhere_of_check (fun _ => rfl) (fun _ => rfl) ((by decide +kernel : ∀ w ∈ exWrites, elsewhereCheck exViewEnv (selected exViewEnv exView) w.path = true) w hw), rfl, by decide +kernel, by decide +kernel, by decide +kernel⟩

/-- **C88 refuted** for writes above accept's paths: the user makes a directory `/home/u/d` with a file `passwd` in the sandbox.  While root's accept creates it, a program of his puts a link to `/etc` in its
place, for which he needs no rights but his own.  Accept copies through the link, replaces `/etc/passwd` and gives it to him.  (Also against C86: the rights of accept are root's.) -/
theorem C88_refuted_link :
    let acts : List Act := [⟨[str "home", str "u", str "d"], .mkdir 1000 1000 0o755 false⟩, ⟨[str "home", str "u", str "d", str "passwd"], .put (.reg (str "evil")) 1000 1000 0o644⟩]
    let st := runInAs exMe exRightsMounts exRightsNew acts
    let ws : List Write := [⟨[str "home", str "u", str "d"], none⟩, ⟨[str "home", str "u", str "d"], some { kind := .lnk (str "/etc"), uid := 1000, gid := 1000, perm := 0o777, dev := 1 }⟩]
    Spec.NewSandbox exRightsMounts exRightsNew ∧ Spec.Ordinary exViewEnv st ∧ (accept exViewEnv st).error = none ∧
    (accept exViewEnv st).state.lower.get [str "etc", str "passwd"] = exRightsHost.get [str "etc", str "passwd"] ∧
    (∀ w ∈ ws, ∃ d n, Below d w.path ∧ d = w.path.dropLast ∧ exRightsHost.get d = some n ∧ n.uid = exMe.uid) ∧
    ∃ st', AcceptBeside exViewEnv st ws st' none ∧ st'.lower.get [str "etc", str "passwd"] = some { kind := .reg (str "evil"), uid := 1000, gid := 1000, perm := 0o644, dev := 1 } := by
  refine ⟨exRights_new, ordinary_of_check (fun _ => rfl) (fun _ => rfl) (by decide +kernel) (by decide +kernel) (by decide +kernel), by decide +kernel, by decide +kernel, ?_,
    _, beside_at 9 (by decide +kernel) (by decide +kernel) (by decide +kernel) (by decide +kernel) (by decide +kernel), by decide +kernel⟩
  intro w hw
  have : w.path = [str "home", str "u", str "d"] := by
    simp only [List.mem_cons, List.not_mem_nil, or_false] at hw
    rcases hw with rfl | rfl <;> rfl
  exact ⟨[str "home", str "u"], { kind := .dir, uid := 1000, gid := 1000, perm := 0o700, dev := 1 }, by rw [this]; exact ⟨[str "d"], by simp, rfl⟩, by rw [this]; rfl, by decide +kernel, rfl⟩

end SB
