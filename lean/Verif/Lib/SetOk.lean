import Verif.Lib.Effect
import Verif.Lib.RemovePass
import Verif.Lib.Clean

/-! When the operations of one `Set`, and of the whole ascending pass, succeed (proof machinery). -/

namespace SB

theorem isDirAt_parent_chain {fs : FS} (hw : fs.WF) {p : Path} (h : fs.isDirAt p.dropLast = true) : fs.Chain p := by
  intro q hq
  by_cases he : q = p.dropLast
  · rw [he]; exact h
  · obtain ⟨n, hn, _⟩ := FS.isDirAt_iff.1 h
    exact hw.ancestor hn (below_iff.2 ⟨prefix_dropLast_of_below hq, he⟩)

theorem run_none_cons {op : Op} {ops : List Op} {st st1 : State} (h : exec op st = (st1, none)) : run (op :: ops) st = run ops st1 := by
  conv => lhs; unfold run
  rw [h]

/-- chown and chmod succeed on what is there. -/
theorem permOps_ok {d : Path} {st : State} {n m : Node} (hw : st.lower.WF) (hn : st.lower.get d = some n) (hl : m.isLnk = false → n.isLnk = false) :
    (run (permOps d m) st).2 = none := by
  have hN := hw.normal_of_get hn
  have hc := hw.chain hn
  unfold permOps
  have h1 : exec (.chown d m.uid m.gid) st = ({ st with lower := st.lower.set d { n with uid := m.uid, gid := m.gid, perm := if n.isDir then n.perm else FS.killSuid n.perm } }, none) := by
    simp only [exec, FS.chown, FS.canon_chain hN hc, hn, liftLower]
  rw [run_none_cons h1]
  split
  · rfl
  · next hm =>
    have hcs : (st.lower.set d { n with uid := m.uid, gid := m.gid, perm := if n.isDir then n.perm else FS.killSuid n.perm }).canon d = .ok d := by
      refine FS.canon_chain hN (fun q hq => ?_)
      have := hc q hq
      obtain ⟨k, hk, hd⟩ := FS.isDirAt_iff.1 this
      exact FS.isDirAt_iff.2 ⟨k, by rw [FS.get_set, if_neg (fun e => hq.ne e.symm), hk], hd⟩
    have hl' := hl (by simpa using hm)
    have hl'' : ({ n with uid := m.uid, gid := m.gid, perm := if n.isDir then n.perm else FS.killSuid n.perm } : Node).isLnk = false := hl'
    simp only [run, exec, FS.chmod, hcs, FS.get_set_self, hl'', liftLower]
    rfl

/-- The operations of one `Set` succeed if its parent is a directory and what is at its place can be replaced. -/
theorem setOps_ok {d t : Path} {s : Details} {st : State} (h : Slot d t st.lower) (hne : d ≠ []) (hpar : st.lower.isDirAt d.dropLast = true)
    (hs : st.upper.get s.path = some s.node) (ht : st.lower.get t = none) (hsup : s.node.supported = true)
    (hfit : ∀ k, st.lower.get d = some k → k.isDir = s.node.isDir) : (run (setOps d s t) st).2 = none := by
  have hcd : st.lower.Chain d := isDirAt_parent_chain h.wf hpar
  have hct : st.lower.Chain t := fun q hq => hcd q ((h.above q).1 hq)
  have htne : t ≠ [] := by
    rintro rfl
    have := h.len
    exact hne (List.length_eq_zero_iff.1 this.symm)
  have hdl : t.dropLast = d.dropLast := by
    have h1 : Below t.dropLast d := (h.above _).1 (dropLast_below htne)
    have h2 := prefix_dropLast_of_below h1
    refine h2.eq_of_length ?_
    rw [List.length_dropLast, List.length_dropLast, h.len]
  unfold setOps
  by_cases hreg : s.node.isReg = true
  · rw [if_pos hreg]
    obtain ⟨c, hk⟩ : ∃ c, s.node.kind = .reg c := by
      unfold Node.isReg at hreg
      cases hk : s.node.kind <;> rw [hk] at hreg <;> simp [Kind.isReg] at hreg
      exact ⟨_, rfl⟩
    have hnd : s.node.isDir = false := by unfold Node.isDir; rw [hk]; rfl
    have h1 : exec (.cp s.path t) st = ({ st with lower := st.lower.set t { kind := .reg c, perm := s.node.perm, dev := st.lower.devOf t.dropLast } }, none) := by
      simp only [exec, hs, hk, FS.writeFile, FS.canon_chain h.nt hct, ht, liftLower]
    rw [run_none_cons h1]
    have hw1 : (st.lower.set t { kind := .reg c, perm := s.node.perm, dev := st.lower.devOf t.dropLast }).WF :=
      h.wf.set h.nt hct (fun _ => ⟨htne, fun q hq => h.wf.none_below ht hq⟩)
    have hag : Agree d t st.lower (st.lower.set t { kind := .reg c, perm := s.node.perm, dev := st.lower.devOf t.dropLast }) := agree_set (Or.inr rfl)
    have s1 := h.step hw1 hag
    generalize hF : (st.lower.set t { kind := .reg c, perm := s.node.perm, dev := st.lower.devOf t.dropLast }) = F at hw1 hag s1 ⊢
    have hgt : F.get t = some { kind := .reg c, perm := s.node.perm, dev := st.lower.devOf t.dropLast } := by rw [← hF]; exact FS.get_set_self _ _ _
    have hgd : F.get d = st.lower.get d := by rw [← hF, FS.get_set, if_neg h.ne]
    have hcanon : F.canon d = .ok d := by
      refine FS.canon_chain h.nd (fun q hq => ?_)
      have := hcd q hq
      rw [← this]
      obtain ⟨g1, g2⟩ := h.ne_of_below hq
      exact FS.isDirAt_congr (hag q g1 g2)
    obtain ⟨np1, np2⟩ := h.not_prefix
    have hren : F.rename t d = .ok (F.moveTree t d) := by
      unfold FS.rename
      rw [FS.canon_chain h.nt (hw1.chain hgt), hcanon]
      simp only [hgt]
      rw [if_neg h.ne, if_neg (by simp [htne, hne]), if_neg (by rw [hdl]; simp), if_neg (by simpa using np1), if_neg (by simpa using np2)]
      have : ({ kind := .reg c, perm := s.node.perm, dev := st.lower.devOf t.dropLast } : Node).isDir = false := rfl
      simp only [this, Bool.false_and, Bool.false_eq_true, if_false]
      cases hg : F.get d with
      | none => rfl
      | some m =>
        have := hfit m (by rw [← hgd, hg])
        rw [hnd] at this
        simp [this]
    have h2 : exec (.mv t d) { st with lower := F } = ({ st with lower := F.moveTree t d }, none) := by
      simp only [exec, hren, liftLower]
    rw [run_none_cons h2]
    obtain ⟨hw2, _, hg2, _⟩ := slot_mv s1 hgt rfl hren
    exact permOps_ok hw2 hg2 (fun _ => rfl)
  · rw [if_neg hreg]
    by_cases hlnk : s.node.isLnk = true
    · rw [if_pos hlnk]
      obtain ⟨tg, hk⟩ : ∃ tg, s.node.kind = .lnk tg := by
        unfold Node.isLnk Kind.isLnk at hlnk
        cases hk : s.node.kind <;> rw [hk] at hlnk <;> simp at hlnk
        exact ⟨_, rfl⟩
      have hnd : s.node.isDir = false := by unfold Node.isDir; rw [hk]; rfl
      -- after the old node is gone
      have key : ∀ F : FS, F.WF → F.get d = none → F.Chain d → (run (.ln s.path d :: permOps d s.node) { st with lower := F }).2 = none := by
        intro F hw hg hch
        have h1 : exec (.ln s.path d) { st with lower := F } = ({ st with lower := F.set d { kind := .lnk tg, perm := 0o777, dev := F.devOf d.dropLast } }, none) := by
          simp only [exec, hs, hk, FS.symlink, FS.canon_chain h.nd hch, hg, liftLower]
        rw [run_none_cons h1]
        exact permOps_ok (hw.set h.nd hch (fun _ => ⟨hne, fun q hq => hw.none_below hg hq⟩)) (FS.get_set_self _ _ _) (fun h => by rw [hlnk] at h; cases h)
      cases hg : st.lower.get d with
      | none =>
        have h1 : exec (.rmIfExists d) st = (st, none) := by
          simp only [exec, FS.lstat_chain h.nd hcd, hg]
        rw [run_none_cons h1]
        exact key st.lower h.wf hg hcd
      | some k =>
        have hkd : k.isDir = false := by rw [hfit k hg, hnd]
        have hunl := h.wf.unlink_eq hg hkd
        have h1 : exec (.rmIfExists d) st = ({ st with lower := st.lower.del d }, none) := by
          simp only [exec, FS.lstat_chain h.nd hcd, hg, hunl, liftLower]
        rw [run_none_cons h1]
        refine key _ (h.wf.del_nondir hg hkd) (by rw [FS.get_del, if_pos rfl]) (fun q hq => ?_)
        rw [← hcd q hq]
        exact FS.isDirAt_congr (by rw [FS.get_del, if_neg (fun e => hq.ne e.symm)])
    · rw [if_neg hlnk]
      have hdk : s.node.kind = .dir := by
        unfold Node.supported at hsup
        simp only [hreg, hlnk, Bool.false_or, Bool.or_false] at hsup
        simpa [Node.isDir] using hsup
      have hd : s.node.isDir = true := by unfold Node.isDir; rw [hdk]; rfl
      cases hg : st.lower.get d with
      | none =>
        have hpd : st.lower.pisDir d = false := by
          unfold FS.pisDir
          rw [FS.stat_chain h.nd h.wf.root hcd (fun n hn => by rw [hg] at hn; cases hn), hg]
        have h1 : exec (.mkdirIfNeeded d) st = ({ st with lower := st.lower.set d { kind := .dir, perm := 0o755, dev := st.lower.devOf d.dropLast } }, none) := by
          simp only [exec, hpd, FS.mkdir, FS.canon_chain h.nd hcd, hg, liftLower]
          rfl
        rw [run_none_cons h1]
        exact permOps_ok (h.wf.set h.nd hcd (fun _ => ⟨hne, fun q hq => h.wf.none_below hg hq⟩)) (FS.get_set_self _ _ _) (fun _ => rfl)
      | some k =>
        have hkd := hfit k hg
        rw [hd] at hkd
        have hkl : k.isLnk = false := by
          unfold Node.isDir at hkd; unfold Node.isLnk
          cases hk : k.kind <;> simp_all [Kind.isLnk]
        have hpd : st.lower.pisDir d = true := by
          unfold FS.pisDir
          rw [FS.stat_chain h.nd h.wf.root hcd (fun n hn => by rw [hg] at hn; cases hn; exact hkl), hg]
          exact hkd
        have h1 : exec (.mkdirIfNeeded d) st = (st, none) := by simp only [exec, hpd, if_true]
        rw [run_none_cons h1]
        exact permOps_ok h.wf hg (fun _ => hkl)

section
variable {env : Env} {host : FS} {sel : List Entry} {all : List Op} {G : FS}

/-- What the ascending pass needs: every set has a directory to go to, there already or set before it, and what is at its place can be replaced. -/
structure Fits (l : List Entry) (fs : FS) : Prop where
  noRen : ∀ e ∈ l, e.op ≠ .rename
  parent : ∀ e ∈ l, Spec.IsSet e → (∃ e' ∈ l, Spec.IsSet e' ∧ e'.dest = e.dest.dropLast ∧ ∀ s, e'.staged = some s → s.node.isDir = true) ∨
    (fs.isDirAt e.dest.dropLast = true ∧ ∀ e' ∈ l, Spec.IsSet e' → e'.dest ≠ e.dest.dropLast)
  place : ∀ e ∈ l, Spec.IsSet e → ∀ s k, e.staged = some s → fs.get e.dest = some k → k.isDir = s.node.isDir

theorem phaseA_ok (hg : Good env host sel) (hp : PlainOps all G) : ∀ {l : List Entry} {i : Nat} {st : State}, AList env st sel l →
    AInv env sel all G l st.lower → Ascending l → (∀ op ∈ applyOps env i l, op ∈ all) → Fits l st.lower →
    (run (applyOps env i l) st).2 = none := by
  intro l
  induction l with
  | nil => intro i st _ _ _ _ _; rfl
  | cons e r ih =>
    intro i st ha hi has hin hfit
    have hin1 : ∀ op ∈ blockOps env i e, op ∈ all := fun op ho => hin op (by rw [applyOps_cons]; simp [ho])
    have hin2 : ∀ op ∈ applyOps env (i + 1) r, op ∈ all := fun op ho => hin op (by rw [applyOps_cons]; simp [ho])
    have hf := ha.fr e (by simp)
    have hasc := (List.pairwise_cons.1 has).1
    -- the head's block succeeds
    have hok : (run (blockOps env i e) st).2 = none := by
      cases ho : e.op with
      | rename => exact absurd ho (hfit.noRen e (by simp))
      | remove => unfold blockOps; simp only [ho]; rfl
      | error x => unfold blockOps; simp only [ho]; rfl
      | set ty =>
        have hset : Spec.IsSet e := ⟨ty, ho⟩
        obtain ⟨s, hs, hsup, hup⟩ := ha.set e (by simp) hset
        obtain ⟨hN, hne, e0, h0, _, h2, _⟩ := dest_facts hg hf
        have ht : st.lower.get (copyTmp e.dest (env.uuidC i)) = none :=
          hi.noCopy _ ⟨i, e0, h0, rfl⟩ _ (by rw [copyTmp_eq, h2]; simp)
        have hb : blockOps env i e = setOps e.dest s (copyTmp e.dest (env.uuidC i)) := by unfold blockOps; simp only [ho, hs]
        rw [hb] at hin1 ⊢
        refine setOps_ok (slot_of hg hp hi hf hin1) hne ?_ hup ht hsup (fun k hk => hfit.place e (by simp) hset s k hs hk)
        rcases hfit.parent e (by simp) hset with ⟨e', he', hset', hd, _⟩ | ⟨h, _⟩
        · have hb := dropLast_below hne
          rcases List.mem_cons.1 he' with rfl | he'
          · exact absurd hd (fun h => hb.ne h.symm)
          · have := hasc e' he' (Or.inl hset) (Or.inl hset')
            rw [hd] at this
            exact absurd (path_lt_of_below hb) (lt_asymm this)
        · exact h
    rw [applyOps_cons, run_append]
    cases hrun : run (blockOps env i e) st with
    | mk st1 x =>
    rw [hrun] at hok
    simp only at hok
    subst hok
    simp only
    have hB := block_run hg hp ha hi hin1 hrun
    have hi1 := block_inv hg hp ha hi hin1 hrun
    have hu1 : st1.upper = st.upper := by have := run_upper (blockOps_noClean env i e) st; rw [hrun] at this; exact this
    refine ih (ha.tail hu1) hi1 (List.pairwise_cons.1 has).2 hin2 ⟨fun e' he' => hfit.noRen e' (by simp [he']), ?_, ?_⟩
    · intro e2 he2 hset2
      have hf2 := ha.fr e2 (by simp [he2])
      rcases hfit.parent e2 (by simp [he2]) hset2 with ⟨e', he', hset', hd, hsd⟩ | ⟨h1, h2⟩
      · rcases List.mem_cons.1 he' with rfl | he'
        · right
          cases hB with
          | set s _ hst _ hn _ =>
            obtain ⟨n, hn, hk, _⟩ := hn
            refine ⟨FS.isDirAt_iff.2 ⟨n, by rw [← hd]; exact hn, ?_⟩, fun e3 he3 hs3 => ?_⟩
            · have := hsd s hst
              unfold Node.isDir at this ⊢
              rw [hk]; exact this
            · rw [← hd]
              exact (hasc e3 he3 (Or.inl hset') (Or.inl hs3)).ne'
          | ren _ ho _ _ => obtain ⟨ty, h⟩ := hset'; rw [ho] at h; cases h
          | skip h _ _ => exact absurd hset' h
        · left; exact ⟨e', he', hset', hd, hsd⟩
      · right
        refine ⟨?_, fun e' he' => h2 e' (by simp [he'])⟩
        rw [← h1]
        refine FS.isDirAt_congr ?_
        cases hB with
        | set s hset _ hag _ _ =>
          refine hag _ (fun h => h2 e (by simp) hset h.symm) ?_
          intro h
          obtain ⟨x, hx, hm⟩ := copyTmp_ATmp hg hf i
          rw [← h] at hm
          exact copyName_notin_dest hg hx hf2 (List.dropLast_subset _ hm)
        | ren _ ho _ _ => exact absurd ho (hfit.noRen e (by simp))
        | skip _ _ h => rw [h]
    · intro e2 he2 hset2 s k hs hk
      have hf2 := ha.fr e2 (by simp [he2])
      refine hfit.place e2 (by simp [he2]) hset2 s k hs ?_
      rw [← hk]
      symm
      cases hB with
      | set s hset _ hag _ _ =>
        refine hag _ (hasc e2 he2 (Or.inl hset) (Or.inl hset2)).ne' ?_
        intro h
        obtain ⟨x, hx, hm⟩ := copyTmp_ATmp hg hf i
        rw [← h] at hm
        exact copyName_notin_dest hg hx hf2 hm
      | ren _ ho _ _ => exact absurd ho (hfit.noRen e (by simp))
      | skip _ _ h => rw [h]

/-- If the operations of one `Set` succeed, its parent was a directory and what was at its place could be replaced. -/
theorem setOps_conv {d t : Path} {s : Details} {st st' : State} (h : Slot d t st.lower) (hne : d ≠ []) (hs : st.upper.get s.path = some s.node)
    (ht : st.lower.get t = none) (hsup : s.node.supported = true) (hr : run (setOps d s t) st = (st', none)) :
    st.lower.isDirAt d.dropLast = true ∧ ∀ k, st.lower.get d = some k → k.isDir = s.node.isDir := by
  obtain ⟨hw', hag, ⟨n, hn, _⟩, _⟩ := setOps_run h hs ht hsup hr
  have hb := dropLast_below hne
  refine ⟨?_, fun k hk => ?_⟩
  · obtain ⟨g1, g2⟩ := h.ne_of_below hb
    rw [← hw'.chain hn _ hb]
    exact (FS.isDirAt_congr (hag _ g1 g2)).symm
  · unfold setOps at hr
    split at hr
    · next hreg =>
      have hnd : s.node.isDir = false := by
        unfold Node.isReg at hreg; unfold Node.isDir
        cases hk : s.node.kind <;> simp_all [Kind.isReg]
      obtain ⟨st1, he, hr⟩ := run_cons hr
      rcases exec_cp hs he with ⟨_, hx⟩ | ⟨c, fs, hkk, hfs, rfl, _⟩
      · exact absurd rfl hx
      · obtain ⟨n, rfl, hkn, _, hw1, _⟩ := FS.writeFile_plain h.wf h.nt h.noLinkT hfs
        have s1 := h.step hw1 (agree_set (Or.inr rfl))
        obtain ⟨st2, he, hr⟩ := run_cons hr
        simp only [exec] at he
        obtain ⟨gs, hgs, rfl⟩ := run_liftLower he
        obtain ⟨_, _, _, _, hm⟩ := slot_mv s1 (FS.get_set_self _ _ _) (by simp [Node.isDir, hkn]) hgs
        rw [hnd]
        exact hm k (by rw [FS.get_set, if_neg h.ne]; exact hk)
    · next hreg =>
      split at hr
      · next hlnk =>
        have hnd : s.node.isDir = false := by
          unfold Node.isLnk at hlnk; unfold Node.isDir
          cases hk : s.node.kind <;> simp_all [Kind.isLnk]
        obtain ⟨st1, he, hr⟩ := run_cons hr
        simp only [exec, FS.lstat_chain h.nd (h.wf.chain hk), hk] at he
        obtain ⟨fs, hfs, rfl⟩ := run_liftLower he
        obtain ⟨_, _, n, hn, hd⟩ := FS.unlink_plain h.wf h.nd h.noLink hfs
        rw [hk] at hn; cases hn
        rw [hd, hnd]
      · next hlnk =>
        have hdk : s.node.kind = .dir := by
          unfold Node.supported at hsup
          simp only [hreg, hlnk, Bool.false_or, Bool.or_false] at hsup
          simpa [Node.isDir] using hsup
        have hd : s.node.isDir = true := by unfold Node.isDir; rw [hdk]; rfl
        rw [hd]
        obtain ⟨st1, he, hr⟩ := run_cons hr
        simp only [exec] at he
        split at he
        · next hdir =>
          cases he
          obtain ⟨_, _, _, _, _, hl⟩ := permOps_run h hk hr
          have hkl := (hl (by simpa using hlnk)).2
          unfold FS.pisDir at hdir
          rw [FS.stat_chain h.nd h.wf.root (h.wf.chain hk) (fun n hn => by rw [hk] at hn; cases hn; exact hkl), hk] at hdir
          exact hdir
        · obtain ⟨gs, hgs, _⟩ := run_liftLower he
          obtain ⟨_, _, hno⟩ := FS.mkdir_plain h.wf h.nd h.noLink hgs
          rw [hk] at hno; cases hno

theorem phaseA_conv (hg : Good env host sel) (hp : PlainOps all G) : ∀ {l : List Entry} {i : Nat} {st st' : State}, AList env st sel l →
    AInv env sel all G l st.lower → Ascending l → (∀ op ∈ applyOps env i l, op ∈ all) → (∀ e ∈ l, e.op ≠ .rename) →
    run (applyOps env i l) st = (st', none) → Fits l st.lower := by
  intro l
  induction l with
  | nil => intro i st st' _ _ _ _ _ _; exact ⟨by simp, by simp, by simp⟩
  | cons e r ih =>
    intro i st st' ha hi has hin hnr h
    rw [applyOps_cons, run_append] at h
    have hin1 : ∀ op ∈ blockOps env i e, op ∈ all := fun op ho => hin op (by rw [applyOps_cons]; simp [ho])
    have hin2 : ∀ op ∈ applyOps env (i + 1) r, op ∈ all := fun op ho => hin op (by rw [applyOps_cons]; simp [ho])
    have hf := ha.fr e (by simp)
    have hasc := (List.pairwise_cons.1 has).1
    cases hrun : run (blockOps env i e) st with
    | mk st1 x =>
    rw [hrun] at h
    cases x with
    | some x => simp at h
    | none =>
    simp only at h
    have hB := block_run hg hp ha hi hin1 hrun
    have hi1 := block_inv hg hp ha hi hin1 hrun
    have hu1 : st1.upper = st.upper := by have := run_upper (blockOps_noClean env i e) st; rw [hrun] at this; exact this
    have hT := ih (ha.tail hu1) hi1 (List.pairwise_cons.1 has).2 hin2 (fun e' he' => hnr e' (by simp [he'])) h
    -- paths of later sets are not affected by the head's block
    have same : ∀ e2 ∈ r, ∀ q, (∀ x, x ∈ q → x ∈ e2.dest) → (Spec.IsSet e → q ≠ e.dest) → st1.lower.get q = st.lower.get q := by
      intro e2 he2 q hsub hq
      have hf2 := ha.fr e2 (by simp [he2])
      cases hB with
      | set s hset _ hag _ _ =>
        refine hag _ (hq hset) ?_
        intro h
        obtain ⟨x, hx, hm⟩ := copyTmp_ATmp hg hf i
        rw [← h] at hm
        exact copyName_notin_dest hg hx hf2 (hsub x hm)
      | ren _ ho _ _ => exact absurd ho (hnr e (by simp))
      | skip _ _ h => rw [h]
    have head : Spec.IsSet e → st.lower.isDirAt e.dest.dropLast = true ∧ ∀ s k, e.staged = some s → st.lower.get e.dest = some k → k.isDir = s.node.isDir := by
      rintro ⟨ty, ho⟩
      obtain ⟨s, hs, hsup, hup⟩ := ha.set e (by simp) ⟨ty, ho⟩
      obtain ⟨hN, hne, e0, h0, _, h2, _⟩ := dest_facts hg hf
      have ht : st.lower.get (copyTmp e.dest (env.uuidC i)) = none :=
        hi.noCopy _ ⟨i, e0, h0, rfl⟩ _ (by rw [copyTmp_eq, h2]; simp)
      have hb : blockOps env i e = setOps e.dest s (copyTmp e.dest (env.uuidC i)) := by unfold blockOps; simp only [ho, hs]
      rw [hb] at hin1 hrun
      obtain ⟨g1, g2⟩ := setOps_conv (slot_of hg hp hi hf hin1) hne hup ht hsup hrun
      exact ⟨g1, fun s' k hs' hk => by rw [hs] at hs'; cases hs'; exact g2 k hk⟩
    refine ⟨hnr, fun e2 he2 hset2 => ?_, fun e2 he2 hset2 s k hs hk => ?_⟩
    · rcases List.mem_cons.1 he2 with rfl | he2
      · right
        refine ⟨(head hset2).1, fun e' he' hset' => ?_⟩
        obtain ⟨_, hne, _⟩ := dest_facts hg hf
        have hb := dropLast_below hne
        rcases List.mem_cons.1 he' with rfl | he'
        · exact fun h => hb.ne h.symm
        · intro hd
          have := hasc e' he' (Or.inl hset2) (Or.inl hset')
          rw [hd] at this
          exact absurd (path_lt_of_below hb) (lt_asymm this)
      · rcases hT.parent e2 he2 hset2 with ⟨e', he', h'⟩ | ⟨h1, h2⟩
        · left; exact ⟨e', by simp [he'], h'⟩
        · by_cases hpe : Spec.IsSet e ∧ e.dest = e2.dest.dropLast
          · left
            refine ⟨e, by simp, hpe.1, hpe.2, fun s hs => ?_⟩
            cases hB with
            | set s' _ hst _ hn _ =>
              rw [hs] at hst; cases hst
              obtain ⟨n, hn, hk, _⟩ := hn
              obtain ⟨n', hn', hd'⟩ := FS.isDirAt_iff.1 h1
              rw [← hpe.2, hn] at hn'; cases hn'
              unfold Node.isDir at hd' ⊢
              rw [← hk]; exact hd'
            | ren _ ho _ _ => exact absurd ho (hnr e (by simp))
            | skip h _ _ => exact absurd hpe.1 h
          · right
            refine ⟨?_, fun e' he' hset' => ?_⟩
            · rw [← h1]
              exact (FS.isDirAt_congr (same e2 he2 _ (fun x hx => List.dropLast_subset _ hx) (fun hset h => hpe ⟨hset, h.symm⟩))).symm
            · rcases List.mem_cons.1 he' with rfl | he'
              · exact fun h => hpe ⟨hset', h⟩
              · exact h2 e' he' hset'
    · rcases List.mem_cons.1 he2 with rfl | he2
      · exact (head hset2).2 s k hs hk
      · refine hT.place e2 he2 hset2 s k hs ?_
        rw [same e2 he2 _ (fun x hx => hx) (fun hset => (hasc e2 he2 (Or.inl hset) (Or.inl hset2)).ne'), hk]

end

/-- If the removal pass succeeds, nothing is listed twice, no directory is a mount point, and the set is closed below. -/
theorem removes_conv : ∀ (l : List Entry) (st st' : State), st.lower.WF →
    (∀ e ∈ l, e.op = .remove ∧ NormalPath e.dest ∧ st.lower.NoLinkAbove e.dest ∧ ∃ n, e.source = some ⟨e.dest, n⟩ ∧ n.supported = true ∧
      (∀ k, st.lower.get e.dest = some k → k = n)) →
    run (removeOps l) st = (st', none) →
    l.Pairwise (fun e e' => e.dest ≠ e'.dest) ∧
    (∀ e ∈ l, ∃ n, st.lower.get e.dest = some n ∧ (n.isDir = true → ∀ m, st.lower.get e.dest.dropLast = some m → m.dev = n.dev)) ∧
    (∀ e ∈ l, ∀ q ∈ st.lower.keys, e.dest <+: q → ∃ e' ∈ l, e'.dest = q) := by
  intro l
  induction l with
  | nil => intro st st' _ _ _; exact ⟨.nil, by simp, by simp⟩
  | cons e r ih =>
    intro st st' hw hl h
    obtain ⟨ho, hN, hnl, n, hs, hk, hsame⟩ := hl e (by simp)
    have hops : removeOps (e :: r) = (if n.isReg || n.isLnk then Op.rm e.dest else .rmdir e.dest) :: removeOps r := by
      unfold removeOps
      rw [List.flatMap_cons, ho, hs]
      simp only
      split <;> rfl
    rw [hops] at h
    obtain ⟨st1, he, h⟩ := run_cons h
    -- the head
    have key : ∃ hg : st.lower.get e.dest = some n, st1 = { st with lower := st.lower.del e.dest } ∧ (st.lower.del e.dest).WF ∧ (∀ q, Below e.dest q → st.lower.get q = none) ∧
        (n.isDir = true → ∀ m, st.lower.get e.dest.dropLast = some m → m.dev = n.dev) := by
      by_cases hd : n.isDir = true
      · have : (n.isReg || n.isLnk) = false := by
          unfold Node.isDir at hd; unfold Node.isReg Node.isLnk; simp at hd; rw [hd]; rfl
        rw [this] at he
        simp only [Bool.false_eq_true, if_false, exec] at he
        obtain ⟨fs, hfs, rfl⟩ := run_liftLower he
        obtain ⟨rfl, hw1, ⟨k, hgk, _⟩, hbel⟩ := FS.rmdir_plain hw hN hnl hfs
        have := hsame k hgk
        subst this
        refine ⟨hgk, rfl, hw1, hbel, fun _ m hm => ?_⟩
        unfold FS.rmdir at hfs
        rw [FS.canon_chain hN (hw.chain hgk)] at hfs
        simp only [hgk, hd] at hfs
        by_contra hdev
        have hmp : st.lower.mountPoint e.dest = true := by
          unfold FS.mountPoint FS.devOf
          rw [hgk, hm]
          simp only [bne_iff_ne, ne_eq]
          exact fun h => hdev h.symm
        rw [hmp] at hfs
        split at hfs <;> simp at hfs
      · have : (n.isReg || n.isLnk) = true := by
          unfold Node.supported at hk; simp [hd] at hk ⊢; exact hk
        rw [this] at he
        simp only [if_true, exec] at he
        obtain ⟨fs, hfs, rfl⟩ := run_liftLower he
        obtain ⟨rfl, hw1, k, hgk, hkd⟩ := FS.unlink_plain hw hN hnl hfs
        have := hsame k hgk
        subst this
        exact ⟨hgk, rfl, hw1, fun q hq => hw.no_child hgk hkd hq, fun h => absurd h hd⟩
    obtain ⟨hg, rfl, hw1, hnb, hdev⟩ := key
    have hget : ∀ q, q ≠ e.dest → (st.lower.del e.dest).get q = st.lower.get q := by
      intro q hq
      rw [FS.get_del, if_neg (Ne.symm hq)]
    have hget' : ∀ q k, (st.lower.del e.dest).get q = some k → st.lower.get q = some k ∧ q ≠ e.dest := by
      intro q k hq
      rw [FS.get_del] at hq
      split at hq
      · cases hq
      · next h => exact ⟨hq, Ne.symm h⟩
    obtain ⟨t1, t2, t3⟩ := ih { st with lower := st.lower.del e.dest } st' hw1 (fun e' he' => by
      obtain ⟨ho', hN', hnl', n', hs', hk', hsame'⟩ := hl e' (by simp [he'])
      exact ⟨ho', hN', fun y hy k hk => hnl' y hy k (hget' _ _ hk).1, n', hs', hk', fun k hk => hsame' k (hget' _ _ hk).1⟩) h
    refine ⟨List.pairwise_cons.2 ⟨fun e' he' hd => ?_, t1⟩, fun e' he' => ?_, fun e' he' q hq hpre => ?_⟩
    · obtain ⟨k, hk', _⟩ := t2 e' he'
      exact (hget' _ _ hk').2 hd.symm
    · rcases List.mem_cons.1 he' with rfl | he'
      · exact ⟨n, hg, hdev⟩
      · obtain ⟨k, hk', hkd⟩ := t2 e' he'
        refine ⟨k, (hget' _ _ hk').1, fun hd m hm => hkd hd m ?_⟩
        have hne : e'.dest.dropLast ≠ e.dest := by
          intro hpe
          by_cases h0 : e'.dest = []
          · rw [h0] at hpe
            have h1 := (hget' _ _ hk').2
            rw [h0] at h1
            exact h1 hpe
          · have h2 := hw1.chain hk' _ (dropLast_below h0)
            obtain ⟨x, hx, _⟩ := FS.isDirAt_iff.1 h2
            exact (hget' _ _ hx).2 hpe
        show (st.lower.del e.dest).get _ = _
        rw [hget _ hne]; exact hm
    · rcases List.mem_cons.1 he' with rfl | he'
      · by_cases hqe : q = e'.dest
        · exact ⟨e', by simp, hqe.symm⟩
        · obtain ⟨k, hk'⟩ := FS.mem_keys.1 hq
          rw [hnb q (below_iff.2 ⟨hpre, fun h => hqe h.symm⟩)] at hk'; cases hk'
      · by_cases hqe : q = e.dest
        · exact ⟨e, by simp, hqe.symm⟩
        · obtain ⟨k, hk'⟩ := FS.mem_keys.1 hq
          obtain ⟨e2, he2, h2⟩ := t3 e' he' q (FS.mem_keys.2 ⟨k, by show (st.lower.del e.dest).get q = _; rw [hget _ hqe, hk']⟩) hpre
          exact ⟨e2, by simp [he2], h2⟩

end SB
