import Verif.Lib.MoveOk

/-! When the ascending pass with renames succeeds (proof machinery). -/

namespace SB

/-- Where what will be at `p` is, as long as the changes `l` are still to be carried out (sets at `p` aside): in the temporary of the deepest rename covering it, or at `p`. -/
def Loc (l : List Entry) (p b : Path) : Prop :=
  (∃ e ∈ l, e.op = .rename ∧ ∃ t r, e.tmp = some t ∧ p = e.dest ++ r ∧ b = t ++ r ∧ ∀ e' ∈ l, e'.op = .rename → e'.dest <+: p → e'.dest <+: e.dest) ∨
  (b = p ∧ ∀ e ∈ l, e.op = .rename → ¬ e.dest <+: p)

/-- What the ascending pass needs: every change has a directory to go to, there already or put there before its turn; a renamed path goes to a free place; what is in the
place of a set path can be replaced. -/
def FitsR (l : List Entry) (fs : FS) : Prop :=
  ∀ e ∈ l, (Spec.IsSet e ∨ e.op = .rename) → ∃ b, Loc l e.dest.dropLast b ∧
    ((∃ e' ∈ l, Spec.IsSet e' ∧ e'.dest = e.dest.dropLast ∧ ∀ s, e'.staged = some s → s.node.isDir = true) ∨
      (fs.isDirAt b = true ∧ ∀ e' ∈ l, Spec.IsSet e' → e'.dest ≠ e.dest.dropLast)) ∧
    ∀ x, e.dest = e.dest.dropLast ++ [x] → ∀ k, fs.get (b ++ [x]) = some k → e.op ≠ .rename ∧ ∀ s, e.staged = some s → k.isDir = s.node.isDir

/-- The paths the renames of `l` depend on are on one device, below the directory `M`. -/
structure OnDev (cwd M : Path) (D : Nat) (l : List Entry) (fs : FS) : Prop where
  top : fs.isDirAt M = true
  below : M <+: cwd
  dest : ∀ e ∈ l, e.op = .rename → Below M e.dest
  node : ∀ q n, fs.get q = some n → (M <+: q ∧ (q <+: cwd ∨ ∃ e ∈ l, e.op = .rename ∧ q <+: e.dest)) ∨
    (∃ e ∈ l, e.op = .rename ∧ ∃ t, e.tmp = some t ∧ t <+: q) → n.dev = D

section
variable {env : Env} {host : FS} {sel : List Entry} {all : List Op} {G : FS}

theorem loc_step {e : Entry} {r : List Entry} {i : Nat} {st : State} (hg : Good env host sel) (ha : AList env st sel (e :: r))
    (hi : AInv env sel all G (e :: r) st.lower) (has : Ascending (e :: r)) {fs : FS} (hB : BlockOK env i e st.lower fs) {p b : Path} (hl : Loc (e :: r) p b) :
    ∃ b', Loc r p b' ∧ ∀ y, (Spec.IsSet e → e.dest ≠ p ++ y) → (e.op = .rename → e.dest <+: p ++ y → e.dest <+: p) → (∃ e2 ∈ r, p ++ y <+: e2.dest) →
      fs.get (b' ++ y) = st.lower.get (b ++ y) := by
  have hasc := (List.pairwise_cons.1 has).1
  rcases hl with ⟨e', he', ho', t, r0, ht, rfl, rfl, hdeep⟩ | ⟨rfl, hno⟩
  · rcases List.mem_cons.1 he' with rfl | he'
    · refine ⟨e'.dest ++ r0, Or.inr ⟨rfl, fun e'' he'' ho'' hpre => ?_⟩, fun y _ _ _ => ?_⟩
      · have := hdeep e'' (by simp [he'']) ho'' hpre
        exact absurd (path_le_of_prefix this) (not_le_of_gt (hasc e'' he'' (Or.inr ho') (Or.inr ho'')))
      · cases hB with
        | set _ h _ _ _ _ => obtain ⟨ty, h⟩ := h; rw [ho'] at h; cases h
        | ren t' _ ht' hR =>
          rw [ht] at ht'; cases ht'
          rw [hR.get, List.append_assoc, if_pos (List.prefix_append _ _), List.drop_left, List.append_assoc]
        | skip _ h _ => exact absurd ho' h
    · refine ⟨t ++ r0, Or.inl ⟨e', he', ho', t, r0, ht, rfl, rfl, fun e'' he'' => hdeep e'' (by simp [he''])⟩, fun y _ _ _ => ?_⟩
      exact block_tmps hg ha hB he' ho' ht (hi.exist e' (by simp [he']) ho' t ht) _ (by rw [List.append_assoc]; exact List.prefix_append _ _)
  · refine ⟨b, Or.inr ⟨rfl, fun e' he' => hno e' (by simp [he'])⟩, fun y h1 h2 ⟨e2, he2, hpre⟩ => ?_⟩
    refine block_other (r := r) hg (ha.fr e (by simp)) hB h1 (fun ho hd => hno e (by simp) ho (h2 ho hd)) ?_
    have hf2 := ha.fr e2 (by simp [he2])
    rintro (⟨e', he', ho', t, ht, hpt⟩ | ⟨x, hx, hm⟩)
    · obtain ⟨s, j, hs, ht'⟩ := ha.ren e' he' ho'
      rw [ht] at ht'; cases ht'
      exact renTmp_ne_dest hg (ha.fr e' he') hf2 hs (hpt.trans hpre) rfl
    · exact copyName_notin_dest hg hx hf2 (hpre.subset hm)

theorem onDev_step {e : Entry} {r : List Entry} {i : Nat} {st : State} {M : Path} {D : Nat} (hg : Good env host sel) (ha : AList env st sel (e :: r))
    (hd : OnDev env.cwd M D (e :: r) st.lower) {fs : FS} (hB : BlockOK env i e st.lower fs)
    (hset : Spec.IsSet e → st.lower.isDirAt e.dest.dropLast = true ∧ e.dest ≠ [] ∧
      (∀ s k, e.staged = some s → st.lower.get e.dest = some k → k.isDir = s.node.isDir) ∧
      ∃ n, fs.get e.dest = some n ∧ (n.dev = st.lower.devOf e.dest.dropLast ∨ ∃ k, st.lower.get e.dest = some k ∧ n.dev = k.dev) ∧
        ∀ k, st.lower.get e.dest = some k → k.isDir = true → n.dev = k.dev) : OnDev env.cwd M D r fs := by
  have hf := ha.fr e (by simp)
  have mono : ∀ q, ((M <+: q ∧ (q <+: env.cwd ∨ ∃ e ∈ r, e.op = .rename ∧ q <+: e.dest)) ∨ (∃ e ∈ r, e.op = .rename ∧ ∃ t, e.tmp = some t ∧ t <+: q)) →
      ((M <+: q ∧ (q <+: env.cwd ∨ ∃ e' ∈ e :: r, e'.op = .rename ∧ q <+: e'.dest)) ∨ (∃ e' ∈ e :: r, e'.op = .rename ∧ ∃ t, e'.tmp = some t ∧ t <+: q)) := by
    rintro q (⟨h1, h2 | ⟨e', he', h2⟩⟩ | ⟨e', he', h2⟩)
    · exact Or.inl ⟨h1, Or.inl h2⟩
    · exact Or.inl ⟨h1, Or.inr ⟨e', by simp [he'], h2⟩⟩
    · exact Or.inr ⟨e', by simp [he'], h2⟩
  have htmpM : ∀ e' ∈ e :: r, e'.op = .rename → ∀ t, e'.tmp = some t → ¬ t <+: M := by
    intro e' he' ho' t ht hpre
    obtain ⟨s, j, hs, ht'⟩ := ha.ren e' he' ho'
    rw [ht] at ht'; cases ht'
    have := (hpre.trans hd.below).length_le
    rw [renameTmp_eq, List.length_append, List.length_singleton] at this
    omega
  refine ⟨?_, hd.below, fun e' he' => hd.dest e' (by simp [he']), fun q n hn hK => ?_⟩
  · cases hB with
    | set s hs hst hag hn hct =>
      by_cases hM : M = e.dest
      · obtain ⟨n, hn, hk, _⟩ := hn
        obtain ⟨_, _, hpl, _⟩ := hset hs
        obtain ⟨m, hm, hmd⟩ := FS.isDirAt_iff.1 hd.top
        refine FS.isDirAt_iff.2 ⟨n, hM ▸ hn, ?_⟩
        have := hpl s m hst (hM ▸ hm)
        rw [hmd] at this
        unfold Node.isDir at this ⊢
        rw [hk]; exact this.symm
      · rw [← hd.top]
        refine FS.isDirAt_congr (hag M hM ?_)
        rintro h
        obtain ⟨x, hx, hm⟩ := copyTmp_ATmp hg hf i
        rw [← h] at hm
        obtain ⟨j, e1, h1, rfl⟩ := hx
        exact (hg.fresh.copy j e1 h1).cwd (hd.below.subset hm)
    | ren t ho ht hR =>
      rw [← hd.top]
      refine FS.isDirAt_congr ?_
      rw [hR.get, if_neg (hd.dest e (by simp) ho).not_prefix, if_neg (htmpM e (by simp) ho t ht)]
    | skip _ _ h => rw [h]; exact hd.top
  · cases hB with
    | set s hs hst hag hn' hct =>
      by_cases hq : q = e.dest
      · subst hq
        have hK1 : M <+: e.dest ∧ (e.dest <+: env.cwd ∨ ∃ e' ∈ e :: r, e'.op = .rename ∧ e.dest <+: e'.dest) := by
          rcases mono _ hK with h | ⟨e', he', ho', t, ht, hpre⟩
          · exact h
          · obtain ⟨s', j, hs', ht'⟩ := ha.ren e' he' ho'
            rw [ht] at ht'; cases ht'
            exact absurd rfl (renTmp_ne_dest hg (ha.fr e' he') hf hs' hpre)
        obtain ⟨hpar, hne, hpl, n', hn'', hdv, hdd⟩ := hset hs
        rw [hn] at hn''; cases hn''
        have old : ∀ k, st.lower.get e.dest = some k → k.dev = D := fun k hk => hd.node _ k hk (Or.inl hK1)
        by_cases hM : M = e.dest
        · obtain ⟨m, hm, hmd⟩ := FS.isDirAt_iff.1 hd.top
          rw [hM] at hm
          rw [hdd m hm hmd]
          exact old m hm
        · rcases hdv with hdv | ⟨k, hk, hdv⟩
          · obtain ⟨m, hm, _⟩ := FS.isDirAt_iff.1 hpar
            rw [hdv]
            unfold FS.devOf
            rw [hm]
            refine hd.node _ m hm (Or.inl ⟨prefix_dropLast_of_below (below_iff.2 ⟨hK1.1, hM⟩), ?_⟩)
            rcases hK1.2 with h | ⟨e', he', ho', h⟩
            · exact Or.inl ((List.dropLast_prefix _).trans h)
            · exact Or.inr ⟨e', he', ho', (List.dropLast_prefix _).trans h⟩
          · rw [hdv]; exact old k hk
      · by_cases hqt : q = copyTmp e.dest (env.uuidC i)
        · rw [hqt, hct] at hn; cases hn
        · rw [hag q hq hqt] at hn
          exact hd.node q n hn (mono q hK)
    | ren t ho ht hR =>
      rw [hR.get] at hn
      split at hn
      · exact hd.node _ n hn (Or.inr ⟨e, by simp, ho, t, ht, List.prefix_append _ _⟩)
      · split at hn
        · cases hn
        · exact hd.node q n hn (mono q hK)
    | skip _ _ h => rw [h] at hn; exact hd.node q n hn (mono q hK)

theorem phaseAR_ok (hg : Good env host sel) (hp : PlainOps all G) {M : Path} {D : Nat} : ∀ {l : List Entry} {i : Nat} {st : State}, AList env st sel l →
    AInv env sel all G l st.lower → Ascending l → (∀ op ∈ applyOps env i l, op ∈ all) → FitsR l st.lower →
    ((∃ e ∈ l, e.op = .rename) → OnDev env.cwd M D l st.lower) → (run (applyOps env i l) st).2 = none := by
  intro l
  induction l with
  | nil => intro i st _ _ _ _ _ _; rfl
  | cons e r ih =>
    intro i st ha hi has hin hfit hdev
    have hin1 : ∀ op ∈ blockOps env i e, op ∈ all := fun op ho => hin op (by rw [applyOps_cons]; simp [ho])
    have hin2 : ∀ op ∈ applyOps env (i + 1) r, op ∈ all := fun op ho => hin op (by rw [applyOps_cons]; simp [ho])
    have hf := ha.fr e (by simp)
    obtain ⟨hN, hne, e0, h0, _, h2, _⟩ := dest_facts hg hf
    have hasc := (List.pairwise_cons.1 has).1
    have hlast : e.dest = e.dest.dropLast ++ [e.dest.getLast hne] := (List.dropLast_append_getLast hne).symm
    -- nothing later is at or above the head's parent
    have hnone : (Spec.IsSet e ∨ e.op = .rename) → ∀ e' ∈ e :: r, (Spec.IsSet e' ∨ e'.op = .rename) → ¬ e'.dest <+: e.dest.dropLast := by
      intro hse e' he' hs' hpre
      have hb := below_of_prefix_below hpre (dropLast_below hne)
      rcases List.mem_cons.1 he' with rfl | he'
      · exact not_below_self _ hb
      · exact absurd (path_lt_of_below hb) (lt_asymm (hasc e' he' hse hs'))
    have hhead : (Spec.IsSet e ∨ e.op = .rename) → st.lower.isDirAt e.dest.dropLast = true ∧
        ∀ k, st.lower.get e.dest = some k → e.op ≠ .rename ∧ ∀ s, e.staged = some s → k.isDir = s.node.isDir := by
      intro hse
      obtain ⟨b, hloc, hpar, hpl⟩ := hfit e (by simp) hse
      have hb : b = e.dest.dropLast := by
        rcases hloc with ⟨e', he', ho', t, r0, _, hd, _⟩ | ⟨h, _⟩
        · exact absurd (by rw [hd]; exact List.prefix_append _ _) (hnone hse e' he' (Or.inr ho'))
        · exact h
      subst hb
      refine ⟨?_, fun k hk => hpl _ hlast k (by rw [← hlast]; exact hk)⟩
      rcases hpar with ⟨e', he', hs', hd, _⟩ | ⟨h, _⟩
      · exact absurd (by rw [hd]) (hnone hse e' he' (Or.inl hs'))
      · exact h
    have hok : (run (blockOps env i e) st).2 = none := by
      cases ho : e.op with
      | remove => unfold blockOps; simp only [ho]; rfl
      | error x => unfold blockOps; simp only [ho]; rfl
      | rename =>
        obtain ⟨hpar, hpl⟩ := hhead (Or.inr ho)
        obtain ⟨s, j, hs, ht⟩ := ha.ren e (by simp) ho
        obtain ⟨n, hn⟩ := hi.exist e (by simp) ho _ ht
        have hD := hdev ⟨e, by simp, ho⟩
        have hb : blockOps env i e = [.mv (renameTmp env.cwd s.path e.dest (env.uuidR j)) e.dest] := by unfold blockOps; simp only [ho, ht]
        rw [hb]
        have hdl : (renameTmp env.cwd s.path e.dest (env.uuidR j)).dropLast = env.cwd := by rw [renameTmp_eq, List.dropLast_concat]
        have ht0 : renameTmp env.cwd s.path e.dest (env.uuidR j) ≠ [] := by rw [renameTmp_eq]; simp
        have hcw : st.lower.devOf env.cwd = D := by
          have := hi.wf.chain hn _ (dropLast_below ht0)
          rw [hdl] at this
          obtain ⟨m, hm, _⟩ := FS.isDirAt_iff.1 this
          unfold FS.devOf; rw [hm]
          exact hD.node _ m hm (Or.inl ⟨hD.below, Or.inl (List.prefix_refl _)⟩)
        have hdp : st.lower.devOf e.dest.dropLast = D := by
          obtain ⟨m, hm, _⟩ := FS.isDirAt_iff.1 hpar
          unfold FS.devOf; rw [hm]
          exact hD.node _ m hm (Or.inl ⟨prefix_dropLast_of_below (hD.dest e (by simp) ho), Or.inr ⟨e, by simp, ho, List.dropLast_prefix _⟩⟩)
        have hren := hi.wf.rename_eq hn ht0 hN (isDirAt_parent_chain hi.wf hpar) (by
            cases hk : st.lower.get e.dest with
            | none => rfl
            | some k => exact absurd ho (hpl k hk).1) (by rw [hdl, hcw, hdp]) (fun _ => by
            unfold FS.mountPoint
            rw [hdl, hcw]
            have : n.dev = D := hD.node _ n hn (Or.inr ⟨e, by simp, ho, _, ht, List.prefix_refl _⟩)
            unfold FS.devOf; rw [hn]
            simp [this]) (fun h => renTmp_ne_dest hg hf hf hs h rfl)
        rw [run_none_cons (st1 := { st with lower := st.lower.moveTree (renameTmp env.cwd s.path e.dest (env.uuidR j)) e.dest }) (by simp only [exec, hren, liftLower])]
        rfl
      | set ty =>
        have hset : Spec.IsSet e := ⟨ty, ho⟩
        obtain ⟨hpar, hpl⟩ := hhead (Or.inl hset)
        obtain ⟨s, hs, hsup, hup⟩ := ha.set e (by simp) hset
        have ht : st.lower.get (copyTmp e.dest (env.uuidC i)) = none :=
          hi.noCopy _ ⟨i, e0, h0, rfl⟩ _ (by rw [copyTmp_eq, h2]; simp)
        have hb : blockOps env i e = setOps e.dest s (copyTmp e.dest (env.uuidC i)) := by unfold blockOps; simp only [ho, hs]
        rw [hb] at hin1 ⊢
        exact setOps_ok (slot_of hg hp hi hf hin1) hne hpar hup ht hsup (fun k hk => (hpl k hk).2 s hs)
    rw [applyOps_cons, run_append]
    cases hrun : run (blockOps env i e) st with
    | mk st1 x =>
    rw [hrun] at hok
    simp only at hok
    subst hok
    simp only
    have hB := block_run hg hp ha hi hin1 hrun
    have hi1 := block_inv hg hp ha hi hin1 hrun
    have hu1 : st1.upper = st.upper := by have := run_upper (blockOps_noClean env i e) st; rw [hrun] at this; exact this
    refine ih (ha.tail hu1) hi1 (List.pairwise_cons.1 has).2 hin2 (fun e2 he2 hs2 => ?_) (fun ⟨e2, he2, ho2⟩ => ?_)
    · obtain ⟨b, hloc, hpar, hpl⟩ := hfit e2 (by simp [he2]) hs2
      obtain ⟨_, hne2, _⟩ := dest_facts hg (ha.fr e2 (by simp [he2]))
      obtain ⟨b', hloc', hsame⟩ := loc_step hg ha hi has hB hloc
      refine ⟨b', hloc', ?_, fun x hx k hk => hpl x hx k ?_⟩
      · rcases hpar with ⟨e', he', hs', hd', hsd⟩ | ⟨h, hno⟩
        · rcases List.mem_cons.1 he' with rfl | he'
          · right
            have hb' : b' = e2.dest.dropLast := by
              rcases hloc' with ⟨e3, he3, ho3, t, r0, _, hd, _⟩ | ⟨h, _⟩
              · have hpre : e3.dest <+: e'.dest := by rw [hd', hd]; exact List.prefix_append _ _
                exact absurd (path_le_of_prefix hpre) (not_le_of_gt (hasc e3 he3 (Or.inl hs') (Or.inr ho3)))
              · exact h
            subst hb'
            cases hB with
            | set s _ hst _ hn _ =>
              obtain ⟨n, hn, hk, _⟩ := hn
              refine ⟨FS.isDirAt_iff.2 ⟨n, by rw [← hd']; exact hn, ?_⟩, fun e3 he3 hs3 => ?_⟩
              · have := hsd s hst
                unfold Node.isDir at this ⊢
                rw [hk]; exact this
              · rw [← hd']
                exact (hasc e3 he3 (Or.inl hs') (Or.inl hs3)).ne'
            | ren _ ho _ _ => obtain ⟨ty, h⟩ := hs'; rw [ho] at h; cases h
            | skip h _ _ => exact absurd hs' h
          · left; exact ⟨e', he', hs', hd', hsd⟩
        · right
          refine ⟨?_, fun e' he' => hno e' (by simp [he'])⟩
          obtain ⟨n, hn, hnd⟩ := FS.isDirAt_iff.1 h
          refine FS.isDirAt_iff.2 ⟨n, ?_, hnd⟩
          have := hsame [] (fun hs => by rw [List.append_nil]; exact hno e (by simp) hs) (fun _ h => by rwa [List.append_nil] at h) ⟨e2, he2, by rw [List.append_nil]; exact List.dropLast_prefix _⟩
          rw [List.append_nil, List.append_nil, hn] at this
          exact this
      · rw [← hsame [x] (fun hs => by rw [← hx]; exact (hasc e2 he2 (Or.inl hs) hs2).ne) (fun ho h => ?_) ⟨e2, he2, by rw [← hx]⟩]
        · exact hk
        · rcases List.prefix_concat_iff.1 h with h | h
          · rw [show e2.dest.dropLast ++ [x] = e2.dest from hx.symm] at h
            exact absurd h (hasc e2 he2 (Or.inr ho) hs2).ne
          · exact h
    · refine onDev_step hg ha (hdev ⟨e2, by simp [he2], ho2⟩) hB (fun hset => ?_)
      obtain ⟨hpar, hpl⟩ := hhead (Or.inl hset)
      obtain ⟨s, hs, hsup, hup⟩ := ha.set e (by simp) hset
      have ht : st.lower.get (copyTmp e.dest (env.uuidC i)) = none :=
        hi.noCopy _ ⟨i, e0, h0, rfl⟩ _ (by rw [copyTmp_eq, h2]; simp)
      obtain ⟨ty, ho⟩ := hset
      have hb : blockOps env i e = setOps e.dest s (copyTmp e.dest (env.uuidC i)) := by unfold blockOps; simp only [ho, hs]
      rw [hb] at hin1 hrun
      exact ⟨hpar, hne, fun s k hs hk => (hpl k hk).2 s hs, setOps_dev (slot_of hg hp hi hf hin1) hne hup ht hsup hrun⟩

end

end SB
