import Verif.Lib.AttrsLemmas
import Verif.Lib.HostPlain

/-! Labels of the files that accept sets (proof machinery for C116). -/

namespace SB

theorem permOps_label {d t : Path} {st st' : State} {n m : Node} (h : Slot d t st.lower) (hn : st.lower.get d = some n)
    (hr : run (permOps d m) st = (st', none)) : ∃ n', st'.lower.get d = some n' ∧ n'.redirect = n.redirect := by
  unfold permOps at hr
  obtain ⟨st1, he, hr⟩ := run_cons hr
  simp only [exec] at he
  obtain ⟨fs, hfs, rfl⟩ := run_liftLower he
  obtain ⟨n0, hn0, hw1, rfl⟩ := FS.chown_plain h.wf h.nd h.noLink hfs
  rw [hn] at hn0; cases hn0
  have s1 := h.step hw1 (agree_set (t := t) (Or.inl rfl))
  split at hr
  · simp only [run, Prod.mk.injEq, and_true] at hr
    subst hr
    exact ⟨_, FS.get_set_self _ _ _, rfl⟩
  · obtain ⟨st2, he, hr⟩ := run_cons hr
    simp only [run, Prod.mk.injEq, and_true] at hr
    subst hr
    simp only [exec] at he
    obtain ⟨fs, hfs, rfl⟩ := run_liftLower he
    obtain ⟨n1, hn1, hl1, hw2, rfl⟩ := FS.chmod_plain s1.wf s1.nd s1.noLink hfs
    rw [FS.get_set, if_pos rfl] at hn1
    cases hn1
    exact ⟨_, FS.get_set_self _ _ _, rfl⟩

theorem writeFile_new {fs gs : FS} {p : Path} {d : Str} {m : Nat} (hw : fs.WF) (hN : NormalPath p) (hl : fs.NoLinkAbove p) (h0 : fs.get p = none) (h : fs.writeFile p d m = .ok gs) :
    gs = fs.set p { kind := .reg d, perm := m, dev := fs.devOf p.dropLast } ∧ gs.WF := by
  obtain ⟨_, _, _, _, hw', _⟩ := FS.writeFile_plain hw hN hl h
  refine ⟨?_, hw'⟩
  unfold FS.writeFile at h
  cases hc : fs.canon p with
  | error e => rw [hc] at h; cases h
  | ok c =>
    rw [hc] at h
    obtain ⟨rfl, hch⟩ := FS.canon_ok_chain hw hN hl hc
    dsimp only at h
    rw [h0] at h
    cases h
    rfl

/-- The label of what a `Set` leaves. -/
theorem setOps_label {d t : Path} {s : Details} {st st' : State} (h : Slot d t st.lower) (hs : st.upper.get s.path = some s.node)
    (ht : st.lower.get t = none) (hsup : s.node.supported = true) (hr : run (setOps d s t) st = (st', none)) :
    ∃ n, st'.lower.get d = some n ∧ (s.node.isDir = false → n.redirect = none) ∧ (s.node.isDir = true → n.redirect = (st.lower.get d).elim none (·.redirect)) := by
  unfold setOps at hr
  split at hr
  · rename_i hreg
    have hnd : s.node.isDir = false := by
      unfold Node.isReg Kind.isReg at hreg
      unfold Node.isDir
      cases hk : s.node.kind <;> rw [hk] at hreg <;> simp at hreg ⊢
    obtain ⟨st1, he, hr⟩ := run_cons hr
    rcases exec_cp hs he with ⟨_, hx⟩ | ⟨c, fs, hk, hfs, rfl, _⟩
    · exact absurd rfl hx
    · obtain ⟨rfl, hw1⟩ := writeFile_new h.wf h.nt h.noLinkT ht hfs
      have s1 := h.step hw1 (agree_set (Or.inr rfl))
      obtain ⟨st2, he, hr⟩ := run_cons hr
      simp only [exec] at he
      obtain ⟨gs, hgs, rfl⟩ := run_liftLower he
      obtain ⟨hw2, ha2, hd2, ht2, _⟩ := slot_mv s1 (FS.get_set_self _ _ _) (by simp [Node.isDir]) hgs
      obtain ⟨n', h1, h2⟩ := permOps_label (st := ⟨gs, st.upper⟩) (s1.step hw2 ha2) hd2 hr
      exact ⟨n', h1, fun _ => h2, fun h => by rw [hnd] at h; cases h⟩
  · rename_i hreg
    split at hr
    · rename_i hlnk
      obtain ⟨tg, hk⟩ : ∃ tg, s.node.kind = .lnk tg := by
        unfold Node.isLnk Kind.isLnk at hlnk
        cases hk : s.node.kind <;> rw [hk] at hlnk <;> simp at hlnk
        exact ⟨_, rfl⟩
      have hnd : s.node.isDir = false := by simp [Node.isDir, hk]
      obtain ⟨st1, he, hr⟩ := run_cons hr
      obtain ⟨st2, he2, hr⟩ := run_cons hr
      have h1 : st1.upper = st.upper ∧ Slot d t st1.lower := by
        simp only [exec] at he
        split at he
        · obtain ⟨fs, hfs, rfl⟩ := run_liftLower he
          obtain ⟨rfl, hw, _⟩ := FS.unlink_plain h.wf h.nd h.noLink hfs
          exact ⟨rfl, h.step hw (agree_del (Or.inl rfl))⟩
        · cases he; exact ⟨rfl, h⟩
        · cases he
      simp only [exec, h1.1, hs, hk] at he2
      obtain ⟨gs, hgs, rfl⟩ := run_liftLower he2
      obtain ⟨rfl, hw2, _⟩ := FS.symlink_plain h1.2.wf h.nd h1.2.noLink hgs
      obtain ⟨n', g1, g2⟩ := permOps_label (h1.2.step hw2 (agree_set (Or.inl rfl))) (FS.get_set_self _ _ _) hr
      exact ⟨n', g1, fun _ => g2, fun h => by rw [hnd] at h; cases h⟩
    · rename_i hlnk
      have hdk : s.node.isDir = true := by
        unfold Node.supported at hsup
        simp only [hreg, hlnk, Bool.false_or, Bool.or_false] at hsup
        simpa using hsup
      obtain ⟨st1, he, hr⟩ := run_cons hr
      simp only [exec] at he
      split at he
      · rename_i hdir
        cases he
        cases hg : st.lower.get d with
        | none =>
          unfold permOps at hr
          obtain ⟨st2, he, _⟩ := run_cons hr
          simp only [exec] at he
          obtain ⟨gs, hgs, _⟩ := run_liftLower he
          obtain ⟨n, hn, _⟩ := FS.chown_plain h.wf h.nd h.noLink hgs
          rw [hg] at hn; cases hn
        | some n1 =>
          obtain ⟨n', g1, g2⟩ := permOps_label h hg hr
          exact ⟨n', g1, (fun h => by rw [hdk] at h; cases h), fun _ => g2⟩
      · obtain ⟨gs, hgs, rfl⟩ := run_liftLower he
        obtain ⟨rfl, hw2, h0⟩ := FS.mkdir_plain h.wf h.nd h.noLink hgs
        obtain ⟨n', g1, g2⟩ := permOps_label (h.step hw2 (agree_set (Or.inl rfl))) (FS.get_set_self _ _ _) hr
        exact ⟨n', g1, fun _ => g2, fun _ => by rw [g2, h0]; rfl⟩

theorem applyOps_append (env : Env) : ∀ (x y : List Entry) (i : Nat), applyOps env i (x ++ y) = applyOps env i x ++ applyOps env (i + x.length) y := by
  intro x
  induction x with
  | nil => intro y i; simp [applyOps]
  | cons e x ih =>
    intro y i
    rw [List.cons_append, applyOps_cons, applyOps_cons, ih, List.append_assoc]
    congr 3
    simp only [List.length_cons]
    omega

section
variable {env : Env} {host : FS} {sel : List Entry} {all : List Op} {G : FS}

theorem ainv_run (hg : Good env host sel) (hp : PlainOps all G) : ∀ {x y : List Entry} {i : Nat} {st st' : State}, AList env st sel (x ++ y) → AInv env sel all G (x ++ y) st.lower →
    (∀ op ∈ applyOps env i x, op ∈ all) → run (applyOps env i x) st = (st', none) → AList env st' sel y ∧ AInv env sel all G y st'.lower := by
  intro x
  induction x with
  | nil =>
    intro y i st st' ha hi _ h
    cases h
    exact ⟨ha, hi⟩
  | cons e x ih =>
    intro y i st st' ha hi hin h
    rw [applyOps_cons, run_append] at h
    have hin1 : ∀ op ∈ blockOps env i e, op ∈ all := fun op ho => hin op (by rw [applyOps_cons]; simp [ho])
    have hin2 : ∀ op ∈ applyOps env (i + 1) x, op ∈ all := fun op ho => hin op (by rw [applyOps_cons]; simp [ho])
    cases hb : run (blockOps env i e) st with
    | mk st1 z =>
    rw [hb] at h
    cases z with
    | some z => simp at h
    | none =>
    simp only at h
    have hi1 := block_inv hg hp ha hi hin1 hb
    have hu1 : st1.upper = st.upper := by have := run_upper (blockOps_noClean env i e) st; rw [hb] at this; exact this
    exact ih (ha.tail hu1) hi1 hin2 h

theorem run_split {x y : List Op} {st st' : State} (h : run (x ++ y) st = (st', none)) : ∃ s, run x st = (s, none) ∧ run y s = (st', none) := by
  rw [run_append] at h
  cases hx : run x st with
  | mk s e =>
    rw [hx] at h
    cases e with
    | some e => simp at h
    | none => exact ⟨s, rfl, h⟩

/-- The label of a path that accept sets, and where it comes from. -/
theorem phaseA_label (hg : Good env host sel) (hp : PlainOps all G) {pre post : List Entry} {e : Entry} {i : Nat} {st st' : State} (ha : AList env st sel (pre ++ e :: post))
    (hi : AInv env sel all G (pre ++ e :: post) st.lower) (has : Ascending (pre ++ e :: post)) (hin : ∀ op ∈ applyOps env i (pre ++ e :: post), op ∈ all) (hset : Spec.IsSet e)
    (h : run (applyOps env i (pre ++ e :: post)) st = (st', none)) :
    ∃ s n b, e.staged = some s ∧ st'.lower.get e.dest = some n ∧ ADone env sel pre st.lower b ∧ (s.node.isDir = false → n.redirect = none) ∧
      (s.node.isDir = true → n.redirect = (b.get e.dest).elim none (·.redirect)) := by
  rw [applyOps_append] at h hin
  obtain ⟨st1, h1, h⟩ := run_split h
  rw [applyOps_cons] at h hin
  obtain ⟨st2, h2, h3⟩ := run_split h
  have hin1 : ∀ op ∈ applyOps env i pre, op ∈ all := fun op ho => hin op (by simp [ho])
  have hin2 : ∀ op ∈ blockOps env (i + pre.length) e, op ∈ all := fun op ho => hin op (by simp [ho])
  have hin3 : ∀ op ∈ applyOps env (i + pre.length + 1) post, op ∈ all := fun op ho => hin op (by simp [ho])
  have hapre : AList env st sel pre :=
    ⟨fun e he => ha.fr e (by simp [he]), fun e he => ha.ren e (by simp [he]), (List.pairwise_append.1 ha.tmps).1, fun e he => ha.set e (by simp [he])⟩
  have hipre : AInv env sel all G pre st.lower :=
    ⟨hi.wf, hi.links, hi.noCopy, fun e he => hi.tmps e (by simp [he]), fun e he => hi.exist e (by simp [he])⟩
  have hD1 := phaseA_run hg hp hapre hipre (List.pairwise_append.1 has).1 hin1 h1
  obtain ⟨ha1, hi1⟩ := ainv_run hg hp ha hi hin1 h1
  have hi2 := block_inv hg hp ha1 hi1 hin2 h2
  have hu2 : st2.upper = st1.upper := by have := run_upper (blockOps_noClean env (i + pre.length) e) st1; rw [h2] at this; exact this
  have has2 := (List.pairwise_append.1 has).2.1
  have hD3 := phaseA_run hg hp (ha1.tail hu2) hi2 (List.pairwise_cons.1 has2).2 hin3 h3
  have hasc := (List.pairwise_cons.1 has2).1
  have hf := ha1.fr e (by simp)
  have hfin : st'.lower.get e.dest = st2.lower.get e.dest := by
    rw [hD3.other]
    · intro e'' he'' hs''
      exact (hasc e'' he'' (Or.inl hset) (Or.inl hs'')).ne'
    · intro e'' he'' ho'' hpre
      exact absurd (path_le_of_prefix hpre) (not_le_of_gt (hasc e'' he'' (Or.inl hset) (Or.inr ho'')))
    · rintro (⟨e'', he'', ho'', t, ht, hpre⟩ | ⟨x, hx, hm⟩)
      · obtain ⟨s'', j'', hs'', ht''⟩ := ha1.ren e'' (by simp [he'']) ho''
        rw [ht] at ht''; cases ht''
        exact renTmp_ne_dest hg (ha1.fr e'' (by simp [he''])) hf hs'' hpre rfl
      · exact copyName_notin_dest hg hx hf hm
  obtain ⟨s, hs, hsup, hup⟩ := ha1.set e (by simp) hset
  obtain ⟨ty, ho⟩ := hset
  unfold blockOps at h2 hin2
  simp only [ho, hs] at h2 hin2
  obtain ⟨_, _, e0, h0, _, hd0, _⟩ := dest_facts hg hf
  have ht : st1.lower.get (copyTmp e.dest (env.uuidC (i + pre.length))) = none :=
    hi1.noCopy _ ⟨i + pre.length, e0, h0, rfl⟩ _ (by rw [copyTmp_eq, hd0]; simp)
  obtain ⟨n, g1, g2, g3⟩ := setOps_label (slot_of hg hp hi1 hf hin2) hup ht hsup h2
  exact ⟨s, n, st1.lower, hs, by rw [hfin]; exact g1, hD1, g2, g3⟩

/-- The labels of what accept sets. -/
theorem set_label {st : State} (h : Ready env st sel) (hdist : sel.Pairwise (fun e e' => Puts e → Puts e' → e.dest ≠ e'.dest)) {st' : State} (hr : run (applyPlan env sel) st = (st', none))
    {e : Entry} (he : e ∈ sel) (hset : Spec.IsSet e) {s : Details} (hs : e.staged = some s) :
    ∃ n, st'.lower.get e.dest = some n ∧ (s.node.isDir = false → n.redirect = none) ∧
      (s.node.isDir = true → (∀ a d, Spec.Renames sel a d → ¬ d <+: e.dest ∧ ¬ a <+: e.dest) → ¬ Spec.Removes sel e.dest → n.redirect = (st.lower.get e.dest).elim none (·.redirect)) ∧
      (s.node.isDir = true → ∀ a d r, Spec.Renames sel a d → e.dest = d ++ r → (∀ a' d', Spec.Renames sel a' d' → Below d d' → ¬ d' <+: e.dest) → ¬ Spec.Removes sel (a ++ r) →
        (∀ a' d', Spec.Renames sel a' d' → Below a a' → ¬ a' <+: a ++ r) → n.redirect = (st.lower.get (a ++ r)).elim none (·.redirect)) := by
  obtain ⟨st1, st2, h1, h2, h3⟩ := run_phases hr
  obtain ⟨hA, hcw⟩ := afterRM_run h.good h1 h2
  have hlk := hA.links (fun _ h => h)
  obtain ⟨e', he', hc⟩ := mem_of_From (core_c5 env sel) he
  obtain ⟨g1, g2, g3, g4⟩ := core_op hc
  have hset' : Spec.IsSet e' := by unfold Spec.IsSet at *; rw [g1]; exact hset
  obtain ⟨pre, post, hl⟩ := List.append_of_mem he'
  have hal := alist_c5 h (st2 := st2) (by rw [upper_M h2, upper_R h1])
  have hai := ainv_start h h1 h2
  have has := ascending_c5 (env := env) hdist
  have hpl := plain_A h.good hlk
  have hmem : ∀ x ∈ pre, x ∈ (realOrders env sel).2.2 := fun x hx => by rw [hl]; simp [hx]
  have hbig : ∀ x ∈ (realOrders env sel).2.2, x.op = .rename → x.dest <+: e.dest → x ∈ pre := by
    intro x hx ho hp
    have hs2 := has
    rw [hl] at hx hs2
    rcases List.mem_append.1 hx with hx | hx
    · exact hx
    · exfalso
      rcases List.mem_cons.1 hx with rfl | hx
      · obtain ⟨ty, h⟩ := hset'; rw [ho] at h; cases h
      · have := (List.pairwise_cons.1 (List.pairwise_append.1 hs2).2.1).1 x hx (Or.inl hset') (Or.inr ho)
        rw [g2] at this
        exact absurd (path_le_of_prefix hp) (not_le_of_gt this)
  have hne : ∀ x ∈ pre, Spec.IsSet x → x.dest ≠ e.dest := by
    intro x hx hsx
    have hs2 := has
    rw [hl] at hs2
    have := (List.pairwise_append.1 hs2).2.2 x hx e' (by simp) (Or.inl hsx) (Or.inl hset')
    rw [← g2]
    exact this.ne
  have hnt : ¬ ∃ x, TmpName env sel x ∧ x ∈ e.dest := by
    rintro ⟨x, hx, hm⟩
    exact (TmpName.new h.good hx).dest e he hm
  generalize hc5 : (realOrders env sel).2.2 = c5 at *
  subst hl
  obtain ⟨s', n, b, hs', hn, hD, k1, k2⟩ := phaseA_label h.good hpl hal hai has (fun _ h => h) hset' h3
  rw [g4, hs] at hs'
  cases hs'
  rw [g2] at hn k2
  have hat : ¬ ATmp env sel pre e.dest := by
    intro hh
    apply hnt
    refine atmp_name h.good ?_
    rw [hc5]
    rcases hh with ⟨x, hx, hh⟩ | hh
    · exact Or.inl ⟨x, hmem x hx, hh⟩
    · exact Or.inr hh
  obtain ⟨f1, hf1, hM⟩ := hA.done
  refine ⟨n, hn, k1, fun hd hren hrem => ?_, fun hd a d r hren hq hdeep hrem hin => ?_⟩
  · rw [k2 hd, hD.other e.dest hne ?_ hat, hM.other e.dest ?_, if_neg, (hf1 _).2 hrem]
    · rintro ⟨p, hp, hpre⟩
      obtain ⟨d, hd⟩ := (pairs_sources h.good).1 ⟨p, hp, rfl⟩
      exact (hren _ _ hd).2 hpre
    · intro p hp hpre
      obtain ⟨e1, he1, s1, j, ho, hs1, _, h2'⟩ := pairs_c4 h.good hp
      refine hnt ⟨_, Or.inr ⟨j, e1, he1, s1, hs1, rfl⟩, hpre.subset ?_⟩
      rw [h2', renameTmp_eq]; simp
    · intro x hx ho hpre
      obtain ⟨s1, hr1, _⟩ := ren_of_c5 h.good (e := x) (by rw [hc5]; exact hmem x hx) ho
      exact (hren _ _ hr1).1 hpre
  · obtain ⟨e1, he1, ho1, rfl, ⟨x, hx, rfl⟩, t, ht, hp⟩ := ren_c5 h.good hren
    rw [hc5] at he1
    rw [hq] at hne hat hdeep
    rw [k2 hd, hq, hD.moved e1 (hbig e1 he1 ho1 (by rw [hq]; exact List.prefix_append _ _)) ho1 t ht r hne ?_ hat, hM.moved _ hp r, if_neg, (hf1 _).2 hrem]
    · rintro ⟨p, hp, hb, hpre⟩
      obtain ⟨d, hd⟩ := (pairs_sources h.good).1 ⟨p, hp, rfl⟩
      exact hin _ _ hd hb hpre
    · intro y hy ho hb hpre
      obtain ⟨s1, hr1, _⟩ := ren_of_c5 h.good (e := y) (by rw [hc5]; exact hmem y hy) ho
      exact hdeep _ _ hr1 hb hpre

end

end SB
