import Verif.Props.View

/-!
# C71: every path that the sandbox sees differently from the host is listed by status
-/

namespace SB

section
variable {env : Env} {st : State}

/-- What a process in the sandbox sees at a path below a mount point, in terms of what is stored: a stored node that is not a whiteout, else nothing if a stored node
hides the path, else the host's. -/
theorem view_stored (hw : st.lower.WF) (hp : Spec.PlainStorage env st) {m : Name} {mp sub : Path} (hs : Spec.Seen env st m mp (mp ++ sub)) :
    (∀ n, Spec.view st m mp sub = some n → st.upper.get (m :: sub) = some n ∧ Spec.isWhiteout n = false ∨
      st.upper.get (m :: sub) = none ∧ st.lower.get (mp ++ sub) = some n) ∧
    (Spec.view st m mp sub = none → st.lower.get (mp ++ sub) ≠ none → ∃ y n, y ≠ [] ∧ y <+: sub ∧ st.upper.get (m :: y) = some n ∧ Spec.Hiding n ∧
      (y = sub → Spec.isWhiteout n = true)) := by
  obtain ⟨⟨h1, h2, h3⟩, ⟨h4, h5, h6⟩⟩ := hp.mounts m mp hs.stored hs.decode
  have hne : sub ≠ [] := by
    rintro rfl
    have := hs.below
    rw [List.append_nil] at this
    exact not_below_self _ this
  obtain ⟨v1, v2⟩ := view_closed (mp := mp) hw hp.wf (FS.isDirAt_iff.2 ⟨h1, h2, isDir_of_ftype h3⟩) (FS.isDirAt_iff.2 ⟨h4, h5, isDir_of_ftype h6⟩) hp.noRedirects
    (fun q n hg hx => by rw [hp.whiteouts q n hg hx]; decide) sub
  cases hg : st.upper.get (m :: sub) with
  | some k =>
    obtain ⟨v3, v4⟩ := v1 k hg
    cases hwn : Spec.isWhiteout k with
    | false =>
      rw [v4 hwn]
      exact ⟨(fun n hn => by cases hn; exact Or.inl ⟨rfl, hwn⟩), (fun h => by cases h)⟩
    | true =>
      rw [v3 hwn]
      exact ⟨(fun n hn => by cases hn), fun _ _ => ⟨sub, k, hne, List.prefix_refl _, hg, Or.inl hwn, fun _ => hwn⟩⟩
  | none =>
    obtain ⟨v3, v4⟩ := v2 hg
    by_cases hh : HiddenAt st m sub.reverse
    · rw [v3 hh]
      refine ⟨(fun n hn => by cases hn), fun _ _ => ?_⟩
      obtain ⟨y, n, hy, hyp, hyg, hyh⟩ := hh
      rw [List.reverse_reverse] at hyp
      exact ⟨y, n, hy, hyp, hyg, hyh, (fun he => by subst he; rw [hg] at hyg; cases hyg)⟩
    · rw [v4 hh]
      exact ⟨fun n hn => Or.inr ⟨rfl, hn⟩, fun h h' => absurd h h'⟩

/-- The change recorded for a stored path that is not a whiteout. -/
theorem stored_entry (hp : Spec.PlainStorage env st) (hall : Spec.AllSelected env st) {m : Name} {mp sub : Path} {n : Node}
    (hdec : env.decode m = some mp) (hne : sub ≠ []) (hg : st.upper.get (m :: sub) = some n) (hw : Spec.isWhiteout n = false) :
    ∃ e ∈ selected env st, e.dest = mp ++ sub ∧ e.staged = some ⟨m :: sub, n⟩ ∧ e.source = (ifExists st.lower (mp ++ sub)).bind (details st.lower) ∧
      (n.supported = true ∧ Spec.IsSet e ∧ (e.op = .set .modify → hasOpaqueAncestor st (m :: sub) = false) ∨ n.supported = false ∧ e.op = .error .unsupportedFileType) := by
  obtain ⟨ue, hue, hi, hn⟩ := upperEntries_of_kept (kept_all (FS.mem_keys.2 ⟨n, hg⟩) hdec hne) hg
  have hrm : ue.node.isRemoved = false := by
    cases hx : ue.node.isRemoved with
    | false => rfl
    | true => rw [hn, isRemoved_iff_whiteout hp hg, hw] at hx; cases hx
  obtain ⟨e, he⟩ := setsOf_singleton (st := st) hrm
  have hmem : e ∈ setsOf st ue := by rw [he]; simp
  have hsel := hall e (mem_changes.2 ⟨ue, hue, Or.inr hmem⟩)
  obtain ⟨_, h2, h3, h4, _, hx⟩ := mem_setsOf hmem
  have hr := hp.noRedirects _ _ hi.node
  refine ⟨e, hsel, h2.trans hi.lowerPath, by rw [h3, hi.upperPath, hn], by rw [h4, hi.details, hi.source, plain_source hp hg], ?_⟩
  rw [hn] at hx
  rcases hx with ⟨h1, _⟩ | ⟨h1, _⟩ | ⟨_, h1, hx⟩ | ⟨_, h1, hx⟩
  · rw [← hn, hr] at h1; cases h1
  · rw [← hn, hr] at h1; cases h1
  · exact Or.inr ⟨h1, hx⟩
  · refine Or.inl ⟨h1, ⟨_, hx⟩, fun hm => ?_⟩
    rw [hx, hi.upperPath] at hm
    cases ho : hasOpaqueAncestor st (m :: sub) with
    | false => rfl
    | true => rw [ho] at hm; simp at hm

theorem inits_concat {α} (l : List α) (a : α) : (l ++ [a]).inits = l.inits ++ [l ++ [a]] := by
  rw [List.inits_append]
  simp

/-- A directory that the sandbox made in the place of something else is opaque (`ovl_create_over_whiteout` in fs/overlayfs/dir.c sets the attribute). -/
def Spec.OpaqueOver (env : Env) (st : State) : Prop := ∀ m mp sub n k, env.decode m = some mp → sub ≠ [] → st.upper.get (m :: sub) = some n →
  Spec.ftype n.kind = .directory → st.lower.get (mp ++ sub) = some k → Spec.ftype k.kind ≠ .directory → n.opq = true

/-- If the host has nothing at a stored path, but lookup through links finds something, then a stored directory above is opaque. -/
theorem opaque_above (hw : st.lower.WF) (hp : Spec.PlainStorage env st) (ho : Spec.OpaqueOver env st) {m : Name} {mp sub : Path} {n k : Node}
    (hdec : env.decode m = some mp) (hg : st.upper.get (m :: sub) = some n) (hl : st.lower.lstat (mp ++ sub) = .ok k) (hno : st.lower.get (mp ++ sub) = none) :
    hasOpaqueAncestor st (m :: sub) = true := by
  obtain ⟨⟨h1, h2, h3⟩, _⟩ := hp.mounts m mp (stored_root hp hg) hdec
  have hN : NormalPath (mp ++ sub) := by
    intro x hx
    rcases List.mem_append.1 hx with hx | hx
    · exact hw.normal_of_get h2 x hx
    · exact hp.wf.normal_of_get hg x (List.mem_cons_of_mem _ hx)
  by_cases hnl : st.lower.NoLinkAbove (mp ++ sub)
  · exfalso
    unfold FS.lstat at hl
    cases hc : st.lower.canon (mp ++ sub) with
    | error e => rw [hc] at hl; cases hl
    | ok c =>
      rw [hc] at hl
      obtain ⟨rfl, _⟩ := FS.canon_ok_chain hw hN hnl hc
      simp only [hno] at hl
      cases hl
  · unfold FS.NoLinkAbove at hnl
    simp only [not_forall] at hnl
    obtain ⟨y, hy, x, hx, hlk⟩ := hnl
    have hdir : x.isDir = false := by
      unfold Node.isLnk at hlk; unfold Node.isDir
      cases hk : x.kind <;> simp_all [Kind.isLnk]
    have hmy : Below mp y := by
      rcases prefix_total hy.prefix (List.prefix_append mp sub) with h | h
      · exfalso
        by_cases he : y = mp
        · subst he
          rw [h2] at hx; cases hx
          rw [isDir_of_ftype h3] at hdir; cases hdir
        · obtain ⟨z, hz, hzd⟩ := FS.isDirAt_iff.1 (hw.ancestor h2 (below_iff.2 ⟨h, he⟩))
          rw [hx] at hz; cases hz
          rw [hdir] at hzd; cases hzd
      · refine below_iff.2 ⟨h, fun he => ?_⟩
        subst he
        rw [h2] at hx; cases hx
        rw [isDir_of_ftype h3] at hdir; cases hdir
    obtain ⟨r, hr, rfl⟩ := hmy
    obtain ⟨t, ht, htt⟩ := hy
    rw [List.append_assoc] at htt
    have hsub := List.append_cancel_left htt
    subst hsub
    obtain ⟨d, hd, hdd⟩ := FS.isDirAt_iff.1 (hp.wf.ancestor (q := m :: r) hg ⟨t, ht, rfl⟩)
    have hopq := ho m mp r d x hdec hr hd (by unfold Node.isDir at hdd; simp at hdd; rw [hdd]; rfl) hx
      (fun h => by rw [isDir_of_ftype h] at hdir; cases hdir)
    unfold hasOpaqueAncestor
    rw [List.any_eq_true]
    refine ⟨m :: r, ?_, by rw [hd]; exact hopq⟩
    have : m :: (r ++ t) = (m :: r ++ t.dropLast) ++ [t.getLast ht] := by
      rw [List.append_assoc, List.dropLast_append_getLast ht]; rfl
    rw [this, inits_concat, List.dropLast_concat, List.mem_inits]
    exact List.prefix_append _ _

end

theorem status_mem {env : Env} {st : State} {e : Entry} (he : e ∈ selected env st) (hl : Spec.Listed e) : e ∈ (status env st).1 :=
  (C16_status_complete env st).mem_iff.2 (List.mem_filter.2 ⟨he, by simpa using hl⟩)

/-- **C71 (partial)**: whatever a process in the sandbox sees differently from the host is listed by `sandbox status`: a path that is gone in the sandbox as a removal; a
path that is new, or of other type, content, owner, group or mode, as a creation or modification with the node seen in the sandbox (as an error, if it is a device,
socket or pipe).
Missing: renamed directories (they are listed as renames, but with wrong origins in the cases of `C08`), mount points themselves (`C01_refuted_mount_root`), deleted
dangling links (`C01_refuted_dangling`). -/
theorem C71_reported_partial (env : Env) (st : State) (hw : st.lower.WF) (hp : Spec.PlainStorage env st) (hall : Spec.AllSelected env st)
    (hov : Spec.OpaqueOver env st) (m : Name) (mp sub : Path) (hs : Spec.Seen env st m mp (mp ++ sub)) :
    (∀ k, st.lower.get (mp ++ sub) = some k → Spec.view st m mp sub = none → ∃ e ∈ (status env st).1, e.op = .remove ∧ ∃ s, e.source = some s ∧ s.path = mp ++ sub) ∧
    (∀ n, Spec.view st m mp sub = some n → (∀ k, st.lower.get (mp ++ sub) = some k → ¬ Spec.SameNode n k) →
      ∃ e ∈ (status env st).1, e.dest = mp ++ sub ∧ (∃ s, e.staged = some s ∧ s.node = n) ∧
        (Spec.IsSet e ∨ Spec.ftype n.kind ∈ [.charDev, .blockDev, .fifo, .socket] ∧ e.op = .error .unsupportedFileType)) := by
  have hne : sub ≠ [] := by
    rintro rfl
    have := hs.below
    rw [List.append_nil] at this
    exact not_below_self _ this
  obtain ⟨v1, v2⟩ := view_stored hw hp hs
  constructor
  · intro k hk hv
    obtain ⟨y, n, hy, hyp, hyg, hyh, hself⟩ := v2 hv (by rw [hk]; simp)
    obtain ⟨e, he, ho, hs'⟩ := hiding_removes hw hp hall hs.decode hy hyg hyh hk ((List.prefix_append_right_inj mp).2 hyp)
      (fun he => hself (List.append_cancel_left he).symm)
    refine ⟨e, status_mem he ?_, ho, hs'⟩
    rw [listed_iff]
    simp [Entry.isRemove, ho]
  · intro n hv hd
    rcases v1 n hv with ⟨hg, hwn⟩ | ⟨_, hg⟩
    · obtain ⟨e, he, h1, h2, h3, h4⟩ := stored_entry hp hall hs.decode hne hg hwn
      refine ⟨e, status_mem he ?_, h1, ⟨_, h2, rfl⟩, ?_⟩
      · rw [listed_iff]
        rcases h4 with ⟨_, ⟨t, ht⟩, hoa⟩ | ⟨_, ht⟩
        · suffices e.isActuallyModified = true by simp [Entry.isShownSet, ht, this]
          unfold Entry.isActuallyModified
          rw [ht, h2, h3]
          cases t with
          | create => rfl
          | modify =>
            cases hso : (ifExists st.lower (mp ++ sub)).bind (details st.lower) with
            | none => rfl
            | some so =>
              have hso' : st.lower.get (mp ++ sub) = some so.node := by
                unfold ifExists at hso
                split at hso
                · obtain ⟨_, hl⟩ := details_path (by simpa using hso)
                  cases hgl : st.lower.get (mp ++ sub) with
                  | some k =>
                    rw [FS.lstat_chain (hw.normal_of_get hgl) (hw.chain hgl), hgl] at hl
                    simpa using hl
                  | none =>
                    have := opaque_above hw hp hov hs.decode hg hl hgl
                    rw [hoa ht] at this; cases this
                · cases hso
              have hns := hd _ hso'
              simp only
              split
              · rfl
              · split
                · rfl
                · split
                  · rfl
                  · next g1 g2 g3 =>
                    cases hdir : n.isDir with
                    | false => rfl
                    | true =>
                      exfalso
                      apply hns
                      simp only [ne_eq, Decidable.not_not, Bool.not_eq_true', Bool.not_eq_false] at g1 g2 g3
                      unfold Node.isDir at hdir
                      simp only [beq_iff_eq] at hdir
                      unfold sameMode at g3
                      simp only [hdir, Bool.and_eq_true, beq_iff_eq] at g3
                      refine ⟨?_, g2, g1, Or.inr g3.1⟩
                      have := g3.2
                      rw [hdir]
                      cases hk : so.node.kind <;> simp_all
        · simp [Entry.isError, ht]
      · rcases h4 with ⟨_, h4, _⟩ | ⟨h5, h4⟩
        · exact Or.inl h4
        · refine Or.inr ⟨?_, h4⟩
          unfold Node.supported Node.isReg Node.isDir Node.isLnk at h5
          cases hk : n.kind <;> simp_all [Kind.isReg, Kind.isLnk, Spec.ftype]
    · exact absurd ⟨rfl, rfl, rfl, Or.inr rfl⟩ (hd n hg)

theorem plain_view {env : Env} {st : State} (hw : st.lower.WF) (hp : Spec.PlainStorage env st) {m : Name} {mp sub : Path} (hk : [m] ∈ st.upper.keys) (hd : env.decode m = some mp) :
    (∀ n, st.upper.get (m :: sub) = some n → (Spec.isWhiteout n = true → Spec.view st m mp sub = none) ∧ (Spec.isWhiteout n = false → Spec.view st m mp sub = some n)) ∧
    (st.upper.get (m :: sub) = none → (HiddenAt st m sub.reverse → Spec.view st m mp sub = none) ∧
      (¬ HiddenAt st m sub.reverse → Spec.view st m mp sub = st.lower.get (mp ++ sub))) := by
  obtain ⟨⟨h1, h2, h3⟩, ⟨h4, h5, h6⟩⟩ := hp.mounts m mp hk hd
  exact view_closed (mp := mp) hw hp.wf (FS.isDirAt_iff.2 ⟨h1, h2, isDir_of_ftype h3⟩) (FS.isDirAt_iff.2 ⟨h4, h5, isDir_of_ftype h6⟩) hp.noRedirects
    (fun q n hg hx => by rw [hp.whiteouts q n hg hx]; decide) sub

/-- What a removal comes from, by destination. -/
theorem remove_hiding {env : Env} {st : State} (hp : Spec.PlainStorage env st) {e : Entry} (he : e ∈ selected env st) (ho : e.op = .remove) :
    ∃ m mp sub n, env.decode m = some mp ∧ sub ≠ [] ∧ st.upper.get (m :: sub) = some n ∧ Spec.Hiding n ∧ mp ++ sub <+: e.dest := by
  obtain ⟨ue, hue, h | h⟩ := mem_changes.1 (mem_selected he)
  · obtain ⟨m, mp, sub, _, hi⟩ := mem_upperEntries hue
    obtain ⟨sp, hsp, _, hc, _, hd, _⟩ := mem_removesOf h
    have hspe : sp = mp ++ sub := by
      rw [hi.source, plain_source hp hi.node] at hsp
      unfold ifExists at hsp
      split at hsp
      · cases hsp; rfl
      · cases hsp
    subst hspe
    refine ⟨m, mp, sub, ue.node, hi.decode, hi.sub_ne, hi.node, ?_, ?_⟩
    · rcases hc with hc | hc | ⟨hc, _⟩
      · exact Or.inr (Or.inl hc)
      · exact Or.inl ((isRemoved_iff_whiteout hp hi.node).1 hc)
      · refine Or.inr (Or.inr (fun hx => ?_))
        rw [isDir_of_ftype hx] at hc; cases hc
    · rcases hd with ⟨_, hw, _⟩ | ⟨_, hde, _⟩
      · exact mem_walkDir_prefix hw
      · rw [hde]
  · obtain ⟨_, _, _, _, _, hx⟩ := mem_setsOf h
    rcases hx with ⟨_, _, hx⟩ | ⟨_, _, hx⟩ | ⟨_, _, hx⟩ | ⟨_, _, hx⟩ <;> rw [ho] at hx <;> cases hx

/-- **C71**, the other direction: what `sandbox status` lists is true of the sandbox.  A creation or modification lists the node that a process in the sandbox sees at that
path; a removal lists a host path at which the sandbox no longer sees the host's file: it sees nothing there, or something made in the sandbox. -/
theorem C71_true_partial (env : Env) (st : State) (hw : st.lower.WF) (hp : Spec.PlainStorage env st) (e : Entry) (he : e ∈ (status env st).1) :
    (Spec.IsSet e → ∃ m mp sub s, env.decode m = some mp ∧ e.dest = mp ++ sub ∧ e.staged = some s ∧ Spec.view st m mp sub = some s.node) ∧
    (e.op = .remove → ∃ m mp sub, env.decode m = some mp ∧ e.dest = mp ++ sub ∧
      (Spec.view st m mp sub = none ∨ ∃ n, st.upper.get (m :: sub) = some n ∧ Spec.view st m mp sub = some n)) := by
  have hsel : e ∈ selected env st := (List.mem_filter.1 ((C16_status_complete env st).mem_iff.1 he)).1
  constructor
  · intro hs
    obtain ⟨m, mp, sub, n, h1, h2, h3, h4, h5, h6⟩ := set_stored hsel hs
    refine ⟨m, mp, sub, _, h1, h5, h6, ?_⟩
    refine ((plain_view hw hp (sub := sub) (stored_root hp h3) h1).1 n h3).2 ?_
    cases hx : Spec.isWhiteout n with
    | false => rfl
    | true => rw [(isRemoved_iff_whiteout hp h3).2 hx] at h4; cases h4
  · intro ho
    obtain ⟨m, mp, sub, n, h1, h2, h3, h4, r, hr⟩ := remove_hiding hp hsel ho
    obtain ⟨c1, c2⟩ := plain_view hw hp (sub := sub ++ r) (stored_root hp h3) h1
    refine ⟨m, mp, sub ++ r, h1, by rw [← hr, List.append_assoc], ?_⟩
    cases hg : st.upper.get (m :: (sub ++ r)) with
    | some k =>
      cases hx : Spec.isWhiteout k with
      | true => exact Or.inl ((c1 k hg).1 hx)
      | false => exact Or.inr ⟨k, rfl, (c1 k hg).2 hx⟩
    | none =>
      refine Or.inl ((c2 hg).1 ⟨sub, n, h2, ?_, h3, h4⟩)
      rw [List.reverse_reverse]
      exact List.prefix_append _ _

/-! ### A concrete case -/

theorem exView_all : Spec.AllSelected exViewEnv exView := by
  have : selected exViewEnv exView = changes exViewEnv exView := by decide +kernel
  intro e he
  rw [this]
  exact he

/-- Decidable form of `Spec.OpaqueOver`. -/
theorem opaqueOver_of_check {env : Env} {st : State}
    (h : st.upper.all (fun e => match e.1 with
      | [] => true
      | m :: sub => match env.decode m with
        | none => true
        | some mp => match st.upper.get (m :: sub), st.lower.get (mp ++ sub) with
          | some n, some k => n.opq || !n.isDir || k.isDir || sub.isEmpty
          | _, _ => true) = true) : Spec.OpaqueOver env st := by
  intro m mp sub n k hd hne hg hn hk hkd
  have := List.all_eq_true.1 h _ (FS.mem_of_get hg)
  simp only [hd, hg, hk] at this
  have h1 := isDir_of_ftype hn
  have h2 : k.isDir = false := by
    cases hx : k.isDir with
    | false => rfl
    | true => unfold Node.isDir at hx; simp at hx; rw [hx] at hkd; exact absurd rfl hkd
  cases sub with
  | nil => exact absurd rfl hne
  | cons => simpa [h1, h2] using this

theorem exView_over : Spec.OpaqueOver exViewEnv exView := opaqueOver_of_check (by decide +kernel)

theorem exView_seen (x : Name) (r : Path) (h : x ≠ str "u") : Spec.Seen exViewEnv exView (str "F4") [] ([] ++ x :: r) :=
  ⟨by decide +kernel, by decide +kernel, ⟨x :: r, by simp, rfl⟩, fun m' mp' h1 h2 h3 h4 h5 => by
    unfold exViewEnv at h2
    simp only at h2
    split at h2
    · contradiction
    · split at h2
      · cases h2
        obtain ⟨t, ht⟩ := h5
        simp only [List.nil_append, List.cons_append, List.cons.injEq] at ht
        exact h ht.1.symm
      · cases h2⟩

/-- Non-vacuity: the hypotheses hold of a state with new, changed and removed files; both conclusions have instances, among them `d/g` (removed) and `d/f` (changed). -/
example : (∃ e ∈ (status exViewEnv exView).1, e.op = .remove ∧ ∃ s, e.source = some s ∧ s.path = [str "d", str "g"]) ∧
    ∃ e ∈ (status exViewEnv exView).1, e.dest = [str "d", str "f"] ∧ Spec.IsSet e := by
  refine ⟨(C71_reported_partial exViewEnv exView exView_ordinary.wf exView_plain exView_all exView_over (str "F4") [] [str "d", str "g"]
    (exView_seen _ _ (by decide))).1 _ (by decide +kernel : _ = some { kind := .reg (str "2"), dev := 1 }) (by decide +kernel), ?_⟩
  obtain ⟨e, h1, h2, _, h3⟩ := (C71_reported_partial exViewEnv exView exView_ordinary.wf exView_plain exView_all exView_over (str "F4") [] [str "d", str "f"]
    (exView_seen _ _ (by decide))).2 { kind := .reg (str "new"), uid := 7 } (by decide +kernel) (fun k hk hs => by
      have : exView.lower.get ([] ++ [str "d", str "f"]) = some { kind := .reg (str "1"), dev := 1 } := by decide +kernel
      rw [hk] at this; cases this
      exact absurd hs.1 (by decide))
  refine ⟨e, h1, h2, ?_⟩
  rcases h3 with h3 | ⟨h3, _⟩
  · exact h3
  · exact absurd h3 (by decide)

end SB
