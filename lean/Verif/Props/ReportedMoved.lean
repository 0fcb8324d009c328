import Verif.Props.ViewMoved
import Verif.Props.Reported

/-!
# C71 with renamed directories
-/

namespace SB

/-- The host has not changed under the sandbox: where a directory was made in place of something else it is opaque, and the origins of renamed directories are still directories. -/
structure Spec.HostKept (env : Env) (st : State) : Prop where
  over : ∀ m mp sub n k, env.decode m = some mp → sub ≠ [] → st.upper.get (m :: sub) = some n → Spec.ftype n.kind = .directory →
    st.lower.get (Spec.named st m mp sub) = some k → Spec.ftype k.kind ≠ .directory → n.opq = true
  origins : ∀ m mp sub n, env.decode m = some mp → st.upper.get (m :: sub) = some n → n.redirect.isSome = true →
    ∃ k, st.lower.get (Spec.named st m mp sub) = some k ∧ Spec.ftype k.kind = .directory

section
variable {env : Env} {st : State}

/-- A creation or modification that status does not list: the staged node is the same as the source. -/
theorem unlisted_same {e : Entry} {t : SetType} {up : Path} {n : Node} (hop : e.op = .set t) (hst : e.staged = some ⟨up, n⟩) (hl : ¬ Spec.Listed e) :
    t = .modify ∧ ∃ so, e.source = some so ∧ Spec.SameNode n so.node := by
  rw [listed_iff] at hl
  have hm : e.isActuallyModified = false := by
    cases h : e.isActuallyModified with
    | false => rfl
    | true => exact absurd (by simp [Entry.isShownSet, hop, h]) hl
  unfold Entry.isActuallyModified at hm
  rw [hop, hst] at hm
  cases t with
  | create => simp at hm
  | modify =>
    refine ⟨rfl, ?_⟩
    cases hso : e.source with
    | none => rw [hso] at hm; simp at hm
    | some so =>
      refine ⟨so, rfl, ?_⟩
      rw [hso] at hm
      simp only at hm
      split at hm
      · cases hm
      · split at hm
        · cases hm
        · split at hm
          · cases hm
          · next g1 g2 g3 =>
            have hdir : n.isDir = true := by
              cases hdir : n.isDir with
              | true => rfl
              | false => simp [hdir] at hm
            simp only [ne_eq, Decidable.not_not, Bool.not_eq_true', Bool.not_eq_false] at g1 g2 g3
            unfold Node.isDir at hdir
            simp only [beq_iff_eq] at hdir
            unfold sameMode at g3
            simp only [hdir, Bool.and_eq_true, beq_iff_eq] at g3
            refine ⟨?_, g2, g1, Or.inr g3.1⟩
            have := g3.2
            rw [hdir]
            cases hk : so.node.kind <;> simp_all

/-- If the host has nothing at the name of a stored path, but lookup through links finds something, then a stored directory above is opaque. -/
theorem opaque_above_moved (hw : st.lower.WF) (hp : Spec.RedirectStorage env st) (hk : Spec.HostKept env st) {m : Name} {mp sub : Path} {n k : Node}
    (hdec : env.decode m = some mp) (hg : st.upper.get (m :: sub) = some n) (hl : st.lower.lstat (Spec.named st m mp sub) = .ok k)
    (hno : st.lower.get (Spec.named st m mp sub) = none) : hasOpaqueAncestor st (m :: sub) = true := by
  have hm := moved_root hp hg
  obtain ⟨⟨h1, h2, h3⟩, _⟩ := hp.mounts m mp hm hdec
  have hN : NormalPath (Spec.named st m mp sub) := named_normal hw hp hm hdec _
    (fun x hx => hp.wf.normal_of_get hg x (List.mem_cons_of_mem _ (List.mem_reverse.1 hx)))
  obtain ⟨b, r, rfl, hB⟩ := exists_based st m mp sub
  have hbase : ∃ d, st.lower.get (Spec.named st m mp b) = some d ∧ Spec.ftype d.kind = .directory := by
    rcases hB.base with rfl | ⟨u, rd, hu, hrd⟩
    · exact ⟨h1, h2, h3⟩
    · exact hk.origins m mp b u hdec hu (by rw [hrd]; rfl)
  obtain ⟨d, hd1, hd2⟩ := hbase
  rw [hB.named] at hl hno hN
  by_cases hnl : st.lower.NoLinkAbove (Spec.named st m mp b ++ r)
  · exfalso
    unfold FS.lstat at hl
    cases hc : st.lower.canon (Spec.named st m mp b ++ r) with
    | error e => rw [hc] at hl; cases hl
    | ok c =>
      rw [hc] at hl
      obtain ⟨rfl, _⟩ := FS.canon_ok_chain hw hN hnl hc
      simp only [hno] at hl
      cases hl
  · unfold FS.NoLinkAbove at hnl
    simp only [not_forall] at hnl
    obtain ⟨y, hy, x, hx, hlk⟩ := hnl
    have hdir : x.isDir = false := by
      unfold Node.isLnk at hlk; unfold Node.isDir
      cases hk : x.kind <;> simp_all [Kind.isLnk]
    have hmy : Below (Spec.named st m mp b) y := by
      rcases prefix_total hy.prefix (List.prefix_append (Spec.named st m mp b) r) with h | h
      · exfalso
        by_cases he : y = Spec.named st m mp b
        · subst he
          rw [hd1] at hx; cases hx
          rw [isDir_of_ftype hd2] at hdir; cases hdir
        · obtain ⟨z, hz, hzd⟩ := FS.isDirAt_iff.1 (hw.ancestor hd1 (below_iff.2 ⟨h, he⟩))
          rw [hx] at hz; cases hz
          rw [hdir] at hzd; cases hzd
      · refine below_iff.2 ⟨h, fun he => ?_⟩
        subst he
        rw [hd1] at hx; cases hx
        rw [isDir_of_ftype hd2] at hdir; cases hdir
    obtain ⟨z, hz, rfl⟩ := hmy
    obtain ⟨t, ht, htt⟩ := hy
    rw [List.append_assoc] at htt
    have hsub := List.append_cancel_left htt
    subst hsub
    obtain ⟨u, hu, hud⟩ := FS.isDirAt_iff.1 (hp.wf.ancestor (q := m :: (b ++ z)) hg ⟨t, ht, by simp⟩)
    have hnz : Spec.named st m mp (b ++ z) = Spec.named st m mp b ++ z := (hB.prefix (List.prefix_append z t)).named
    have hopq := hk.over m mp (b ++ z) u x hdec (by simp [hz]) hu (by unfold Node.isDir at hud; simp at hud; rw [hud]; rfl) (by rw [hnz]; exact hx)
      (fun h => by rw [isDir_of_ftype h] at hdir; cases hdir)
    unfold hasOpaqueAncestor
    rw [List.any_eq_true]
    refine ⟨m :: (b ++ z), ?_, by rw [hu]; exact hopq⟩
    have : m :: (b ++ (z ++ t)) = (m :: (b ++ z) ++ t.dropLast) ++ [t.getLast ht] := by
      rw [List.append_assoc, List.dropLast_append_getLast ht]; simp
    rw [this, inits_concat, List.dropLast_concat, List.mem_inits]
    exact List.prefix_append _ _

/-- The change recorded for a stored path that is neither a whiteout nor a renamed directory. -/
theorem stored_entry_moved (hp : Spec.RedirectStorage env st) (hall : Spec.AllSelected env st) {m : Name} {mp sub : Path} {n : Node}
    (hdec : env.decode m = some mp) (hne : sub ≠ []) (hg : st.upper.get (m :: sub) = some n) (hw : Spec.isWhiteout n = false) (hr : n.redirect = none) :
    ∃ e ∈ selected env st, e.dest = mp ++ sub ∧ e.staged = some ⟨m :: sub, n⟩ ∧ e.source = (ifExists st.lower (Spec.named st m mp sub)).bind (details st.lower) ∧
      (n.supported = true ∧ Spec.IsSet e ∧ (e.op = .set .modify → hasOpaqueAncestor st (m :: sub) = false) ∨ n.supported = false ∧ e.op = .error .unsupportedFileType) := by
  obtain ⟨ue, hue, hi, hn⟩ := moved_entry hg hdec hne
  have hrm : ue.node.isRemoved = false := by
    cases hx : ue.node.isRemoved with
    | false => rfl
    | true => rw [hn, moved_removed_iff hp hg, hw] at hx; cases hx
  obtain ⟨e, he⟩ := setsOf_singleton (st := st) hrm
  have hmem : e ∈ setsOf st ue := by rw [he]; simp
  have hsel := hall e (mem_changes.2 ⟨ue, hue, Or.inr hmem⟩)
  obtain ⟨_, h2, h3, h4, _, hx⟩ := mem_setsOf hmem
  refine ⟨e, hsel, h2.trans hi.lowerPath, by rw [h3, hi.upperPath, hn], by rw [h4, hi.details, hi.source, moved_source hp hdec hg], ?_⟩
  rw [hn] at hx
  rcases hx with ⟨h1, _⟩ | ⟨h1, _⟩ | ⟨_, h1, hx⟩ | ⟨_, h1, hx⟩
  · rw [hr] at h1; cases h1
  · rw [hr] at h1; cases h1
  · exact Or.inr ⟨h1, hx⟩
  · refine Or.inl ⟨h1, ⟨_, hx⟩, fun hm => ?_⟩
    rw [hx, hi.upperPath] at hm
    cases ho : hasOpaqueAncestor st (m :: sub) with
    | false => rfl
    | true => rw [ho] at hm; simp at hm

end

/-- `sandbox status` lists a rename of `s` to `d`. -/
def Spec.ListsRename (env : Env) (st : State) (s d : Path) : Prop := ∃ e ∈ (status env st).1, e.op = .rename ∧ e.dest = d ∧ ∃ x, e.source = some x ∧ x.path = s

theorem lists_of_renames {env : Env} {st : State} {s d : Path} (h : Spec.Renames (selected env st) s d) : Spec.ListsRename env st s d := by
  obtain ⟨e, he, ho, h1, h2⟩ := h
  exact ⟨e, status_mem he (by rw [listed_iff]; simp [Entry.isRename, ho]), ho, h1, h2⟩

theorem renames_of_lists {env : Env} {st : State} {s d : Path} (h : Spec.ListsRename env st s d) : Spec.Renames (selected env st) s d := by
  obtain ⟨e, he, ho, h1, h2⟩ := h
  exact ⟨e, (List.mem_filter.1 ((C16_status_complete env st).mem_iff.1 he)).1, ho, h1, h2⟩

/-- **C71 (partial), with renamed directories**: whatever a process in the sandbox sees differently from the host is explained by what `sandbox status` lists.  A path that is
gone in the sandbox is listed as removed, or it is at or below the source of a listed rename, or at or below the destination of one (something was moved over it; see
`C71_refuted_replaced`).  A path that is new or differs is listed as created or modified with the node seen in the sandbox (as an error, if it is a device, socket or pipe), or
it is at or below the destination of a listed rename and is as the host has it at or below the source (of the renamed directory itself only that it is one; see
`C01_refuted_rename_mode`).
Missing: redirects the program misreads (C15), mount points themselves (`C01_refuted_mount_root`), deleted dangling links (`C01_refuted_dangling`). -/
theorem C71_moved_partial (env : Env) (st : State) (hw : st.lower.WF) (hp : Spec.RedirectStorage env st) (hall : Spec.AllSelected env st)
    (hkept : Spec.HostKept env st) (m : Name) (mp sub : Path) (hs : Spec.Seen env st m mp (mp ++ sub)) :
    (∀ k, st.lower.get (mp ++ sub) = some k → Spec.view st m mp sub = none →
      (∃ e ∈ (status env st).1, e.op = .remove ∧ ∃ s, e.source = some s ∧ s.path = mp ++ sub) ∨
      (∃ s d, Spec.ListsRename env st s d ∧ s <+: mp ++ sub) ∨ ∃ s d, Spec.ListsRename env st s d ∧ d <+: mp ++ sub) ∧
    (∀ n, Spec.view st m mp sub = some n → (∀ k, st.lower.get (mp ++ sub) = some k → ¬ Spec.SameNode n k) →
      (∃ e ∈ (status env st).1, e.dest = mp ++ sub ∧ (∃ s, e.staged = some s ∧ s.node = n) ∧
        (Spec.IsSet e ∨ Spec.ftype n.kind ∈ [.charDev, .blockDev, .fifo, .socket] ∧ e.op = .error .unsupportedFileType)) ∨
      ∃ s d r, Spec.ListsRename env st s d ∧ mp ++ sub = d ++ r ∧
        (r = [] ∧ Spec.ftype n.kind = .directory ∨ ∃ k, st.lower.get (s ++ r) = some k ∧ Spec.SameNode n k)) := by
  have hne : sub ≠ [] := by
    rintro rfl
    have := hs.below
    rw [List.append_nil] at this
    exact not_below_self _ this
  have hsame : ∀ {n : Node}, Spec.SameNode n n := ⟨rfl, rfl, rfl, Or.inr rfl⟩
  obtain ⟨b, r, rfl, hB⟩ := exists_based st m mp sub
  obtain ⟨l1, l2⟩ := hB.lookup hw hp hs.stored hs.decode
  -- the rename at the base
  have hren : b ≠ [] → Spec.ListsRename env st (Spec.named st m mp b) (mp ++ b) := by
    intro hb
    rcases hB.base with h | ⟨u, rd, hu, hrd⟩
    · exact absurd h hb
    · have hr : u.redirect.isSome = true := by rw [hrd]; rfl
      obtain ⟨k, hk, hkd⟩ := hkept.origins m mp b u hs.decode hu hr
      refine lists_of_renames (moved_renames hw hp hall hs.decode hu hr ?_).1
      have hlk : k.isLnk = false := isLnk_of_ftype (by rw [hkd]; decide)
      unfold FS.pexists
      rw [FS.stat_chain (hw.normal_of_get hk) hw.root (hw.chain hk) (fun x hx => by rw [hk] at hx; cases hx; exact hlk), hk]
  -- what the host has at the base's name
  have hhost : ∀ {n k : Node}, st.lower.get (Spec.named st m mp b ++ r) = some k → Spec.SameNode n k → (∀ k, st.lower.get (mp ++ (b ++ r)) = some k → ¬ Spec.SameNode n k) →
      ∃ s d r', Spec.ListsRename env st s d ∧ mp ++ (b ++ r) = d ++ r' ∧ (r' = [] ∧ Spec.ftype n.kind = .directory ∨ ∃ k, st.lower.get (s ++ r') = some k ∧ Spec.SameNode n k) := by
    intro n k hk hnk hd
    by_cases hb : b = []
    · subst hb
      exact absurd hnk (hd k hk)
    · exact ⟨_, _, r, hren hb, by rw [List.append_assoc], Or.inr ⟨k, hk, hnk⟩⟩
  constructor
  · intro k hk hv
    by_cases hb : b = []
    · subst hb
      simp only [List.nil_append] at *
      have hnm : Spec.named st m mp [] = mp := rfl
      rw [hnm] at l1 l2
      have hhid : ∃ y n, y ≠ [] ∧ y <+: r ∧ st.upper.get (m :: y) = some n ∧ Spec.Hiding n ∧ (y = r → Spec.isWhiteout n = true) := by
        cases hg : st.upper.get (m :: r) with
        | some n =>
          refine ⟨r, n, hne, List.prefix_refl _, hg, ?_⟩
          cases hwn : Spec.isWhiteout n with
          | true => exact ⟨Or.inl hwn, fun _ => rfl⟩
          | false =>
            obtain ⟨L, hL, _⟩ := (l1 n hg).2 hwn
            unfold Spec.view at hv
            rw [hL] at hv
            simp at hv
        | none =>
          by_cases hh : HiddenFrom st m [] r.reverse
          · obtain ⟨q, n, h1, h2, h3, h4⟩ := hh
            refine ⟨q, n, ?_, by simpa using h2, h3, h4, fun he => ?_⟩
            · obtain ⟨z, hz, hz'⟩ := h1
              rintro rfl
              simp at hz'
              exact hz hz'
            · rw [he, hg] at h3; cases h3
          · have := (l2 hg).2 (by simpa using hh)
            unfold Spec.view at hv
            rw [this] at hv
            simp [Spec.present, hk] at hv
      obtain ⟨y, n, hy1, hy2, hy3, hy4, hy5⟩ := hhid
      have hny : Spec.named st m mp y = mp ++ y := by
        have := (hB.prefix hy2).named
        rw [hnm, List.nil_append] at this
        exact this
      rcases hiding_removes_moved hw hp hall hs.decode hy1 hy3 hy4 hk (by rw [hny]; exact (List.prefix_append_right_inj mp).2 hy2)
        (fun he => hy5 (by rw [hny] at he; exact (List.append_cancel_left he).symm)) with ⟨e, he, ho, hx⟩ | ⟨d, h⟩
      · exact Or.inl ⟨e, status_mem he (by rw [listed_iff]; simp [Entry.isRemove, ho]), ho, hx⟩
      · exact Or.inr (Or.inl ⟨_, d, lists_of_renames h, by rw [hny]; exact (List.prefix_append_right_inj mp).2 hy2⟩)
    · exact Or.inr (Or.inr ⟨_, _, hren hb, by rw [← List.append_assoc]; exact List.prefix_append _ _⟩)
  · intro n hv hd
    cases hg : st.upper.get (m :: (b ++ r)) with
    | none =>
      by_cases hh : HiddenFrom st m b.reverse r.reverse
      · have := (l2 hg).1 hh
        unfold Spec.view at hv
        rw [this] at hv
        cases hv
      · have := (l2 hg).2 hh
        unfold Spec.view at hv
        rw [this] at hv
        cases hk : st.lower.get (Spec.named st m mp b ++ r) with
        | none => simp [Spec.present, hk] at hv
        | some k =>
          simp [Spec.present, hk] at hv
          subst hv
          exact Or.inr (hhost hk hsame hd)
    | some u =>
      have hwn : Spec.isWhiteout u = false := by
        cases hwn : Spec.isWhiteout u with
        | false => rfl
        | true =>
          have := (l1 u hg).1 hwn
          unfold Spec.view at hv
          rw [this] at hv
          cases hv
      have hun : u = n := by
        obtain ⟨L, hL, _⟩ := (l1 u hg).2 hwn
        unfold Spec.view at hv
        rw [hL] at hv
        simpa using hv
      subst hun
      cases hrd : u.redirect with
      | some rd =>
        obtain ⟨g1, g2, _⟩ := hp.redirects m mp _ u rd hs.decode hg hrd
        have hrnil : r = [] := by
          by_contra hr
          have := hB.last (b ++ r) u ⟨r, hr, rfl⟩ (List.prefix_refl _) hg
          rw [hrd] at this; cases this
        subst hrnil
        rw [List.append_nil] at *
        exact Or.inr ⟨_, _, [], hren g1, by rw [List.append_nil], Or.inl ⟨rfl, g2⟩⟩
      | none =>
        obtain ⟨e, he, h1, h2, h3, h4⟩ := stored_entry_moved hp hall hs.decode hne hg hwn hrd
        by_cases hl : Spec.Listed e
        · refine Or.inl ⟨e, status_mem he hl, h1, ⟨_, h2, rfl⟩, ?_⟩
          rcases h4 with ⟨_, h4, _⟩ | ⟨h5, h4⟩
          · exact Or.inl h4
          · refine Or.inr ⟨?_, h4⟩
            unfold Node.supported Node.isReg Node.isDir Node.isLnk at h5
            cases hk : u.kind <;> simp_all [Kind.isReg, Kind.isLnk, Spec.ftype]
        · rcases h4 with ⟨_, ⟨t, ht⟩, hoa⟩ | ⟨_, ht⟩
          · obtain ⟨rfl, so, hso, hsn⟩ := unlisted_same ht h2 hl
            rw [h3] at hso
            have hso' : st.lower.get (Spec.named st m mp (b ++ r)) = some so.node := by
              unfold ifExists at hso
              split at hso
              · obtain ⟨_, hls⟩ := details_path (by simpa using hso)
                cases hgl : st.lower.get (Spec.named st m mp (b ++ r)) with
                | some k =>
                  rw [FS.lstat_chain (hw.normal_of_get hgl) (hw.chain hgl), hgl] at hls
                  simpa using hls
                | none =>
                  have := opaque_above_moved hw hp hkept hs.decode hg hls hgl
                  rw [hoa ht] at this; cases this
              · cases hso
            rw [hB.named] at hso'
            exact Or.inr (hhost hso' hsn hd)
          · exact absurd (by rw [listed_iff]; simp [Entry.isError, ht]) hl

/-- Nothing that is still seen was in a host directory that has been deleted or replaced, unless that directory itself was moved (as in `Spec.MovedStorage`). -/
def Spec.NotLost (env : Env) (st : State) : Prop := ∀ m mp sub f l y n, [m] ∈ st.upper.keys → env.decode m = some mp → Spec.lookup st m mp sub = some f → f.lower = some l →
  y ≠ [] → st.upper.get (m :: y) = some n → Spec.Deletes st n (Spec.named st m mp y) → Spec.named st m mp y <+: l →
  ∃ z k, st.upper.get (m :: z) = some k ∧ k.redirect.isSome = true ∧ Spec.named st m mp z = Spec.named st m mp y

/-- **C71 (partial), with renamed directories**, the other direction: a creation or modification lists the node that a process in the sandbox sees at that path; a rename lists a
directory of the host and the place at which overlayfs shows it; a removal lists a host path that is not seen anywhere in the mount.
Missing: directories moved out of deleted or replaced ones, which are listed as removed although they are still seen (`C71_refuted_moved_out`). -/
theorem C71_moved_true_partial (env : Env) (st : State) (hw : st.lower.WF) (hp : Spec.RedirectStorage env st) (hall : Spec.AllSelected env st) (hkept : Spec.HostKept env st)
    (hlost : Spec.NotLost env st) (e : Entry) (he : e ∈ (status env st).1) :
    (Spec.IsSet e → ∃ m mp sub s, env.decode m = some mp ∧ e.dest = mp ++ sub ∧ e.staged = some s ∧ Spec.view st m mp sub = some s.node) ∧
    (e.op = .rename → ∃ m mp sub n s, env.decode m = some mp ∧ e.dest = mp ++ sub ∧ e.source = some s ∧ Spec.lookup st m mp sub = some ⟨some n, some s.path⟩) ∧
    (e.op = .remove → ∃ m mp, [m] ∈ st.upper.keys ∧ env.decode m = some mp ∧ Below mp e.dest ∧ ∀ sub f, Spec.lookup st m mp sub = some f → f.lower ≠ some e.dest) := by
  have hsel : e ∈ selected env st := (List.mem_filter.1 ((C16_status_complete env st).mem_iff.1 he)).1
  have hst : ∀ {m mp sub n}, env.decode m = some mp → st.upper.get (m :: sub) = some n → Spec.isWhiteout n = false → Spec.view st m mp sub = some n := by
    intro m mp sub n hd hg hwn
    obtain ⟨b, r, rfl, hB⟩ := exists_based st m mp sub
    obtain ⟨L, hL, _⟩ := ((hB.lookup hw hp (moved_root hp hg) hd).1 n hg).2 hwn
    unfold Spec.view
    rw [hL]
    rfl
  refine ⟨fun hs => ?_, fun ho => ?_, fun ho => ?_⟩
  · obtain ⟨m, mp, sub, n, h1, h2, h3, h4, h5, h6⟩ := set_stored hsel hs
    refine ⟨m, mp, sub, _, h1, h5, h6, hst h1 h3 ?_⟩
    cases hx : Spec.isWhiteout n with
    | false => rfl
    | true => rw [(moved_removed_iff hp h3).2 hx] at h4; cases h4
  · obtain ⟨s, hs⟩ : ∃ s, e.source = some s := by
      obtain ⟨ue, hue, h | h⟩ := mem_changes.1 (mem_selected hsel)
      · obtain ⟨_, _, _, _, h, _⟩ := mem_removesOf h
        rw [ho] at h; cases h
      · obtain ⟨_, _, _, h4, _, hx⟩ := mem_setsOf h
        rcases hx with ⟨_, _, hx⟩ | ⟨_, hs, hx⟩ | ⟨_, _, hx⟩ | ⟨_, _, hx⟩
        · rw [ho] at hx; cases hx
        · rw [h4]; exact Option.isSome_iff_exists.1 hs
        · rw [ho] at hx; cases hx
        · rw [ho] at hx; cases hx
    obtain ⟨m, mp, z, n, h1, h2, h3, h4, h5, h6⟩ := renames_moved hp ⟨e, hsel, ho, rfl, s, hs, rfl⟩
    obtain ⟨rd, hrd⟩ := Option.isSome_iff_exists.1 h4
    have hB : Based st m mp z [] := ⟨Or.inr ⟨n, rd, h3, hrd⟩, fun q k h1 h2 => absurd (by simpa using h2) h1.not_prefix⟩
    obtain ⟨u, _, hu, hl⟩ := hB.merged hw hp (moved_root hp h3) h1
    obtain ⟨k, hk, hkd⟩ := hkept.origins m mp z n h1 h3 h4
    refine ⟨m, mp, z, u, s, h1, h5, hs, ?_⟩
    unfold Spec.lookup
    rw [hl, h6]
    simp [Spec.presentDir, hk, hkd]
  · obtain ⟨ue, hue, h | h⟩ := mem_changes.1 (mem_selected hsel)
    · obtain ⟨m, mp, sub, _, hi⟩ := mem_upperEntries hue
      obtain ⟨sp, hsp, hnr, hc, _, hd, _⟩ := mem_removesOf h
      have hspe : sp = Spec.named st m mp sub ∧ st.lower.pexists sp = true := by
        rw [hi.source, moved_source hp hi.decode hi.node] at hsp
        unfold ifExists at hsp
        split at hsp
        · next hex => cases hsp; exact ⟨rfl, hex⟩
        · cases hsp
      obtain ⟨rfl, hex⟩ := hspe
      have hpre : Spec.named st m mp sub <+: e.dest := by
        rcases hd with ⟨_, hw, _⟩ | ⟨_, hde, _⟩
        · exact mem_walkDir_prefix hw
        · rw [hde]
      have hm := moved_root hp hi.node
      refine ⟨m, mp, hm, hi.decode, below_of_below_prefix ((named_below hp hi.decode sub.reverse).2 (by simpa using hi.sub_ne)) hpre, fun sub' f hf hfl => ?_⟩
      obtain ⟨_, _, _, _, _, ⟨k, hk⟩, _⟩ := lower_seen hw hp hm hi.decode hf hfl
      have hdel : Spec.Deletes st ue.node (Spec.named st m mp sub) := by
        rcases hc with hc | hc | ⟨hc, hpd⟩
        · exact Or.inr (Or.inl hc)
        · exact Or.inl ((moved_removed_iff hp hi.node).1 hc)
        · refine Or.inr (Or.inr ⟨(fun hx => by rw [isDir_of_ftype hx] at hc; cases hc), ?_⟩)
          by_cases hself : Spec.named st m mp sub = e.dest
          · rw [hself]
            refine ⟨k, hk, ?_⟩
            by_cases hlk : Spec.ftype k.kind = .symlink
            · exact Or.inr hlk
            · left
              have hlk' := isLnk_of_ftype hlk
              rw [hself] at hpd
              unfold FS.pisDir at hpd
              rw [FS.stat_chain (hw.normal_of_get hk) hw.root (hw.chain hk) (fun x hx => by rw [hk] at hx; cases hx; exact hlk'), hk] at hpd
              simp only [Node.isDir, beq_iff_eq] at hpd
              rw [hpd]; rfl
          · obtain ⟨d, hd1, hd2⟩ := FS.isDirAt_iff.1 (hw.ancestor hk (below_iff.2 ⟨hpre, hself⟩))
            refine ⟨d, hd1, Or.inl ?_⟩
            unfold Node.isDir at hd2; simp at hd2; rw [hd2]; rfl
      obtain ⟨z, x, hz, hzr, hzn⟩ := hlost m mp sub' f e.dest sub ue.node hm hi.decode hf hfl hi.sub_ne hi.node hdel hpre
      obtain ⟨_, h5⟩ := moved_renames hw hp hall hi.decode hz hzr (by rw [hzn]; exact hex)
      obtain ⟨ue2, hue2, hi2, hn2⟩ := upperEntries_of_kept h5 hz
      refine hnr ?_
      unfold renamedPaths
      refine List.mem_filterMap.2 ⟨ue2, hue2, ?_⟩
      rw [hn2, hzr, hi2.source, moved_source hp hi.decode hz, hzn]
      simp [ifExists, hex]
    · obtain ⟨_, _, _, _, _, hx⟩ := mem_setsOf h
      rcases hx with ⟨_, _, hx⟩ | ⟨_, _, hx⟩ | ⟨_, _, hx⟩ | ⟨_, _, hx⟩ <;> rw [ho] at hx <;> cases hx

/-! ### A concrete case -/

/-- Decidable form of `Spec.HostKept`. -/
theorem hostKept_of_check {env : Env} {st : State}
    (h : ∀ x ∈ st.upper, ∀ m ∈ x.1.head?, ∀ mp ∈ env.decode m,
      (x.1.tail ≠ [] → Spec.ftype x.2.kind = .directory → ∀ k ∈ st.lower.get (Spec.named st m mp x.1.tail), Spec.ftype k.kind ≠ .directory → x.2.opq = true) ∧
      (x.2.redirect.isSome = true → Spec.presentDir st.lower (Spec.named st m mp x.1.tail) ≠ none)) : Spec.HostKept env st := by
  refine ⟨fun m mp sub n k hd hne hg h1 hk h2 => (h _ (FS.mem_of_get hg) m rfl mp hd).1 hne h1 k hk h2, fun m mp sub n hd hg hr => ?_⟩
  have := (h _ (FS.mem_of_get hg) m rfl mp hd).2 hr
  unfold Spec.presentDir at this
  simp only [List.tail_cons] at this
  cases hk : st.lower.get (Spec.named st m mp sub) with
  | none => rw [hk] at this; exact absurd rfl this
  | some k =>
    refine ⟨k, rfl, ?_⟩
    rw [hk] at this
    by_contra hx
    simp [hx] at this

set_option synthInstance.maxSize 1000 in
set_option synthInstance.maxHeartbeats 200000 in
theorem exMany_kept : Spec.HostKept exViewEnv exMany := hostKept_of_check (by decide +kernel)

theorem exMany_lost : Spec.NotLost exViewEnv exMany := exMany_moved.notLost

-- the hypotheses of `C71_moved_partial` and `C71_moved_true_partial` hold for it; status lists renames, removals and creations
example : exMany.lower.WF ∧ Spec.RedirectStorage exViewEnv exMany ∧ Spec.AllSelected exViewEnv exMany ∧ Spec.HostKept exViewEnv exMany ∧ Spec.NotLost exViewEnv exMany ∧
    (status exViewEnv exMany).1.map (fun e => (e.op, e.dest)) =
      [(.remove, [str "u", str "v"]), (.remove, [str "o", str "p"]), (.remove, [str "d", str "g"]), (.rename, [str "o", str "y"]), (.rename, [str "e"]),
       (.set .modify, [str "d"]), (.set .create, [str "e", str "h"])] :=
  ⟨exMany_ordinary.wf, exMany_redirect, exMany_all, exMany_kept, exMany_lost, by decide +kernel⟩

/-- In the sandbox: `rm -r o; mv d o`.  The host's `o` has a file `p`. -/
def exReplaced : State := ⟨exViewHost,
  [([], { kind := .dir }), ([str "F4"], { kind := .dir }), ([str "F4", str "d"], { kind := .chr 0 }),
   ([str "F4", str "o"], { kind := .dir, perm := 0o755, redirect := some (str "d") })]⟩

/-- **C71 refuted** for directories replaced by renamed ones: `rm -r o; mv d o`.  The host has `o/p`, the sandbox does not see it any more, but `sandbox status` lists only the rename of `d`
to `o` and no removal. -/
theorem C71_refuted_replaced :
    (exReplaced.lower.get [str "o", str "p"]).isSome = true ∧ Spec.view exReplaced (str "F4") [] [str "o", str "p"] = none ∧
    (status exViewEnv exReplaced).1.map (fun e => (e.op, e.dest, e.source.map (·.path))) = [(.rename, [str "o"], some [str "d"])] := by decide +kernel

/-- **C01, C13, C14 refuted** for directories replaced by renamed ones: with the change of `C71_refuted_replaced` accept passes all its checks, then moves the host's `d` to a temporary name and fails,
because `o` is not empty: nothing has been accepted, and `d` is gone from its place on the host; the sandbox, whose `o` refers to it, does not see its files any more either. -/
theorem C13_refuted_replaced :
    pretendCheck exViewEnv exReplaced (selected exViewEnv exReplaced) = none ∧ (accept exViewEnv exReplaced).error ≠ none ∧
    (exReplaced.lower.get [str "d", str "f"]).isSome = true ∧
    ((accept exViewEnv exReplaced).state.lower.get [str "d"]).isSome = false ∧ ((accept exViewEnv exReplaced).state.lower.get [str "o", str "f"]).isSome = false ∧
    (Spec.view exReplaced (str "F4") [] [str "o", str "f"]).isSome = true ∧ (Spec.view (accept exViewEnv exReplaced).state (str "F4") [] [str "o", str "f"]).isSome = false := by
  decide +kernel

/-- **C71 refuted** for directories moved out of deleted ones: the file is seen in the sandbox at `e/y`, but its host path is listed as removed. -/
theorem C71_refuted_moved_out :
    Spec.lookup exViewOut (str "F4") [] [str "e", str "y"] = some ⟨none, some [str "d", str "x", str "y"]⟩ ∧
    (.remove, [str "d", str "x", str "y"]) ∈ (status exViewEnv exViewOut).1.map (fun e => (e.op, e.dest)) := by decide +kernel

end SB
