import Verif.Lib.MoveMove

/-! Histories with moved directories: the invariant (proof machinery). -/

namespace SB
open Spec

/-! ### On the host -/

/-- `rename` of a directory on the host. -/
theorem moveOn_spec {mounts : List MountHash} {fs : FS} (hw : fs.WF) {a b : Path} (hN : NormalPath b) (hf : moveFits mounts a b = true) :
    ((fs.isDirAt a && fs.isDirAt b.dropLast && ((fs.get b).isNone || (fs.isDirAt b && !fs.hasChild b))) = true →
      (moveOn mounts fs a b).WF ∧ (∀ r, (moveOn mounts fs a b).get (b ++ r) = fs.get (a ++ r)) ∧ (∀ q, a <+: q → (moveOn mounts fs a b).get q = none) ∧
      ∀ q, ¬ a <+: q → ¬ b <+: q → (moveOn mounts fs a b).get q = fs.get q) ∧
    ((fs.isDirAt a && fs.isDirAt b.dropLast && ((fs.get b).isNone || (fs.isDirAt b && !fs.hasChild b))) = false → moveOn mounts fs a b = fs) := by
  unfold moveOn
  rw [hf, Bool.true_and]
  constructor
  · intro hc
    rw [if_pos hc]
    simp only [Bool.and_eq_true] at hc
    have hab : ¬ a <+: b := fun h => by
      unfold moveFits at hf
      simp only [Bool.and_eq_true, Bool.not_eq_true', ← Bool.not_eq_true, List.isPrefixOf_iff_prefix] at hf
      exact hf.1.2 h
    have hba : ¬ b <+: a := fun h => by
      unfold moveFits at hf
      simp only [Bool.and_eq_true, Bool.not_eq_true', ← Bool.not_eq_true, List.isPrefixOf_iff_prefix] at hf
      exact hf.2 h
    have hb0 : b ≠ [] := by rintro rfl; exact hba List.nil_prefix
    obtain ⟨n, hn, _⟩ := FS.isDirAt_iff.1 hc.1.1
    have hchain : fs.Chain b := by
      intro q hq
      obtain ⟨d, hd1, _⟩ := FS.isDirAt_iff.1 hc.1.2
      by_cases he : q = b.dropLast
      · rw [he]; exact hc.1.2
      · refine hw.ancestor hd1 (below_iff.2 ⟨?_, he⟩)
        have hl : b.dropLast ++ [b.getLast hb0] = b := List.dropLast_append_getLast hb0
        have hq' := hq.prefix
        rw [← hl, List.prefix_concat_iff] at hq'
        rcases hq' with h | h
        · rw [hl] at h; exact absurd h hq.ne
        · exact h
    have hget := FS.get_moveTree fs hab hba
    refine ⟨hw.moveTree hn hab hba hN hchain, fun r => ?_, fun q hq => ?_, fun q h1 h2 => ?_⟩
    · rw [hget, if_pos (List.prefix_append _ _), List.drop_left]
    · rw [hget, if_neg (fun h => ?_), if_pos hq]
      rcases prefix_total hq h with h' | h'
      · exact hab h'
      · exact hba h'
    · rw [hget, if_neg h2, if_neg h1]
  · intro hc
    rw [if_neg (by rw [hc]; simp)]

/-! ### The invariant -/

/-- The storage and a file system (on which the same was done directly) agree. -/
structure HistM (mounts : List MountHash) (host : FS) (st : State) (fs : FS) : Prop where
  lower : st.lower = host
  lawful : Lawful st
  tops : ∀ m ∈ mounts, TopOk st m.hash m.dir
  keys : ∀ q n, st.upper.get q = some n → q = [] ∨ ∃ m ∈ mounts, ∃ sub, q = m.hash :: sub ∧ (sub ≠ [] → mountFor mounts (m.dir ++ sub) = some m)
  nodes : ∀ q n r, st.upper.get q = some n → n.kind = .chr r → r % 65536 = 0 → r = 0
  points : ∀ m ∈ mounts, ∀ m2 ∈ mounts, ∀ sub, sub ≠ [] → m.dir ++ sub <+: m2.dir →
    (∃ n, Spec.view st m.hash m.dir sub = some n ∧ n.isDir = true ∧ n.opq = false ∧ n.redirect = none) ∧ lowOf st m.hash m.dir sub = some (some (m.dir ++ sub))
  fsWf : fs.WF
  dirs : ∀ m ∈ mounts, fs.isDirAt m.dir = true
  same : ∀ m ∈ mounts, ∀ sub, sub ≠ [] → mountFor mounts (m.dir ++ sub) = some m → attrsOf (Spec.view st m.hash m.dir sub) = attrsOf (fs.get (m.dir ++ sub))
  outside : ∀ q, (∀ m ∈ mounts, ¬ Below m.dir q) → fs.get q = host.get q
  redirects : ∀ m ∈ mounts, RedOk st m.hash m.dir
  once : ∀ m ∈ mounts, ∀ y y' l, lowOf st m.hash m.dir y = some (some l) → lowOf st m.hash m.dir y' = some (some l) → y = y'
  lows : ∀ m ∈ mounts, ∀ y l, mountFor mounts (m.dir ++ y) = some m → lowOf st m.hash m.dir y = some (some l) → mountFor mounts l = some m

section
variable {mounts : List MountHash} {host : FS} {st : State} {fs : FS}

/-- Something is seen below in the sandbox iff something is there. -/
theorem HistM.child (hm : MountsOk mounts) (h : HistM mounts host st fs) {m : MountHash} (hmm : m ∈ mounts) {sub : Path} (hsub : sub ≠ []) (hmf : mountFor mounts (m.dir ++ sub) = some m) :
    childSeen st m.hash m.dir sub = fs.hasChild (m.dir ++ sub) := by
  have key : childSeen st m.hash m.dir sub = true ↔ fs.hasChild (m.dir ++ sub) = true := by
    rw [childM_iff h.lawful (h.tops m hmm), FS.hasChild_iff]
    by_cases hex : ∃ m2 ∈ mounts, Below (m.dir ++ sub) m2.dir
    · obtain ⟨m2, hm2, hb2⟩ := hex
      constructor
      · intro _
        obtain ⟨n, hn, _⟩ := FS.isDirAt_iff.1 (h.dirs m2 hm2)
        exact ⟨m2.dir, n, hb2, hn⟩
      · intro _
        obtain ⟨w, hw, he⟩ := hb2
        obtain ⟨⟨n, hn, _⟩, _⟩ := h.points m hmm m2 hm2 (sub ++ w) (by simp [hw]) (by rw [he, List.append_assoc])
        exact ⟨sub ++ w, ⟨w, hw, rfl⟩, by rw [hn]; rfl⟩
    · have hsame : ∀ y, Below sub y → attrsOf (Spec.view st m.hash m.dir y) = attrsOf (fs.get (m.dir ++ y)) := by
        intro y hb
        rcases nested_or hm hmm hmf hsub hb with h1 | h1
        · exact absurd h1 hex
        · refine h.same m hmm y ?_ h1
          rintro rfl
          obtain ⟨w, hw, he⟩ := hb
          simp at he
          exact hw he.2
      constructor
      · rintro ⟨y, hb, hv⟩
        have := hsame y hb
        obtain ⟨k, hk⟩ := Option.isSome_iff_exists.1 hv
        rw [hk] at this
        cases hg : fs.get (m.dir ++ y) with
        | none => rw [hg] at this; simp [attrsOf] at this
        | some n =>
          refine ⟨m.dir ++ y, n, ?_, hg⟩
          obtain ⟨w, hw, rfl⟩ := hb
          exact ⟨w, hw, by rw [List.append_assoc]⟩
      · rintro ⟨q, n, hb, hg⟩
        obtain ⟨w, hw, rfl⟩ := hb
        rw [List.append_assoc] at hg
        refine ⟨sub ++ w, ⟨w, hw, rfl⟩, ?_⟩
        have := hsame (sub ++ w) ⟨w, hw, rfl⟩
        rw [hg] at this
        cases hv : Spec.view st m.hash m.dir (sub ++ w) with
        | none => rw [hv] at this; simp [attrsOf] at this
        | some k => rfl
  cases h1 : childSeen st m.hash m.dir sub <;> cases h2 : fs.hasChild (m.dir ++ sub) <;> simp_all

theorem HistM.top (h : HistM mounts host st fs) {m : MountHash} (hmm : m ∈ mounts) : dirSeen (Spec.view st m.hash m.dir []) = true := by
  obtain ⟨t, ht1, ht2⟩ := FS.isDirAt_iff.1 (h.tops m hmm).2
  have : Spec.view st m.hash m.dir [] = some t := by simp [Spec.view, Spec.lookup, Spec.lookupRev, ht1]
  rw [this]
  exact ht2

theorem HistM.hashNormal (h : HistM mounts host st fs) {m : MountHash} (hmm : m ∈ mounts) {y : Path} (hy : NormalPath y) : NormalPath (m.hash :: y) := by
  intro n hn
  rcases List.mem_cons.1 hn with rfl | hn
  · obtain ⟨t, ht1, _⟩ := FS.isDirAt_iff.1 (h.tops m hmm).2
    exact h.lawful.upper.normal_of_get ht1 m.hash (by simp)
  · exact hy n hn

/-- Names that are seen are plain. -/
theorem HistM.viewNormal (h : HistM mounts host st fs) {m : MountHash} (hmm : m ∈ mounts) {y : Path} {n : Node} (hv : Spec.view st m.hash m.dir y = some n) : NormalPath (m.hash :: y) := by
  have hl := h.lawful
  have ht := h.tops m hmm
  obtain ⟨b, r, k, rfl, h2, h3⟩ := deepest_stored hl ht y
  by_cases hr : r = []
  · subst hr; rw [List.append_nil]; exact hl.upper.normal_of_get h2
  · have := view_isSome hl ht (y := b ++ r)
    rw [hv] at this
    obtain ⟨f, hf⟩ := Option.isSome_iff_exists.1 this.symm
    obtain ⟨d, l, g1, g2, g3⟩ := low_unstored hl ht hr h3 hf
    obtain ⟨j, j1, _⟩ := lower_present hl ht hf (l := l ++ r) (by rw [g3])
    have hN := (hl.host.normal_of_get j1).of_append_right
    have hB := hl.upper.normal_of_get h2
    intro x hx
    rcases List.mem_cons.1 hx with rfl | hx
    · exact hB _ (by simp)
    · rcases List.mem_append.1 hx with hx | hx
      · exact hB x (by simp [hx])
      · exact hN x hx

/-- A directory seen in the sandbox is one there, at or above a path of the mount. -/
theorem HistM.dirSame (hm : MountsOk mounts) (h : HistM mounts host st fs) {m : MountHash} (hmm : m ∈ mounts) {sub : Path} (hmf : mountFor mounts (m.dir ++ sub) = some m) :
    dirSeen (Spec.view st m.hash m.dir sub) = fs.isDirAt (m.dir ++ sub) := by
  by_cases h0 : sub = []
  · rw [h0, h.top hmm, List.append_nil, h.dirs m hmm]
  · rw [isDirAt_dirSeen]
    exact dirSeen_attrs (h.same m hmm _ h0 hmf)

end


/-- Lookups in a mount whose storage has not changed. -/
theorem lowM_other {st st' : State} (hl : Lawful st) (hl' : Lawful st') (hlow : st'.lower = st.lower) {m : Name} {mp : Path} (ht : TopOk st m mp) (ht' : TopOk st' m mp)
    (hg : ∀ y, st'.upper.get (m :: y) = st.upper.get (m :: y)) (y : Path) : lowOf st' m mp y = lowOf st m mp y ∧ Spec.view st' m mp y = Spec.view st m mp y := by
  have h0 : lowOf st' m mp [] = lowOf st m mp [] := by
    obtain ⟨t, t1, t2, t3⟩ := lookup_nil hl ht
    obtain ⟨t', t1', t2', t3'⟩ := lookup_nil hl' ht'
    unfold lowOf; rw [t3, t3']; rfl
  have h1 : lowOf st' m mp y = lowOf st m mp y := by
    have := low_shift hl hl' hlow ht ht' h0 y (fun q _ _ => Or.inl (by rw [List.nil_append]; exact hg q))
    simpa using this
  refine ⟨h1, ?_⟩
  cases hy : st.upper.get (m :: y) with
  | some n => rw [viewM_stored hl ht hy, viewM_stored hl' ht' (by rw [hg]; exact hy)]
  | none => rw [viewM_belowLow hl ht hy, viewM_belowLow hl' ht' (by rw [hg]; exact hy), h1, hlow]

theorem noDev_dir {a b : Option Node} {k : Node} (h : noDev a = noDev b) (hb : b = some k) (hd : k.isDir = true) (ho : k.opq = false) (hr : k.redirect = none) :
    ∃ n, a = some n ∧ n.isDir = true ∧ n.opq = false ∧ n.redirect = none := by
  subst hb
  cases a with
  | none => simp [noDev] at h
  | some n =>
    simp only [noDev, Option.map_some, Option.some.injEq, Node.mk.injEq] at h
    refine ⟨n, rfl, ?_, by rw [h.2.2.2.2.2.1]; exact ho, by rw [h.2.2.2.2.2.2.2]; exact hr⟩
    unfold Node.isDir at hd ⊢; rw [h.1]; exact hd

section
variable {mounts : List MountHash} {host : FS} {st : State} {fs : FS}

/-- What a step in one mount has to provide. -/
structure Stepped (mounts : List MountHash) (host : FS) (st : State) (m : MountHash) (st' : State) (fs fs' : FS) : Prop where
  lawful : Lawful st'
  lower : st'.lower = st.lower
  others : ∀ q, (∀ y, q ≠ m.hash :: y) → st'.upper.get q = st.upper.get q
  top : st'.upper.get [m.hash] = st.upper.get [m.hash]
  keys : ∀ y n, st'.upper.get (m.hash :: y) = some n → y ≠ [] → mountFor mounts (m.dir ++ y) = some m
  nodes : ∀ y n r, st'.upper.get (m.hash :: y) = some n → n.kind = .chr r → r % 65536 = 0 → r = 0
  points : ∀ m2 ∈ mounts, ∀ sub, sub ≠ [] → m.dir ++ sub <+: m2.dir →
    (∃ n, Spec.view st' m.hash m.dir sub = some n ∧ n.isDir = true ∧ n.opq = false ∧ n.redirect = none) ∧ lowOf st' m.hash m.dir sub = some (some (m.dir ++ sub))
  fsWf : fs'.WF
  fsOther : ∀ q, (q ∈ mounts.map (·.dir) ∨ mountFor mounts q ≠ some m) → fs'.get q = fs.get q
  same : ∀ sub, sub ≠ [] → mountFor mounts (m.dir ++ sub) = some m → attrsOf (Spec.view st' m.hash m.dir sub) = attrsOf (fs'.get (m.dir ++ sub))
  redirects : RedOk st' m.hash m.dir
  once : ∀ y y' l, lowOf st' m.hash m.dir y = some (some l) → lowOf st' m.hash m.dir y' = some (some l) → y = y'
  lows : ∀ y l, mountFor mounts (m.dir ++ y) = some m → lowOf st' m.hash m.dir y = some (some l) → mountFor mounts l = some m

theorem Stepped.hist (hm : MountsOk mounts) (h : HistM mounts host st fs) {m : MountHash} (hmm : m ∈ mounts) {st' : State} {fs' : FS} (s : Stepped mounts host st m st' fs fs') :
    HistM mounts host st' fs' := by
  have hhash : ∀ m' ∈ mounts, m' ≠ m → m'.hash ≠ m.hash := fun m' hm' hne' e => hne' (List.inj_on_of_nodup_map hm.hashes hm' hmm e)
  have htops : ∀ m' ∈ mounts, TopOk st' m'.hash m'.dir := by
    intro m' hm'
    refine ⟨by rw [s.lower]; exact (h.tops m' hm').1, ?_⟩
    have : st'.upper.get [m'.hash] = st.upper.get [m'.hash] := by
      by_cases hmm' : m' = m
      · subst hmm'; exact s.top
      · exact s.others _ (fun y e => hhash m' hm' hmm' (List.cons.inj e).1)
    rw [FS.isDirAt_congr this]
    exact (h.tops m' hm').2
  have hoth : ∀ m' ∈ mounts, m' ≠ m → ∀ y, lowOf st' m'.hash m'.dir y = lowOf st m'.hash m'.dir y ∧ Spec.view st' m'.hash m'.dir y = Spec.view st m'.hash m'.dir y := by
    intro m' hm' hmm' y
    exact lowM_other h.lawful s.lawful s.lower (h.tops m' hm') (htops m' hm') (fun y => s.others _ (fun y e => hhash m' hm' hmm' (List.cons.inj e).1)) y
  have hother : ∀ m' ∈ mounts, m' ≠ m → ∀ y, st'.upper.get (m'.hash :: y) = st.upper.get (m'.hash :: y) := fun m' hm' hmm' y => s.others _ (fun y e => hhash m' hm' hmm' (List.cons.inj e).1)
  refine ⟨s.lower.trans h.lower, s.lawful, htops, fun q n hg => ?_, fun q n r hg hk hr => ?_, fun m1 hm1 m2 hm2 y hy hp => ?_, s.fsWf, fun m' hm' => ?_, fun m' hm' y hy hmy => ?_, fun q hq => ?_,
    fun m' hm' => ?_, fun m' hm' y y' l => ?_, fun m' hm' y l => ?_⟩
  · by_cases hex : ∃ y, q = m.hash :: y
    · obtain ⟨y, rfl⟩ := hex
      exact Or.inr ⟨m, hmm, y, rfl, s.keys y n hg⟩
    · rw [s.others q (fun y e => hex ⟨y, e⟩)] at hg
      exact h.keys q n hg
  · by_cases hex : ∃ y, q = m.hash :: y
    · obtain ⟨y, rfl⟩ := hex
      exact s.nodes y n r hg hk hr
    · rw [s.others q (fun y e => hex ⟨y, e⟩)] at hg
      exact h.nodes q n r hg hk hr
  · by_cases hm1m : m1 = m
    · subst hm1m; exact s.points m2 hm2 y hy hp
    · obtain ⟨e1, e2⟩ := hoth m1 hm1 hm1m y
      rw [e1, e2]
      exact h.points m1 hm1 m2 hm2 y hy hp
  · rw [FS.isDirAt_congr (s.fsOther m'.dir (Or.inl (List.mem_map.2 ⟨m', hm', rfl⟩)))]
    exact h.dirs m' hm'
  · by_cases hmm' : m' = m
    · subst hmm'; exact s.same y hy hmy
    · rw [(hoth m' hm' hmm' y).2, s.fsOther _ (Or.inr (fun e => hmm' (by rw [hmy] at e; exact Option.some.inj e)))]
      exact h.same m' hm' y hy hmy
  · have hq' : q ∈ mounts.map (·.dir) ∨ mountFor mounts q ≠ some m := by
      by_cases he : mountFor mounts q = some m
      · left
        obtain ⟨_, hpre, _⟩ := mountFor_some he
        have : m.dir = q := by
          by_contra hc
          exact hq m hmm (below_iff.2 ⟨hpre, hc⟩)
        exact List.mem_map.2 ⟨m, hmm, this⟩
      · exact Or.inr he
    rw [s.fsOther q hq']
    exact h.outside q hq
  · by_cases hmm' : m' = m
    · subst hmm'; exact s.redirects
    · intro y n rd hg hrd
      rw [(hoth m' hm' hmm' y).1]
      exact h.redirects m' hm' y n rd (by rw [← hother m' hm' hmm' y]; exact hg) hrd
  · by_cases hmm' : m' = m
    · subst hmm'; exact s.once y y' l
    · rw [(hoth m' hm' hmm' y).1, (hoth m' hm' hmm' y').1]
      exact h.once m' hm' y y' l
  · by_cases hmm' : m' = m
    · subst hmm'; exact s.lows y l
    · rw [(hoth m' hm' hmm' y).1]
      exact h.lows m' hm' y l

/-- One operation keeps the invariant. -/
theorem HistM.act (hm : MountsOk mounts) (h : HistM mounts host st fs) {a : Act} (ha : ActOk mounts a) : HistM mounts host (actIn mounts st a) (actOn mounts fs a) := by
  obtain ⟨m, hmf⟩ := ha.mount
  obtain ⟨hmm, hpre, hdeep⟩ := mountFor_some hmf
  unfold actIn
  rw [hmf]
  by_cases he : m.dir = a.path
  · have : actOn mounts fs a = fs := by
      unfold actOn
      rw [if_pos]
      simp only [Bool.or_eq_true, List.any_eq_true, beq_iff_eq]
      exact Or.inl ⟨m, hmm, he⟩
    simp only [he, if_true]
    rw [this]
    exact h
  · simp only [if_neg he]
    obtain ⟨sub, hsub⟩ := hpre
    have hsub0 : sub ≠ [] := by rintro rfl; exact he (by simpa using hsub)
    rw [← hsub, List.drop_left]
    rw [← hsub] at hmf
    have hnp := not_point hm hsub0 hmf
    have hsm := h.same m hmm sub hsub0 hmf
    have hch := h.child hm hmm hsub0 hmf
    have hdl : m.dir ++ sub.dropLast = a.path.dropLast := by rw [← hsub, List.dropLast_append_of_ne_nil hsub0]
    have hpar : dirSeen (Spec.view st m.hash m.dir sub.dropLast) = fs.isDirAt a.path.dropLast := by
      rw [← hdl]
      exact h.dirSame hm hmm (mountFor_above hm hmf (List.prefix_append _ _) ((List.prefix_append_right_inj _).2 (dropLast_below hsub0).prefix))
    have hne : a.path ≠ [] := by rw [← hsub]; simp [hsub0]
    have hNsub : NormalPath sub := by have := ha.normal; rw [← hsub] at this; exact this.of_append_right
    have hU := act_updateM h.lawful (h.tops m hmm) hsub0 (fun y hy => h.hashNormal hmm (hNsub.of_prefix hy)) (fun y ⟨n, hn⟩ => h.viewNormal hmm hn) a.what (fun k uid gid perm hw hk => by
        subst hk
        exact ha.device 0 uid gid perm hw rfl)
    have hO := actOn_spec (mounts := mounts) h.fsWf hne ha.normal (fun m2 hm2 => by rw [← hsub]; exact hnp m2 hm2)
    rw [hsm, hpar, hch, hsub] at hU
    obtain ⟨hU1, hU2⟩ := hU
    obtain ⟨hO1, hO2⟩ := hO
    cases hA : actAttrs (attrsOf (fs.get a.path)) (fs.isDirAt a.path.dropLast) (fs.hasChild a.path) a.what with
    | none =>
      rw [hU2 hA, hO2 hA]
      exact h
    | some v =>
      have U := hU1 v hA
      obtain ⟨o1, o2, o3⟩ := hO1 v hA
      -- what a failing history would have to do to a mount point
      have hpt : ∀ m2 ∈ mounts, m.dir ++ sub <+: m2.dir → ∃ n, Spec.view st m.hash m.dir sub = some n ∧ n.isDir = true ∧ n.opq = false ∧ n.redirect = none ∧ v ≠ none := by
        intro m2 hm2 hp2
        obtain ⟨⟨n, h1, h2, h3, h4⟩, _⟩ := h.points m hmm m2 hm2 sub hsub0 hp2
        refine ⟨n, h1, h2, h3, h4, ?_⟩
        rintro rfl
        rw [h1] at hsm
        have hb : Below (m.dir ++ sub) m2.dir := below_iff.2 ⟨hp2, fun e => hnp m2 hm2 e.symm⟩
        have hc : fs.hasChild a.path = true := by
          obtain ⟨k, hk, _⟩ := FS.isDirAt_iff.1 (h.dirs m2 hm2)
          rw [← hsub]
          exact FS.hasChild_iff.2 ⟨_, k, hb, hk⟩
        have hk : n.kind = .dir := by simpa [Node.isDir] using h2
        rw [hsub] at hsm
        rw [← hsm, hc] at hA
        cases hw : a.what <;> rw [hw] at hA <;> simp [actAttrs, attrsOf, hk] at hA
      refine Stepped.hist hm h hmm ⟨U.lawful, U.lower, U.others, U.top, fun y n hg hy => ?_, fun y n r hg hk hr => ?_, fun m2 hm2 y hy hp => ?_, o1, fun q hq => ?_, fun y hy hmy => ?_, fun y n rd hg hrd => ?_,
        fun y y' l h1 h2 => h.once m hmm y y' l (U.lows y l h1) (U.lows y' l h2), fun y l hy h1 => h.lows m hmm y l hy (U.lows y l h1)⟩
      · rcases U.keys y n hg with h' | ⟨h1, h2⟩
        · obtain ⟨k, hk⟩ := Option.isSome_iff_exists.1 h'
          rcases h.keys _ k hk with h1 | ⟨m', hm', s, h1, h2⟩
          · cases h1
          · obtain ⟨e1, rfl⟩ := List.cons.inj h1
            have : m = m' := List.inj_on_of_nodup_map hm.hashes hmm hm' e1
            subst this
            exact h2 hy
        · exact mountFor_above hm hmf (List.prefix_append _ _) ((List.prefix_append_right_inj _).2 h2)
      · rcases U.nodes y n hg with h' | ⟨_, _, h3⟩
        · exact h.nodes _ n r h' hk hr
        · rcases h3 with h3 | h3 | h3
          · rw [h3] at hk; cases hk
          · rw [h3] at hk; cases hk; rfl
          · exfalso
            rw [hk] at h3
            rw [h3] at hA
            have hdev := ha.device r
            cases hw : a.what with
            | put k uid gid perm =>
              rw [hw] at hA
              simp only [actAttrs] at hA
              split at hA
              · cases hA
              · have hA' := Option.some.inj (Option.some.inj hA)
                have : k = .chr r := congrArg (·.1) hA'
                subst this
                exact hdev uid gid perm hw hr
            | mkdir _ _ _ _ =>
              rw [hw] at hA
              simp only [actAttrs] at hA
              split at hA
              · cases hA
              · have := congrArg (·.1) (Option.some.inj (Option.some.inj hA)); cases this
            | attr _ _ _ =>
              rw [hw] at hA
              simp only [actAttrs] at hA
              split at hA
              · cases hA
              · split at hA
                · split at hA
                  · have := congrArg (·.1) (Option.some.inj (Option.some.inj hA)); cases this
                  · cases hA
                · cases hA
            | remove =>
              rw [hw] at hA
              simp only [actAttrs] at hA
              split at hA
              · cases hA
              · split at hA
                · split at hA
                  · cases hA
                  · cases Option.some.inj hA
                · cases hA
      · obtain ⟨⟨k, k1, k2, k3, k4⟩, k5⟩ := h.points m hmm m2 hm2 y hy hp
        constructor
        · by_cases hys : y = sub
          · subst hys
            obtain ⟨n, h1, h2, h3, h4, h5⟩ := hpt m2 hm2 hp
            obtain ⟨⟨k', j1, j2, j3, j4⟩, _⟩ := U.kept n h1 h2 h5
            exact ⟨k', j1, j2, by rw [j3, h3], by rw [j4, h4]⟩
          · exact noDev_dir (U.there y hys) k1 k2 k3 k4
        · by_cases hys : sub <+: y
          · obtain ⟨n, h1, h2, h3, h4, h5⟩ := hpt m2 hm2 (((List.prefix_append_right_inj _).2 hys).trans hp)
            rw [(U.kept n h1 h2 h5).2]; exact k5
          · rw [U.lowOff y hys]; exact k5
      · refine o3 q ?_
        rintro rfl
        rcases hq with hq | hq
        · obtain ⟨m2, hm2, e⟩ := List.mem_map.1 hq
          exact hnp m2 hm2 (by rw [hsub]; exact e)
        · rw [← hsub] at hq; exact hq hmf
      · by_cases hys : y = sub
        · subst hys
          rw [U.here, hsub, o2]
        · rw [attrs_noDev (U.there y hys), o3 _ (fun e => hys (by rw [← hsub] at e; exact List.append_cancel_left e))]
          exact h.same m hmm y hy hmy
      · obtain ⟨g1, n0, g2, g3, g4, g5⟩ := U.redirects y n rd hg hrd
        obtain ⟨j1, j2, j3, j4, j5, j6⟩ := h.redirects m hmm y n0 rd g2 g3
        exact ⟨j1, by rw [g4, j2], by rw [g5, j3], j4, j5, by rw [g1]; exact j6⟩

/-- Moving a directory keeps the invariant. -/
theorem HistM.move (hm : MountsOk mounts) (h : HistM mounts host st fs) {src dst : Path} (hN : NormalPath dst) : HistM mounts host (moveIn mounts st src dst) (moveOn mounts fs src dst) := by
  cases hf : moveFits mounts src dst with
  | false =>
    unfold moveIn moveOn
    rw [hf]
    exact h
  | true =>
    have hO := moveOn_spec h.fsWf hN hf
    unfold moveIn
    rw [hf]
    simp only [if_true]
    unfold moveFits at hf
    simp only [Bool.and_eq_true, Bool.not_eq_true', beq_iff_eq] at hf
    obtain ⟨⟨⟨⟨hf1, hf2⟩, hf3⟩, hf4⟩, hf5⟩ := hf
    obtain ⟨m, hms⟩ := Option.isSome_iff_exists.1 hf1
    have hmd : mountFor mounts dst = some m := by rw [← hf2]; exact hms
    rw [hms]
    simp only
    have hpts : ∀ m2 ∈ mounts, ¬ src <+: m2.dir ∧ ¬ dst <+: m2.dir := by
      intro m2 hm2
      rw [List.any_eq_false] at hf3
      have := hf3 m2 hm2
      simp only [Bool.or_eq_true, List.isPrefixOf_iff_prefix, not_or] at this
      exact this
    have hsd : ¬ src <+: dst := fun hc => by rw [List.isPrefixOf_iff_prefix.2 hc] at hf4; cases hf4
    have hds : ¬ dst <+: src := fun hc => by rw [List.isPrefixOf_iff_prefix.2 hc] at hf5; cases hf5
    obtain ⟨hmm, ⟨a, ha⟩, _⟩ := mountFor_some hms
    obtain ⟨_, ⟨b, hb⟩, _⟩ := mountFor_some hmd
    subst ha; subst hb
    rw [List.drop_left, List.drop_left]
    have ha0 : a ≠ [] := by rintro rfl; exact (hpts m hmm).1 (by simp)
    have hb0 : b ≠ [] := by rintro rfl; exact (hpts m hmm).2 (by simp)
    have hpa : ∀ {x y : Path}, m.dir ++ x <+: m.dir ++ y ↔ x <+: y := List.prefix_append_right_inj _
    have hab : ¬ a <+: b := fun hc => hsd (hpa.2 hc)
    have hba : ¬ b <+: a := fun hc => hds (hpa.2 hc)
    have hdl : m.dir ++ b.dropLast = (m.dir ++ b).dropLast := by rw [List.dropLast_append_of_ne_nil hb0]
    have e1 := h.dirSame hm hmm hms
    have e2 : dirSeen (Spec.view st m.hash m.dir b.dropLast) = fs.isDirAt (m.dir ++ b).dropLast := by
      rw [← hdl]
      exact h.dirSame hm hmm (mountFor_above hm hmd (List.prefix_append _ _) (hpa.2 (dropLast_below hb0).prefix))
    have e3 := h.dirSame hm hmm hmd
    have e4 := h.child hm hmm hb0 hmd
    have e5 : (Spec.view st m.hash m.dir b).isNone = (fs.get (m.dir ++ b)).isNone := by
      have := h.same m hmm b hb0 hmd
      cases hv : Spec.view st m.hash m.dir b <;> cases hg : fs.get (m.dir ++ b) <;> rw [hv, hg] at this <;> simp [attrsOf] at this ⊢
    -- below the two names there are no other mounts
    have hunder : ∀ x, (x = a ∨ x = b) → ∀ y, x <+: y → mountFor mounts (m.dir ++ y) = some m := by
      intro x hx y hy
      refine mountFor_of hm.dirs hmm (List.prefix_append _ _) (fun m' hm' hp => ?_)
      have hmx : mountFor mounts (m.dir ++ x) = some m := by rcases hx with rfl | rfl; exacts [hms, hmd]
      rcases prefix_total hp (hpa.2 hy) with h3 | h3
      · exact (mountFor_some hmx).2.2 m' hm' h3
      · exfalso
        rcases hx with rfl | rfl
        · exact (hpts m' hm').1 h3
        · exact (hpts m' hm').2 h3
    cases hc : (fs.isDirAt (m.dir ++ a) && fs.isDirAt (m.dir ++ b).dropLast && ((fs.get (m.dir ++ b)).isNone || (fs.isDirAt (m.dir ++ b) && !fs.hasChild (m.dir ++ b)))) with
    | false =>
      have : moveUpper st m.hash m.dir a b = st.upper := by
        unfold moveUpper
        rw [e1, e2, e3, e4, e5, hc]
        simp
      rw [this, hO.2 hc]
      exact h
    | true =>
      obtain ⟨o1, o2, o3, o4⟩ := hO.1 hc
      rw [Bool.and_eq_true, Bool.and_eq_true] at hc
      have M := move_update h.lawful (h.tops m hmm) hb0 hab hba (h.redirects m hmm) (h.hashNormal hmm hN.of_append_right) (fun y ⟨n, hn⟩ => h.viewNormal hmm hn)
        (by rw [e1]; exact hc.1.1) (by rw [e2]; exact hc.1.2) (by rw [e3, e4, e5]; exact hc.2)
      have hlow : ∀ y l, lowOf { st with upper := moveUpper st m.hash m.dir a b } m.hash m.dir y = some (some l) →
          (∃ r, y = b ++ r ∧ lowOf st m.hash m.dir (a ++ r) = some (some l)) ∨ (¬ a <+: y ∧ ¬ b <+: y ∧ lowOf st m.hash m.dir y = some (some l)) := by
        intro y l hy
        by_cases h1 : b <+: y
        · obtain ⟨r, rfl⟩ := h1
          rw [M.lowTree] at hy
          exact Or.inl ⟨r, rfl, hy⟩
        · by_cases h2 : a <+: y
          · have := M.gone y h2
            rw [low_of_none M.lawful ⟨(h.tops m hmm).1, by rw [FS.isDirAt_congr (gs := st.upper) M.top]; exact (h.tops m hmm).2⟩ this] at hy
            cases hy
          · rw [M.lowThere y h2 h1] at hy
            exact Or.inr ⟨h2, h1, hy⟩
      refine Stepped.hist hm h hmm ⟨M.lawful, M.lower, M.others, M.top, fun y n hg hy => ?_, fun y n r hg hk hr => ?_, fun m2 hm2 y hy hp => ?_, o1, fun q hq => ?_, fun y hy hmy => ?_, M.redirects,
        fun y y' l h1 h2 => ?_, fun y l hy h1 => ?_⟩
      · rcases M.keys y n hg with h' | ⟨h1, h2⟩ | h1
        · obtain ⟨k, hk⟩ := Option.isSome_iff_exists.1 h'
          rcases h.keys _ k hk with h1 | ⟨m', hm', s, h1, h2⟩
          · cases h1
          · obtain ⟨e1, rfl⟩ := List.cons.inj h1
            have : m = m' := List.inj_on_of_nodup_map hm.hashes hmm hm' e1
            subst this
            exact h2 hy
        · rcases h2 with h2 | h2
          · exact mountFor_above hm hms (List.prefix_append _ _) (hpa.2 h2)
          · exact mountFor_above hm hmd (List.prefix_append _ _) (hpa.2 h2)
        · exact hunder b (Or.inr rfl) y h1
      · rcases M.nodes y n hg with h' | h' | ⟨y', h'⟩
        · rw [h'] at hk; cases hk
        · rw [h'] at hk; cases hk; rfl
        · exact h.nodes _ n r h' hk hr
      · have h1 : ¬ a <+: y := fun hc => (hpts m2 hm2).1 ((hpa.2 hc).trans hp)
        have h2 : ¬ b <+: y := fun hc => (hpts m2 hm2).2 ((hpa.2 hc).trans hp)
        obtain ⟨⟨k, k1, k2, k3, k4⟩, k5⟩ := h.points m hmm m2 hm2 y hy hp
        exact ⟨noDev_dir (M.there y h1 h2) k1 k2 k3 k4, by rw [M.lowThere y h1 h2]; exact k5⟩
      · refine o4 q (fun hc' => ?_) (fun hc' => ?_)
        · rcases hq with hq | hq
          · obtain ⟨m2, hm2, rfl⟩ := List.mem_map.1 hq
            exact (hpts m2 hm2).1 hc'
          · obtain ⟨w, rfl⟩ := hc'
            rw [List.append_assoc] at hq
            exact hq (hunder a (Or.inl rfl) (a ++ w) (List.prefix_append _ _))
        · rcases hq with hq | hq
          · obtain ⟨m2, hm2, rfl⟩ := List.mem_map.1 hq
            exact (hpts m2 hm2).2 hc'
          · obtain ⟨w, rfl⟩ := hc'
            rw [List.append_assoc] at hq
            exact hq (hunder b (Or.inr rfl) (b ++ w) (List.prefix_append _ _))
      · by_cases h1 : b <+: y
        · obtain ⟨r, rfl⟩ := h1
          have hs := h.same m hmm (a ++ r) (by simp [ha0]) (hunder a (Or.inl rfl) _ (List.prefix_append _ _))
          rw [← List.append_assoc, o2, List.append_assoc, ← hs]
          by_cases hr : r = []
          · subst hr; simpa using M.dest
          · exact attrs_noDev (M.tree r hr)
        · by_cases h2 : a <+: y
          · rw [M.gone y h2, o3 _ (hpa.2 h2)]
          · rw [attrs_noDev (M.there y h2 h1), o4 _ (fun hc => h2 (hpa.1 hc)) (fun hc => h1 (hpa.1 hc))]
            exact h.same m hmm y hy hmy
      · rcases hlow y l h1 with ⟨r, rfl, g1⟩ | ⟨g1, g2, g3⟩ <;> rcases hlow y' l h2 with ⟨r', rfl, g1'⟩ | ⟨g1', g2', g3'⟩
        · have := List.append_cancel_left (h.once m hmm _ _ l g1 g1')
          rw [this]
        · exact absurd ⟨r, h.once m hmm _ _ l g1 g3'⟩ g1'
        · exact absurd ⟨r', h.once m hmm _ _ l g1' g3⟩ g1
        · exact h.once m hmm _ _ l g3 g3'
      · rcases hlow y l h1 with ⟨r, rfl, g1⟩ | ⟨g1, g2, g3⟩
        · exact h.lows m hmm _ l (hunder a (Or.inl rfl) _ (List.prefix_append _ _)) g1
        · exact h.lows m hmm _ l hy g3

/-- A step within the model. -/
def StepOk (mounts : List MountHash) : Step → Prop
  | .act a => ActOk mounts a
  | .move _ dst => NormalPath dst

/-- A history keeps the invariant. -/
theorem HistM.run (hm : MountsOk mounts) : ∀ (steps : List Step) {st : State} {fs : FS}, HistM mounts host st fs → (∀ s ∈ steps, StepOk mounts s) →
    HistM mounts host (stepsIn mounts st steps) (stepsOn mounts fs steps)
  | [], _, _, h, _ => h
  | s :: steps, st, fs, h, hs => by
    have h1 : HistM mounts host (stepIn mounts st s) (stepOn mounts fs s) := by
      have := hs s (by simp)
      cases s with
      | act a => exact h.act hm this
      | move p q => exact h.move hm this
    have := HistM.run hm steps h1 (fun s' hs' => hs s' (by simp [hs']))
    simpa [stepsIn, stepsOn] using this

end

end SB
