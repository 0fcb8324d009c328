import Verif.Lib.HistoryStep

/-! Histories: the invariant (proof machinery). -/

namespace SB
open Spec

/-! ### On the host -/

theorem actOn_spec {mounts : List MountHash} {fs : FS} (hw : fs.WF) {a : Act} (hne : a.path ≠ []) (hN : NormalPath a.path) (hm : ∀ m ∈ mounts, m.dir ≠ a.path) :
    (∀ v, actAttrs (attrsOf (fs.get a.path)) (fs.isDirAt a.path.dropLast) (fs.hasChild a.path) a.what = some v →
      (actOn mounts fs a).WF ∧ attrsOf ((actOn mounts fs a).get a.path) = v ∧ ∀ q, q ≠ a.path → (actOn mounts fs a).get q = fs.get q) ∧
    (actAttrs (attrsOf (fs.get a.path)) (fs.isDirAt a.path.dropLast) (fs.hasChild a.path) a.what = none → actOn mounts fs a = fs) := by
  have hany : mounts.any (fun m => m.dir == a.path) = false := by
    rw [Bool.eq_false_iff]; simpa using hm
  unfold actOn
  simp only [hany, Bool.false_or]
  cases hpar : fs.isDirAt a.path.dropLast with
  | false =>
    have hnone : actAttrs (attrsOf (fs.get a.path)) false (fs.hasChild a.path) a.what = none := by cases a.what <;> simp [actAttrs]
    rw [hnone]
    exact ⟨(fun v h => by cases h), fun _ => rfl⟩
  | true =>
    simp only [Bool.not_true, Bool.false_eq_true, if_false]
    have hdirA : (attrsOf (fs.get a.path)).any (fun x => x.1 == .dir) = fs.isDirAt a.path := by
      unfold FS.isDirAt; cases fs.get a.path <;> simp [attrsOf, Node.isDir]
    have hchain : fs.Chain a.path := by
      intro q hq
      obtain ⟨d, hd1, _⟩ := FS.isDirAt_iff.1 hpar
      by_cases he : q = a.path.dropLast
      · rw [he]; exact hpar
      · refine hw.ancestor hd1 (below_iff.2 ⟨?_, he⟩)
        have hl : a.path.dropLast ++ [a.path.getLast hne] = a.path := List.dropLast_append_getLast hne
        have hq' := hq.prefix
        rw [← hl, List.prefix_concat_iff] at hq'
        rcases hq' with h | h
        · rw [hl] at h; exact absurd h hq.ne
        · exact h
    have hset : ∀ n : Node, (n.isDir = false → fs.isDirAt a.path = false) →
        (fs.set a.path n).WF ∧ (fs.set a.path n).get a.path = some n ∧ ∀ q, q ≠ a.path → (fs.set a.path n).get q = fs.get q := by
      intro n hn
      refine ⟨hw.set hN hchain (fun hd => ⟨hne, fun q hq => ?_⟩), by rw [FS.get_set, if_pos rfl], fun q hq => by rw [FS.get_set, if_neg (fun e => hq e.symm)]⟩
      cases hg : fs.get q with
      | none => rfl
      | some k => have := hw.ancestor hg hq; rw [hn hd] at this; cases this
    cases hwt : a.what with
    | put k uid gid perm =>
      simp only [actAttrs, hdirA, Bool.not_true, Bool.false_or]
      by_cases hc : (fs.isDirAt a.path || k == .dir) = true
      · rw [if_pos hc, if_pos hc]
        exact ⟨(fun v h => by cases h), fun _ => rfl⟩
      · rw [if_neg hc, if_neg hc]
        refine ⟨fun v hv => ?_, (fun h => by cases h)⟩
        cases hv
        obtain ⟨h1, h2, h3⟩ := hset { fileNode k uid gid perm with dev := devAt fs a.path.dropLast } (fun _ => by simp at hc; exact hc.1)
        exact ⟨h1, by rw [h2]; rfl, h3⟩
    | mkdir uid gid perm o =>
      simp only [actAttrs, Bool.not_true, Bool.false_or]
      have hsome : (attrsOf (fs.get a.path)).isSome = (fs.get a.path).isSome := by unfold attrsOf; simp
      rw [hsome]
      by_cases hc : (fs.get a.path).isSome = true
      · rw [if_pos hc, if_pos hc]
        exact ⟨(fun v h => by cases h), fun _ => rfl⟩
      · rw [if_neg hc, if_neg hc]
        refine ⟨fun v hv => ?_, (fun h => by cases h)⟩
        cases hv
        obtain ⟨h1, h2, h3⟩ := hset { fileNode .dir uid gid perm with dev := devAt fs a.path.dropLast } (fun h => by simp [fileNode, Node.isDir] at h)
        exact ⟨h1, by rw [h2]; rfl, h3⟩
    | attr uid gid perm =>
      simp only [actAttrs, Bool.not_true, Bool.false_eq_true, if_false]
      cases hg : fs.get a.path with
      | none => exact ⟨(fun v h => by simp [attrsOf] at h), fun _ => rfl⟩
      | some n =>
        simp only [attrsOf, Option.map_some]
        have hdn : (n.kind == .dir) = n.isDir := rfl
        rw [hdn]
        by_cases hc : n.isDir = true
        · rw [if_pos hc, if_pos hc]
          refine ⟨fun v hv => ?_, (fun h => by cases h)⟩
          cases hv
          obtain ⟨h1, h2, h3⟩ := hset { n with uid := uid, gid := gid, perm := perm } (fun h => by rw [show ({ n with uid := uid, gid := gid, perm := perm } : Node).isDir = n.isDir from rfl, hc] at h; cases h)
          refine ⟨h1, ?_, h3⟩
          rw [h2]
          have : n.kind = .dir := by simpa [Node.isDir] using hc
          simp [this]
        · rw [if_neg hc, if_neg hc]
          exact ⟨(fun v h => by cases h), fun _ => rfl⟩
    | remove =>
      simp only [actAttrs, Bool.not_true, Bool.false_eq_true, if_false]
      cases hg : fs.get a.path with
      | none => exact ⟨(fun v h => by simp [attrsOf] at h), fun _ => rfl⟩
      | some n =>
        simp only [attrsOf, Option.map_some]
        have hdn : (n.kind == .dir) = n.isDir := rfl
        rw [hdn]
        by_cases hc : (n.isDir && fs.hasChild a.path) = true
        · rw [if_pos hc, if_pos hc]
          exact ⟨(fun v h => by cases h), fun _ => rfl⟩
        · rw [if_neg hc, if_neg hc]
          refine ⟨fun v hv => ?_, (fun h => by cases h)⟩
          cases hv
          refine ⟨hw.del hne (fun q hq => ?_), by rw [FS.get_del, if_pos rfl]; rfl, fun q hq => by rw [FS.get_del, if_neg (fun e => hq e.symm)]⟩
          cases hgq : fs.get q with
          | none => rfl
          | some k =>
            have h1 := hw.ancestor hgq hq
            have h2 : fs.hasChild a.path = true := FS.hasChild_iff.2 ⟨q, k, hq, hgq⟩
            obtain ⟨n', h3, h4⟩ := FS.isDirAt_iff.1 h1
            rw [hg] at h3; cases h3
            rw [h4, h2] at hc
            exact absurd rfl hc

/-! ### The invariant -/

/-- Mounts: different storage directories and mount points. -/
structure MountsOk (mounts : List MountHash) : Prop where
  dirs : (mounts.map (·.dir)).Nodup
  hashes : (mounts.map (·.hash)).Nodup

/-- The storage and a file system (on which the same was done directly) agree; `T`: the paths of the operations so far. -/
structure Hist (mounts : List MountHash) (T : Path → Prop) (host : FS) (st : State) (fs : FS) : Prop where
  lower : st.lower = host
  regular : Regular st
  tops : ∀ m ∈ mounts, TopOk st m.hash m.dir
  keys : ∀ q n, st.upper.get q = some n → q = [] ∨ ∃ m ∈ mounts, ∃ sub, q = m.hash :: sub ∧ (sub ≠ [] → mountFor mounts (m.dir ++ sub) = some m ∧ ∃ p, T p ∧ m.dir ++ sub <+: p)
  nodes : ∀ q n r, st.upper.get q = some n → n.kind = .chr r → r % 65536 = 0 → r = 0
  points : ∀ m ∈ mounts, ∀ m2 ∈ mounts, ∀ sub, sub ≠ [] → m.dir ++ sub <+: m2.dir → ∃ n, Spec.view st m.hash m.dir sub = some n ∧ n.isDir = true ∧ n.opq = false
  fsWf : fs.WF
  dirs : ∀ m ∈ mounts, fs.isDirAt m.dir = true
  same : ∀ m ∈ mounts, ∀ sub, sub ≠ [] → mountFor mounts (m.dir ++ sub) = some m → attrsOf (Spec.view st m.hash m.dir sub) = attrsOf (fs.get (m.dir ++ sub))
  outside : ∀ q, (∀ m ∈ mounts, ¬ Below m.dir q) → fs.get q = host.get q

/-- An operation within the model: a plain path inside a mount; a device created is not the overlay's whiteout (for which `accept` also takes devices with minor number 0 and major number 0 below 2^16). -/
structure ActOk (mounts : List MountHash) (a : Act) : Prop where
  normal : NormalPath a.path
  mount : ∃ m, mountFor mounts a.path = some m
  device : ∀ r uid gid perm, a.what = .put (.chr r) uid gid perm → r % 65536 ≠ 0

section
variable {mounts : List MountHash} {T : Path → Prop} {host : FS} {st : State} {fs : FS}

theorem mountFor_above (hm : MountsOk mounts) {p q : Path} {m : MountHash} (h : mountFor mounts p = some m) (h1 : m.dir <+: q) (h2 : q <+: p) : mountFor mounts q = some m := by
  obtain ⟨a, b, c⟩ := mountFor_some h
  exact mountFor_of hm.dirs a h1 (fun m' hm' hp => c m' hm' (hp.trans h2))

theorem not_point (_ : MountsOk mounts) {m : MountHash} {sub : Path} (hsub : sub ≠ []) (h : mountFor mounts (m.dir ++ sub) = some m) : ∀ m2 ∈ mounts, m2.dir ≠ m.dir ++ sub := by
  intro m2 hm2 e
  obtain ⟨_, _, c⟩ := mountFor_some h
  have := (c m2 hm2 (by rw [e])).length_le
  rw [e, List.length_append] at this
  exact hsub (List.length_eq_zero_iff.1 (by omega))

/-- A mount point below, or the same mount. -/
theorem nested_or (hm : MountsOk mounts) {m : MountHash} (hmm : m ∈ mounts) {sub y : Path} (h : mountFor mounts (m.dir ++ sub) = some m) (hsub : sub ≠ []) (hb : Below sub y) :
    (∃ m2 ∈ mounts, Below (m.dir ++ sub) m2.dir) ∨ mountFor mounts (m.dir ++ y) = some m := by
  by_cases hex : ∃ m2 ∈ mounts, Below (m.dir ++ sub) m2.dir
  · exact Or.inl hex
  · right
    obtain ⟨_, _, c⟩ := mountFor_some h
    refine mountFor_of hm.dirs hmm (List.prefix_append _ _) (fun m' hm' hp => ?_)
    have h2 : m.dir ++ sub <+: m.dir ++ y := (List.prefix_append_right_inj _).2 hb.prefix
    rcases prefix_total hp h2 with h3 | h3
    · exact c m' hm' h3
    · by_cases he : m.dir ++ sub = m'.dir
      · exact absurd he.symm (not_point hm hsub h m' hm')
      · exact absurd ⟨m', hm', below_iff.2 ⟨h3, he⟩⟩ hex

theorem below_drop {a b : Path} (h : Below a b) {p : Path} (hp : p <+: a) : ∃ x y, a = p ++ x ∧ b = p ++ y ∧ Below x y := by
  obtain ⟨x, rfl⟩ := hp
  obtain ⟨w, hw, rfl⟩ := h
  exact ⟨x, x ++ w, rfl, by rw [List.append_assoc], ⟨w, hw, rfl⟩⟩

/-- Something is seen below in the sandbox iff something is there. -/
theorem Hist.child (hm : MountsOk mounts) (h : Hist mounts T host st fs) {m : MountHash} (hmm : m ∈ mounts) {sub : Path} (hsub : sub ≠ []) (hmf : mountFor mounts (m.dir ++ sub) = some m) :
    childSeen st m.hash m.dir sub = fs.hasChild (m.dir ++ sub) := by
  have key : childSeen st m.hash m.dir sub = true ↔ fs.hasChild (m.dir ++ sub) = true := by
    rw [childSeen_iff h.regular (h.tops m hmm), FS.hasChild_iff]
    by_cases hex : ∃ m2 ∈ mounts, Below (m.dir ++ sub) m2.dir
    · obtain ⟨m2, hm2, hb2⟩ := hex
      constructor
      · intro _
        obtain ⟨n, hn, _⟩ := FS.isDirAt_iff.1 (h.dirs m2 hm2)
        exact ⟨m2.dir, n, hb2, hn⟩
      · intro _
        obtain ⟨w, hw, he⟩ := hb2
        obtain ⟨n, hn, _⟩ := h.points m hmm m2 hm2 (sub ++ w) (by simp [hw]) (by rw [he, List.append_assoc])
        exact ⟨sub ++ w, ⟨w, hw, rfl⟩, by rw [hn]; rfl⟩
    · have hsame : ∀ y, Below sub y → attrsOf (Spec.view st m.hash m.dir y) = attrsOf (fs.get (m.dir ++ y)) := by
        intro y hb
        rcases nested_or hm hmm hmf hsub hb with h1 | h1
        · exact absurd h1 hex
        · refine h.same m hmm y ?_ h1
          rintro rfl
          obtain ⟨w, hw, he⟩ := hb
          simp at he
          exact hw he.2
      constructor
      · rintro ⟨y, hb, hv⟩
        have := hsame y hb
        obtain ⟨k, hk⟩ := Option.isSome_iff_exists.1 hv
        rw [hk] at this
        cases hg : fs.get (m.dir ++ y) with
        | none => rw [hg] at this; simp [attrsOf] at this
        | some n =>
          refine ⟨m.dir ++ y, n, ?_, hg⟩
          obtain ⟨w, hw, rfl⟩ := hb
          exact ⟨w, hw, by rw [List.append_assoc]⟩
      · rintro ⟨q, n, hb, hg⟩
        obtain ⟨w, hw, rfl⟩ := hb
        rw [List.append_assoc] at hg
        refine ⟨sub ++ w, ⟨w, hw, rfl⟩, ?_⟩
        have := hsame (sub ++ w) ⟨w, hw, rfl⟩
        rw [hg] at this
        cases hv : Spec.view st m.hash m.dir (sub ++ w) with
        | none => rw [hv] at this; simp [attrsOf] at this
        | some k => rfl
  cases h1 : childSeen st m.hash m.dir sub <;> cases h2 : fs.hasChild (m.dir ++ sub) <;> simp_all

theorem view_top (h : Hist mounts T host st fs) {m : MountHash} (hmm : m ∈ mounts) : dirSeen (Spec.view st m.hash m.dir []) = true := by
  obtain ⟨t, ht1, ht2⟩ := FS.isDirAt_iff.1 (h.tops m hmm).2
  have : Spec.view st m.hash m.dir [] = some t := by simp [Spec.view, Spec.lookup, Spec.lookupRev, ht1]
  rw [this]
  exact ht2

theorem dirSeen_attrs {o o' : Option Node} (h : attrsOf o = attrsOf o') : dirSeen o = dirSeen o' := by
  cases o <;> cases o' <;> simp_all [attrsOf, dirSeen, Node.isDir]

theorem isDirAt_dirSeen {fs : FS} {p : Path} : fs.isDirAt p = dirSeen (fs.get p) := by
  unfold FS.isDirAt dirSeen; cases fs.get p <;> rfl

theorem attrs_noDev {a b : Option Node} (h : noDev a = noDev b) : attrsOf a = attrsOf b := by
  cases b with
  | none => rw [noDev_none.1 h]
  | some k =>
    obtain ⟨n, rfl, h1, _, h2, h3, h4⟩ := noDev_some h
    simp [attrsOf, h1, h2, h3, h4]

theorem dir_noDev {a b : Option Node} {k : Node} (h : noDev a = noDev b) (hb : b = some k) (hd : k.isDir = true) (ho : k.opq = false) : ∃ n, a = some n ∧ n.isDir = true ∧ n.opq = false := by
  subst hb
  obtain ⟨n, rfl, h1, h2, _⟩ := noDev_some h
  exact ⟨n, rfl, by unfold Node.isDir at hd ⊢; rw [h1]; exact hd, by rw [h2]; exact ho⟩

/-- One operation keeps the invariant. -/
theorem Hist.step (hm : MountsOk mounts) (h : Hist mounts T host st fs) {a : Act} (ha : ActOk mounts a) (hT : T a.path) : Hist mounts T host (actIn mounts st a) (actOn mounts fs a) := by
  obtain ⟨m, hmf⟩ := ha.mount
  obtain ⟨hmm, hpre, hdeep⟩ := mountFor_some hmf
  unfold actIn
  rw [hmf]
  by_cases he : m.dir = a.path
  · have : actOn mounts fs a = fs := by
      unfold actOn
      rw [if_pos]
      simp only [Bool.or_eq_true, List.any_eq_true, beq_iff_eq]
      exact Or.inl ⟨m, hmm, he⟩
    simp only [he, if_true]
    rw [this]
    exact h
  · simp only [if_neg he]
    obtain ⟨sub, hsub⟩ := hpre
    have hsub0 : sub ≠ [] := by rintro rfl; exact he (by simpa using hsub)
    rw [← hsub, List.drop_left]
    rw [← hsub] at hmf
    have hnp := not_point hm hsub0 hmf
    have hsm := h.same m hmm sub hsub0 hmf
    have hch := h.child hm hmm hsub0 hmf
    have hdl : m.dir ++ sub.dropLast = a.path.dropLast := by rw [← hsub, List.dropLast_append_of_ne_nil hsub0]
    have hpar : dirSeen (Spec.view st m.hash m.dir sub.dropLast) = fs.isDirAt a.path.dropLast := by
      by_cases hd0 : sub.dropLast = []
      · rw [hd0, view_top h hmm, ← hdl, hd0, List.append_nil, h.dirs m hmm]
      · rw [isDirAt_dirSeen, ← hdl]
        exact dirSeen_attrs (h.same m hmm _ hd0 (mountFor_above hm hmf (List.prefix_append _ _) ((List.prefix_append_right_inj _).2 (dropLast_below hsub0).prefix)))
    have hne : a.path ≠ [] := by rw [← hsub]; simp [hsub0]
    have hNh : NormalName m.hash := by
      obtain ⟨t, ht1, _⟩ := FS.isDirAt_iff.1 (h.tops m hmm).2
      exact h.regular.upper.normal_of_get ht1 m.hash (by simp)
    have hNsub : NormalPath sub := by have := ha.normal; rw [← hsub] at this; exact this.of_append_right
    have hcons : ∀ y, NormalPath y → NormalPath (m.hash :: y) := by
      intro y hy n hn
      rcases List.mem_cons.1 hn with rfl | hn
      · exact hNh
      · exact hy n hn
    have hU := act_update h.regular (h.tops m hmm) hsub0 (fun y hy => hcons y (hNsub.of_prefix hy)) (fun y ⟨n, hn⟩ => by
      cases hg : st.upper.get (m.hash :: y) with
      | some k => exact h.regular.upper.normal_of_get hg
      | none => exact hcons y (h.regular.host.normal_of_get (view_host h.regular (h.tops m hmm) hg hn)).of_append_right) a.what (fun k uid gid perm hw hk => by
        subst hk
        exact ha.device 0 uid gid perm hw rfl)
    have hO := actOn_spec (mounts := mounts) h.fsWf hne ha.normal (fun m2 hm2 => by rw [← hsub]; exact hnp m2 hm2)
    rw [hsm, hpar, hch, hsub] at hU
    obtain ⟨hU1, hU2⟩ := hU
    obtain ⟨hO1, hO2⟩ := hO
    have hhash : ∀ m' ∈ mounts, m' ≠ m → m'.hash ≠ m.hash := fun m' hm' hne' e => hne' (List.inj_on_of_nodup_map hm.hashes hm' hmm e)
    cases hA : actAttrs (attrsOf (fs.get a.path)) (fs.isDirAt a.path.dropLast) (fs.hasChild a.path) a.what with
    | none =>
      rw [hU2 hA, hO2 hA]
      exact h
    | some v =>
      have U := hU1 v hA
      obtain ⟨o1, o2, o3⟩ := hO1 v hA
      have htops : ∀ m' ∈ mounts, TopOk { st with upper := actUpper st m.hash m.dir sub a.what } m'.hash m'.dir := by
        intro m' hm'
        refine ⟨(h.tops m' hm').1, ?_⟩
        have : ({ st with upper := actUpper st m.hash m.dir sub a.what } : State).upper.get [m'.hash] = st.upper.get [m'.hash] := by
          by_cases hmm' : m' = m
          · subst hmm'; exact U.top
          · exact U.others _ (fun y e => hhash m' hm' hmm' (List.cons.inj e).1)
        rw [FS.isDirAt_congr this]
        exact (h.tops m' hm').2
      have hviews : ∀ m' ∈ mounts, m' ≠ m → ∀ y, noDev (Spec.view { st with upper := actUpper st m.hash m.dir sub a.what } m'.hash m'.dir y) = noDev (Spec.view st m'.hash m'.dir y) := by
        intro m' hm' hmm' y
        have hg : ∀ z, ({ st with upper := actUpper st m.hash m.dir sub a.what } : State).upper.get (m'.hash :: z) = st.upper.get (m'.hash :: z) :=
          fun z => U.others _ (fun y e => hhash m' hm' hmm' (List.cons.inj e).1)
        exact view_same h.regular U.regular rfl (h.tops m' hm') (htops m' hm') (fun q _ _ => by rw [hg q]) (Or.inl (hg y))
      -- what a failing history would have to do to a mount point
      have hpt : ∀ m2 ∈ mounts, m.dir ++ sub <+: m2.dir → ∃ n, Spec.view st m.hash m.dir sub = some n ∧ n.isDir = true ∧ n.opq = false ∧ v ≠ none := by
        intro m2 hm2 hp2
        obtain ⟨n, h1, h2, h3⟩ := h.points m hmm m2 hm2 sub hsub0 hp2
        refine ⟨n, h1, h2, h3, ?_⟩
        rintro rfl
        rw [h1] at hsm
        have hb : Below (m.dir ++ sub) m2.dir := below_iff.2 ⟨hp2, fun e => hnp m2 hm2 e.symm⟩
        have hc : fs.hasChild a.path = true := by
          obtain ⟨k, hk, _⟩ := FS.isDirAt_iff.1 (h.dirs m2 hm2)
          rw [← hsub]
          exact FS.hasChild_iff.2 ⟨_, k, hb, hk⟩
        have hk : n.kind = .dir := by simpa [Node.isDir] using h2
        rw [hsub] at hsm
        rw [← hsm, hc] at hA
        cases hw : a.what <;> rw [hw] at hA <;> simp [actAttrs, attrsOf, hk] at hA
      refine ⟨h.lower, U.regular, htops, fun q n hg => ?_, fun q n r hg hk hr => ?_, fun m1 hm1 m2 hm2 y hy hp => ?_, o1, fun m' hm' => ?_, fun m' hm' y hy hmy => ?_, fun q hq => ?_⟩
      · by_cases hex : ∃ y, q = m.hash :: y
        · obtain ⟨y, rfl⟩ := hex
          rcases U.keys y n hg with h' | ⟨h1, h2⟩
          · obtain ⟨k, hk⟩ := Option.isSome_iff_exists.1 h'
            exact h.keys _ k hk
          · have h3 : m.dir ++ y <+: m.dir ++ sub := (List.prefix_append_right_inj _).2 h2
            exact Or.inr ⟨m, hmm, y, rfl, fun _ => ⟨mountFor_above hm hmf (List.prefix_append _ _) h3, a.path, hT, by rw [← hsub]; exact h3⟩⟩
        · have := U.others q (fun y e => hex ⟨y, e⟩)
          rw [this] at hg
          exact h.keys q n hg
      · by_cases hex : ∃ y, q = m.hash :: y
        · obtain ⟨y, rfl⟩ := hex
          rcases U.nodes y n hg with h' | ⟨_, _, h3⟩
          · exact h.nodes _ n r h' hk hr
          · rcases h3 with h3 | h3 | h3
            · rw [h3] at hk; cases hk
            · rw [h3] at hk; cases hk; rfl
            · exfalso
              rw [hk] at h3
              rw [h3] at hA
              have hdev := ha.device r
              cases hw : a.what with
              | put k uid gid perm =>
                rw [hw] at hA
                simp only [actAttrs] at hA
                split at hA
                · cases hA
                · have hA' := Option.some.inj (Option.some.inj hA)
                  have : k = .chr r := congrArg (·.1) hA'
                  subst this
                  exact hdev uid gid perm hw hr
              | mkdir _ _ _ _ =>
                rw [hw] at hA
                simp only [actAttrs] at hA
                split at hA
                · cases hA
                · have := congrArg (·.1) (Option.some.inj (Option.some.inj hA)); cases this
              | attr _ _ _ =>
                rw [hw] at hA
                simp only [actAttrs] at hA
                split at hA
                · cases hA
                · split at hA
                  · split at hA
                    · have := congrArg (·.1) (Option.some.inj (Option.some.inj hA)); cases this
                    · cases hA
                  · cases hA
              | remove =>
                rw [hw] at hA
                simp only [actAttrs] at hA
                split at hA
                · cases hA
                · split at hA
                  · split at hA
                    · cases hA
                    · cases Option.some.inj hA
                  · cases hA
        · have := U.others q (fun y e => hex ⟨y, e⟩)
          rw [this] at hg
          exact h.nodes q n r hg hk hr
      · by_cases hm1m : m1 = m
        · subst hm1m
          by_cases hys : y = sub
          · subst hys
            obtain ⟨n, h1, h2, h3, h4⟩ := hpt m2 hm2 hp
            obtain ⟨k', k1, k2, k3⟩ := U.kept n h1 h2 h4
            exact ⟨k', k1, k2, by rw [k3, h3]⟩
          · obtain ⟨k, k1, k2, k3⟩ := h.points m1 hm1 m2 hm2 y hy hp
            exact dir_noDev (U.there y hys) k1 k2 k3
        · obtain ⟨k, k1, k2, k3⟩ := h.points m1 hm1 m2 hm2 y hy hp
          exact dir_noDev (hviews m1 hm1 hm1m y) k1 k2 k3
      · rw [FS.isDirAt_congr (o3 m'.dir (by rw [← hsub]; exact hnp m' hm'))]
        exact h.dirs m' hm'
      · by_cases hmm' : m' = m
        · subst hmm'
          by_cases hys : y = sub
          · subst hys
            rw [U.here, hsub, o2]
          · rw [attrs_noDev (U.there y hys), o3 _ (fun e => hys (by rw [← hsub] at e; exact List.append_cancel_left e))]
            exact h.same m' hm' y hy hmy
        · rw [attrs_noDev (hviews m' hm' hmm' y), o3 _ (fun e => ?_)]
          · exact h.same m' hm' y hy hmy
          · rw [e, ← hsub, hmf] at hmy
            exact hmm' (Option.some.inj hmy).symm
      · rw [o3 q (fun e => ?_)]
        · exact h.outside q hq
        · exact hq m hmm (by rw [e, ← hsub]; exact ⟨sub, hsub0, rfl⟩)

/-- A history keeps the invariant. -/
theorem Hist.run (hm : MountsOk mounts) : ∀ (acts : List Act) {st : State} {fs : FS}, Hist mounts T host st fs → (∀ a ∈ acts, ActOk mounts a ∧ T a.path) →
    Hist mounts T host (runIn mounts st acts) (runOn mounts fs acts)
  | [], _, _, h, _ => h
  | a :: acts, st, fs, h, ha => by
    have := Hist.run hm acts (h.step hm (ha a (by simp)).1 (ha a (by simp)).2) (fun b hb => ha b (by simp [hb]))
    simpa [runIn, runOn] using this

end

end SB
