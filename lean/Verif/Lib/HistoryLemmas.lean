import Verif.Model.History
import Verif.Lib.OverlayLemmas
import Verif.Lib.FSOps

/-! Histories of a sandbox: views after an operation (proof machinery). -/

namespace SB
open Spec

/-! ### Mounts -/

theorem mountFor_some {mounts : List MountHash} {p : Path} {m : MountHash} (h : mountFor mounts p = some m) :
    m ∈ mounts ∧ m.dir <+: p ∧ ∀ m' ∈ mounts, m'.dir <+: p → m'.dir <+: m.dir := by
  unfold mountFor at h
  obtain ⟨l1, y, l2, h1, h2, h3⟩ := List.findSome?_eq_some_iff.1 h
  have hm := List.mem_of_find?_eq_some h2
  have hd : m.dir = y := by simpa using List.find?_some h2
  have hy : y <+: p := by
    have : y ∈ p.inits := by rw [← List.mem_reverse, h1]; simp
    exact (List.mem_inits y p).1 this
  refine ⟨hm, hd ▸ hy, fun m' hm' hp' => ?_⟩
  rw [hd]
  have hin : m'.dir ∈ p.inits.reverse := List.mem_reverse.2 ((List.mem_inits _ _).2 hp')
  rcases prefix_total hp' hy with hc | hc
  · exact hc
  · by_cases he : m'.dir = y
    · rw [he]
    · exfalso
      rw [h1] at hin
      rcases List.mem_append.1 hin with h' | h'
      · have := h3 _ h'
        rw [List.find?_eq_none] at this
        exact this m' hm' (by simp)
      · rcases List.mem_cons.1 h' with h' | h'
        · exact he h'
        · -- later in the list means shorter
          have hlt : m'.dir.length < y.length := by
            have hs : (p.inits.reverse).Pairwise (fun a b => b.length < a.length) := by
              rw [List.pairwise_reverse]
              clear h1 h h' hin hy hp' hc
              induction p with
              | nil => simp
              | cons a p ih =>
                rw [List.inits_cons, List.pairwise_cons]
                refine ⟨fun b hb => ?_, ?_⟩
                · obtain ⟨c, _, rfl⟩ := List.mem_map.1 hb; simp
                · rw [List.pairwise_map]; exact ih.imp (by intros; simpa using ‹_›)
            rw [h1] at hs
            exact (List.pairwise_cons.1 (List.pairwise_append.1 hs).2.1).1 _ h'
          have := hc.length_le
          omega

theorem mountFor_of {mounts : List MountHash} (hd : (mounts.map (·.dir)).Nodup) {p : Path} {m : MountHash} (hm : m ∈ mounts) (hp : m.dir <+: p)
    (hdeep : ∀ m' ∈ mounts, m'.dir <+: p → m'.dir <+: m.dir) : mountFor mounts p = some m := by
  cases h : mountFor mounts p with
  | none =>
    unfold mountFor at h
    rw [List.findSome?_eq_none_iff] at h
    have := h m.dir (List.mem_reverse.2 ((List.mem_inits _ _).2 hp))
    rw [List.find?_eq_none] at this
    exact absurd (by simp) (this m hm)
  | some m' =>
    obtain ⟨h1, h2, h3⟩ := mountFor_some h
    have e1 := h3 m hm hp
    have e2 := hdeep m' h1 h2
    have : m'.dir = m.dir := (List.IsPrefix.eq_of_length_le e2 e1.length_le)
    exact congrArg some (List.inj_on_of_nodup_map hd h1 hm this)

/-! ### Views -/

/-- What is needed for the closed form of the view. -/
structure Regular (st : State) : Prop where
  host : st.lower.WF
  upper : st.upper.WF
  redirect : ∀ q n, st.upper.get q = some n → n.redirect = none
  whiteout : ∀ q n, st.upper.get q = some n → n.whiteout = false
  plain : ∀ q n, st.lower.get q = some n → n.redirect = none ∧ n.opq = false ∧ n.whiteout = false

/-- The top of the mount. -/
def TopOk (st : State) (m : Name) (mp : Path) : Prop := st.lower.isDirAt mp = true ∧ st.upper.isDirAt [m] = true

theorem Regular.view {st : State} (h : Regular st) {m : Name} {mp : Path} (ht : TopOk st m mp) (sub : Path) :
    (∀ n, st.upper.get (m :: sub) = some n → (isWhiteout n = true → Spec.view st m mp sub = none) ∧ (isWhiteout n = false → Spec.view st m mp sub = some n)) ∧
    (st.upper.get (m :: sub) = none → (HiddenAt st m sub.reverse → Spec.view st m mp sub = none) ∧ (¬ HiddenAt st m sub.reverse → Spec.view st m mp sub = st.lower.get (mp ++ sub))) :=
  view_closed h.host h.upper ht.1 ht.2 h.redirect (fun q n hg hw => by rw [h.whiteout q n hg] at hw; cases hw) sub

theorem isDir_iff_ftype {n : Node} : n.isDir = true ↔ ftype n.kind = .directory := by
  unfold Node.isDir ftype; cases n.kind <;> simp

/-- Hiding, as a property of what is stored. -/
def HidesOpt (o : Option Node) : Prop := ∃ n, o = some n ∧ Hides n

theorem hiddenAt_iff {st : State} {m : Name} {y : Path} : HiddenAt st m y.reverse ↔ ∃ q, q ≠ [] ∧ q <+: y ∧ HidesOpt (st.upper.get (m :: q)) := by
  unfold HiddenAt HidesOpt
  rw [List.reverse_reverse]
  constructor
  · rintro ⟨q, n, h1, h2, h3, h4⟩; exact ⟨q, h1, h2, n, h3, h4⟩
  · rintro ⟨q, h1, h2, n, h3, h4⟩; exact ⟨q, n, h1, h2, h3, h4⟩

/-- A node without the device number (copying up changes it). -/
def noDev (o : Option Node) : Option Node := o.map (fun n => { n with dev := 0 })

theorem noDev_dev {n : Node} {d : Nat} : noDev (some { n with dev := d }) = noDev (some n) := rfl

theorem noDev_none {o : Option Node} : noDev o = none ↔ o = none := by cases o <;> simp [noDev]

theorem noDev_some {o : Option Node} {k : Node} (h : noDev o = noDev (some k)) : ∃ n, o = some n ∧ n.kind = k.kind ∧ n.opq = k.opq ∧ n.uid = k.uid ∧ n.gid = k.gid ∧ n.perm = k.perm := by
  cases o with
  | none => simp [noDev] at h
  | some n =>
    simp only [noDev, Option.map_some, Option.some.injEq, Node.mk.injEq] at h
    exact ⟨n, rfl, by simp_all⟩

/-- The view at a path depends on what is stored there and on which directories above are hiding. -/
theorem view_same {st st' : State} (hs : Regular st) (hs' : Regular st') (hl : st'.lower = st.lower) {m : Name} {mp : Path} (ht : TopOk st m mp) (ht' : TopOk st' m mp) {y : Path}
    (h1 : ∀ q, q ≠ [] → q <+: y → (HidesOpt (st'.upper.get (m :: q)) ↔ HidesOpt (st.upper.get (m :: q))))
    (h2 : st'.upper.get (m :: y) = st.upper.get (m :: y) ∨ (st.upper.get (m :: y) = none ∧ ∃ n d, st'.upper.get (m :: y) = some { n with dev := d } ∧ isWhiteout n = false ∧ Spec.view st m mp y = some n)) :
    noDev (Spec.view st' m mp y) = noDev (Spec.view st m mp y) := by
  obtain ⟨v1, v2⟩ := hs.view ht y
  obtain ⟨w1, w2⟩ := hs'.view ht' y
  have hh : HiddenAt st' m y.reverse ↔ HiddenAt st m y.reverse := by
    rw [hiddenAt_iff, hiddenAt_iff]
    constructor
    · rintro ⟨q, a, b, c⟩; exact ⟨q, a, b, (h1 q a b).1 c⟩
    · rintro ⟨q, a, b, c⟩; exact ⟨q, a, b, (h1 q a b).2 c⟩
  rcases h2 with h2 | ⟨h2, n, d, h3, h4, h5⟩
  · cases hg : st.upper.get (m :: y) with
    | some n =>
      rw [hg] at h2
      cases hw : isWhiteout n with
      | true => rw [(w1 n h2).1 hw, (v1 n hg).1 hw]
      | false => rw [(w1 n h2).2 hw, (v1 n hg).2 hw]
    | none =>
      rw [hg] at h2
      by_cases hH : HiddenAt st m y.reverse
      · rw [(w2 h2).1 (hh.2 hH), (v2 hg).1 hH]
      · rw [(w2 h2).2 (fun h => hH (hh.1 h)), (v2 hg).2 hH, hl]
  · rw [(w1 _ h3).2 h4, h5]; rfl

/-- What is seen is in directories that are seen. -/
theorem view_parent {st : State} (hs : Regular st) {m : Name} {mp : Path} (ht : TopOk st m mp) {y : Path} {n : Node} (hy : y ≠ []) (h : Spec.view st m mp y = some n) :
    dirSeen (Spec.view st m mp y.dropLast) = true := by
  obtain ⟨v1, v2⟩ := hs.view ht y
  obtain ⟨w1, w2⟩ := hs.view ht y.dropLast
  have hb : Below y.dropLast y := dropLast_below hy
  cases hg : st.upper.get (m :: y) with
  | some k =>
    have hanc := hs.upper.ancestor hg (show Below (m :: y.dropLast) (m :: y) from by
      obtain ⟨w, h1, h2⟩ := hb
      exact ⟨w, h1, by rw [List.cons_append, ← h2]⟩)
    obtain ⟨d, hd1, hd2⟩ := FS.isDirAt_iff.1 hanc
    have hnw : isWhiteout d = false := by
      unfold isWhiteout
      rw [hs.whiteout _ d hd1]
      unfold Node.isDir at hd2
      simp only [beq_iff_eq] at hd2
      simp [hd2]
    rw [(w1 d hd1).2 hnw]
    exact hd2
  | none =>
    have hnh : ¬ HiddenAt st m y.reverse := fun hH => by rw [(v2 hg).1 hH] at h; cases h
    rw [(v2 hg).2 hnh] at h
    have hdir : st.lower.isDirAt (mp ++ y.dropLast) = true := hs.host.ancestor h (by
      obtain ⟨w, h1, h2⟩ := hb
      exact ⟨w, h1, by rw [List.append_assoc, ← h2]⟩)
    have hnh' : ∀ q, q ≠ [] → q <+: y.dropLast → ¬ HidesOpt (st.upper.get (m :: q)) := fun q h1 h2 h3 => hnh (hiddenAt_iff.2 ⟨q, h1, h2.trans hb.prefix, h3⟩)
    cases hg' : st.upper.get (m :: y.dropLast) with
    | none =>
      rw [(w2 hg').2 (fun hH => by obtain ⟨q, h1, h2, h3⟩ := hiddenAt_iff.1 hH; exact hnh' q h1 h2 h3)]
      obtain ⟨d, hd1, hd2⟩ := FS.isDirAt_iff.1 hdir
      rw [hd1]
      exact hd2
    | some d =>
      by_cases hy' : y.dropLast = []
      · rw [hy'] at hg' ⊢
        obtain ⟨t, ht1, ht2⟩ := FS.isDirAt_iff.1 ht.2
        rw [ht1] at hg'
        cases hg'
        have : Spec.view st m mp [] = some d := by simp [Spec.view, Spec.lookup, Spec.lookupRev, ht1]
        rw [this]
        exact ht2
      · have hnot := hnh' _ hy' (List.prefix_refl _)
        rw [hg'] at hnot
        have hnw : isWhiteout d = false := by
          cases hw : isWhiteout d with
          | false => rfl
          | true => exact absurd ⟨d, rfl, Or.inl hw⟩ hnot
        have hfd : ftype d.kind = .directory := by
          by_contra hc
          exact hnot ⟨d, rfl, Or.inr (Or.inr hc)⟩
        rw [(w1 d hg').2 hnw]
        exact isDir_iff_ftype.2 hfd

theorem view_above {st : State} (hs : Regular st) {m : Name} {mp : Path} (ht : TopOk st m mp) {y : Path} {n : Node} (h : Spec.view st m mp y = some n) {q : Path} (hq : Below q y) :
    dirSeen (Spec.view st m mp q) = true := by
  obtain ⟨w, hw, rfl⟩ := hq
  induction w using List.reverseRecOn generalizing n with
  | nil => exact absurd rfl hw
  | append_singleton w x ih =>
    have hp := view_parent hs ht (by simp) h
    rw [← List.append_assoc, List.dropLast_concat] at hp
    by_cases hw0 : w = []
    · subst hw0; simpa using hp
    · cases hv : Spec.view st m mp (q ++ w) with
      | none => rw [hv] at hp; cases hp
      | some k => exact ih hw0 hv

/-! ### Copy-up -/

theorem below_cons {m : Name} {a b : Path} (h : Below a b) : Below (m :: a) (m :: b) := by
  obtain ⟨w, h1, h2⟩ := h
  exact ⟨w, h1, by rw [List.cons_append, ← h2]⟩

theorem cons_prefix {m : Name} {a b : Path} : (m :: a) <+: (m :: b) ↔ a <+: b := by
  rw [List.cons_prefix_cons]; simp

/-- What is seen and not stored is the host's. -/
theorem view_host {st : State} (hs : Regular st) {m : Name} {mp : Path} (ht : TopOk st m mp) {y : Path} {n : Node} (hg : st.upper.get (m :: y) = none) (h : Spec.view st m mp y = some n) :
    st.lower.get (mp ++ y) = some n := by
  obtain ⟨_, v2⟩ := hs.view ht y
  by_cases hH : HiddenAt st m y.reverse
  · rw [(v2 hg).1 hH] at h; cases h
  · rwa [(v2 hg).2 hH] at h

theorem not_hides_dir {n : Node} (hd : n.isDir = true) (ho : n.opq = false) (hw : n.whiteout = false) : ¬ Hides n := by
  unfold Node.isDir at hd
  simp only [beq_iff_eq] at hd
  rintro (h | h | h)
  · unfold isWhiteout at h; rw [hd, hw] at h; simp at h
  · rw [ho] at h; cases h
  · rw [hd] at h; exact h rfl

/-- Copying up stores, for directories above, what is seen. -/
theorem copyUp_spec {st : State} (hs : Regular st) {m : Name} {mp : Path} (ht : TopOk st m mp) (hN : ∀ y, (∃ n, Spec.view st m mp y = some n) → NormalPath (m :: y)) : ∀ (r : List Name),
    dirSeen (Spec.view st m mp r.reverse) = true →
    (copyUp st m mp r).WF ∧ (copyUp st m mp r).isDirAt (m :: r.reverse) = true ∧
    ∀ q, (copyUp st m mp r).get q = st.upper.get q ∨ (st.upper.get q = none ∧ ∃ y n, q = m :: y ∧ y ≠ [] ∧ y <+: r.reverse ∧ (copyUp st m mp r).get q = some { n with dev := devAt st.upper [m] } ∧
      Spec.view st m mp y = some n ∧ st.lower.get (mp ++ y) = some n ∧ n.isDir = true)
  | [], _ => ⟨hs.upper, ht.2, fun _ => Or.inl rfl⟩
  | x :: r, hd => by
    cases hv : Spec.view st m mp (x :: r).reverse with
    | none => rw [hv] at hd; cases hd
    | some n =>
      rw [hv] at hd
      have hpar := view_parent hs ht (by simp) hv
      rw [List.reverse_cons, List.dropLast_concat] at hpar
      obtain ⟨i1, i2, i3⟩ := copyUp_spec hs ht hN r hpar
      have hpre : ∀ y, y <+: r.reverse → y <+: (x :: r).reverse := fun y h => h.trans ⟨[x], by simp⟩
      unfold copyUp
      simp only [hv]
      split
      · rename_i hsome
        refine ⟨i1, ?_, fun q => ?_⟩
        · obtain ⟨k, hk⟩ := Option.isSome_iff_exists.1 hsome
          rcases i3 (m :: (x :: r).reverse) with h | ⟨_, y, n', h1, _, h3, h4, h5, _, h7⟩
          · rw [hk] at h
            have hk' := h.symm
            obtain ⟨v1, _⟩ := hs.view ht (x :: r).reverse
            have hnw : isWhiteout k = false := by
              cases hw : isWhiteout k with
              | false => rfl
              | true => rw [(v1 k hk').1 hw] at hv; cases hv
            rw [(v1 k hk').2 hnw] at hv
            cases hv
            exact FS.isDirAt_iff.2 ⟨n, hk, hd⟩
          · exact FS.isDirAt_iff.2 ⟨_, h4, h7⟩
        · rcases i3 q with h | ⟨h0, y, n', h1, h2, h3, h4⟩
          · exact Or.inl h
          · exact Or.inr ⟨h0, y, n', h1, h2, hpre y h3, h4⟩
      · rename_i hnone
        have hnone' : (copyUp st m mp r).get (m :: (x :: r).reverse) = none := by simpa using hnone
        have hu : st.upper.get (m :: (x :: r).reverse) = none := by
          rcases i3 (m :: (x :: r).reverse) with h | ⟨h, _⟩
          · rw [← h]; exact hnone'
          · exact h
        have hhost := view_host hs ht hu hv
        have hchain : (copyUp st m mp r).Chain (m :: (x :: r).reverse) := by
          intro q hq
          obtain ⟨d, hd1, hd2⟩ := FS.isDirAt_iff.1 i2
          have hq' : q <+: m :: r.reverse := by
            obtain ⟨w, hw, he⟩ := hq
            rw [List.reverse_cons, ← List.cons_append] at he
            have := (List.prefix_concat_iff.1 (⟨w, he.symm⟩ : q <+: (m :: r.reverse) ++ [x]))
            rcases this with h | h
            · exfalso; rw [h] at he; exact hw (List.append_cancel_left (by rw [List.append_nil]; exact he)).symm
            · exact h
          by_cases he : q = m :: r.reverse
          · rw [he]; exact i2
          · exact i1.ancestor hd1 (below_iff.2 ⟨hq', he⟩)
        refine ⟨i1.set (hN _ ⟨n, hv⟩) hchain (fun h => by rw [show ({ n with dev := devAt st.upper [m] } : Node).isDir = true from hd] at h; cases h), ?_, fun q => ?_⟩
        · rw [FS.isDirAt_iff]; exact ⟨{ n with dev := devAt st.upper [m] }, by rw [FS.get_set, if_pos rfl], hd⟩
        · by_cases he : m :: (x :: r).reverse = q
          · subst he
            exact Or.inr ⟨hu, _, n, rfl, by simp, List.prefix_refl _, by rw [FS.get_set, if_pos rfl], hv, hhost, hd⟩
          · rw [FS.get_set, if_neg he]
            rcases i3 q with h | ⟨h0, y, n', h1, h2, h3, h4⟩
            · exact Or.inl h
            · exact Or.inr ⟨h0, y, n', h1, h2, hpre y h3, h4⟩

/-! ### One operation -/

/-- What is seen of a node: type and content, owner, group, mode. -/
abbrev Attrs := Kind × Nat × Nat × Nat

def attrsOf (o : Option Node) : Option Attrs := o.map (fun n => (n.kind, n.uid, n.gid, n.perm))

/-- What an operation does with what is seen (`none`: it fails); `parent`: the directory is seen, `child`: something is seen below. -/
def actAttrs (v : Option Attrs) (parent child : Bool) : What → Option (Option Attrs)
  | .put k uid gid perm => if !parent || v.any (fun a => a.1 == .dir) || k == .dir then none else some (some (k, uid, gid, perm))
  | .mkdir uid gid perm _ => if !parent || v.isSome then none else some (some (.dir, uid, gid, perm))
  | .attr uid gid perm => if !parent then none else match v with
    | some a => if a.1 == .dir then some (some (.dir, uid, gid, perm)) else none
    | none => none
  | .remove => if !parent then none else match v with
    | some a => if a.1 == .dir && child then none else some none
    | none => none

/-- The view has changed at `sub` only. -/
structure Updated (st st' : State) (m : Name) (mp sub : Path) (v : Option Attrs) : Prop where
  regular : Regular st'
  lower : st'.lower = st.lower
  others : ∀ q, (∀ y, q ≠ m :: y) → st'.upper.get q = st.upper.get q
  top : st'.upper.get [m] = st.upper.get [m]
  here : attrsOf (Spec.view st' m mp sub) = v
  there : ∀ y, y ≠ sub → noDev (Spec.view st' m mp y) = noDev (Spec.view st m mp y)
  keys : ∀ y n, st'.upper.get (m :: y) = some n → (st.upper.get (m :: y)).isSome = true ∨ (y ≠ [] ∧ y <+: sub)
  nodes : ∀ y n, st'.upper.get (m :: y) = some n → st.upper.get (m :: y) = some n ∨ (y ≠ [] ∧ y <+: sub ∧ (n.kind = .dir ∨ n.kind = .chr 0 ∨ v = some (n.kind, n.uid, n.gid, n.perm)))
  kept : ∀ k, Spec.view st m mp sub = some k → k.isDir = true → v ≠ none → ∃ k', Spec.view st' m mp sub = some k' ∧ k'.isDir = true ∧ k'.opq = k.opq

theorem mem_storedSubs {st : State} {m : Name} {y : Path} : y ∈ storedSubs st m ↔ ∃ k, st.upper.get (m :: y) = some k := by
  unfold storedSubs
  rw [List.mem_map]
  constructor
  · rintro ⟨q, hq, rfl⟩
    obtain ⟨h1, h2⟩ := List.mem_filter.1 hq
    rw [List.isPrefixOf_iff_prefix] at h2
    obtain ⟨w, rfl⟩ := h2
    obtain ⟨k, hk⟩ := FS.mem_keys.1 h1
    exact ⟨k, hk⟩
  · rintro ⟨k, hk⟩
    refine ⟨m :: y, List.mem_filter.2 ⟨FS.mem_keys.2 ⟨k, hk⟩, ?_⟩, rfl⟩
    rw [List.isPrefixOf_iff_prefix]
    exact ⟨y, rfl⟩

theorem mem_lowerSubs {st : State} {m : Name} {mp b y : Path} :
    y ∈ lowerSubs st m mp b ↔ ∃ l r, (Spec.lookup st m mp b).bind (·.lower) = some l ∧ y = b ++ r ∧ ∃ k, st.lower.get (l ++ r) = some k := by
  unfold lowerSubs
  cases h : (Spec.lookup st m mp b).bind (·.lower) with
  | none => simp
  | some l =>
    simp only [List.mem_map, List.mem_filter, List.isPrefixOf_iff_prefix]
    constructor
    · rintro ⟨q, ⟨h1, w, rfl⟩, rfl⟩
      obtain ⟨k, hk⟩ := FS.mem_keys.1 h1
      exact ⟨l, w, rfl, by rw [List.drop_left], k, hk⟩
    · rintro ⟨l', r, h1, rfl, k, hk⟩
      cases h1
      exact ⟨l ++ r, ⟨FS.mem_keys.2 ⟨k, hk⟩, r, rfl⟩, by rw [List.drop_left]⟩

theorem childSeen_iff {st : State} (hs : Regular st) {m : Name} {mp : Path} (ht : TopOk st m mp) {sub : Path} :
    childSeen st m mp sub = true ↔ ∃ y, Below sub y ∧ (Spec.view st m mp y).isSome = true := by
  unfold childSeen
  rw [List.any_eq_true]
  constructor
  · rintro ⟨y, _, h⟩
    simp only [Bool.and_eq_true, List.isPrefixOf_iff_prefix, bne_iff_ne, ne_eq] at h
    exact ⟨y, below_iff.2 ⟨h.1.1, fun e => h.1.2 e.symm⟩, h.2⟩
  · rintro ⟨y, hb, hv⟩
    refine ⟨y, ?_, ?_⟩
    · unfold candidates
      obtain ⟨n, hn⟩ := Option.isSome_iff_exists.1 hv
      cases hg : st.upper.get (m :: y) with
      | some k =>
        exact List.mem_append_left _ (mem_storedSubs.2 ⟨k, hg⟩)
      | none =>
        have := view_host hs ht hg hn
        obtain ⟨t, ht1, _⟩ := FS.isDirAt_iff.1 ht.2
        have h0 : Spec.lookup st m mp [] = some ⟨some t, some mp⟩ := by simp [Spec.lookup, Spec.lookupRev, ht1]
        refine List.mem_append_right _ (List.mem_flatMap.2 ⟨[], mem_storedSubs.2 ⟨t, ht1⟩, ?_⟩)
        exact mem_lowerSubs.2 ⟨mp, y, by rw [h0]; rfl, rfl, n, this⟩
    · simp only [Bool.and_eq_true, List.isPrefixOf_iff_prefix, bne_iff_ne, ne_eq]
      exact ⟨⟨hb.prefix, fun e => hb.ne e.symm⟩, hv⟩

/-- Something stored below means a directory is seen. -/
theorem stored_below {st : State} (hs : Regular st) {m : Name} {mp : Path} (ht : TopOk st m mp) {sub y : Path} {n : Node} (hb : Below sub y) (hg : st.upper.get (m :: y) = some n) :
    dirSeen (Spec.view st m mp sub) = true := by
  obtain ⟨d, hd1, hd2⟩ := FS.isDirAt_iff.1 (hs.upper.ancestor hg (below_cons hb))
  obtain ⟨v1, _⟩ := hs.view ht sub
  have hnw : isWhiteout d = false := by
    unfold isWhiteout
    rw [hs.whiteout _ d hd1]
    unfold Node.isDir at hd2
    simp only [beq_iff_eq] at hd2
    simp [hd2]
  rw [(v1 d hd1).2 hnw]
  exact hd2

theorem get_prune (fs : FS) (p q : Path) : FS.get (fs.filter (fun e => !p.isPrefixOf e.1)) q = if p <+: q then none else fs.get q := by
  induction fs with
  | nil => simp [FS.get]
  | cons e fs ih =>
    obtain ⟨a, n⟩ := e
    rw [List.filter_cons]
    by_cases ha : p <+: a
    · have : p.isPrefixOf a = true := List.isPrefixOf_iff_prefix.2 ha
      simp only [this, Bool.not_true, Bool.false_eq_true, if_false]
      rw [ih]
      split
      · rfl
      · rename_i hq
        rw [FS.get, if_neg (by rintro rfl; exact hq ha)]
    · have : p.isPrefixOf a = false := by rw [Bool.eq_false_iff]; simpa [List.isPrefixOf_iff_prefix] using ha
      simp only [this, Bool.not_false, if_true, FS.get]
      by_cases haq : a = q
      · subst haq; simp [ha]
      · rw [if_neg haq, ih, if_neg haq]

theorem WF_prune {fs : FS} (h : fs.WF) {p : Path} (hp : p ≠ []) : FS.WF (fs.filter (fun e => !p.isPrefixOf e.1)) := by
  refine FS.WF.mk' ?_ ?_ ?_ ?_
  · exact (h.nodup.sublist (List.filter_sublist.map _))
  · rw [FS.isDirAt_congr (gs := fs)]; exact h.root
    rw [get_prune, if_neg (by rw [List.prefix_nil]; exact hp)]
  · intro q n hg hq
    rw [get_prune] at hg
    split at hg
    · cases hg
    · rename_i hpq
      rw [FS.isDirAt_congr (gs := fs)]; exact h.ancestor hg (dropLast_below hq)
      rw [get_prune, if_neg (fun hc => hpq (hc.trans (dropLast_below hq).prefix))]
  · intro q n hg
    rw [get_prune] at hg
    split at hg
    · cases hg
    · exact h.normal_of_get hg

/-- The directories above a path whose directory is seen are in place after copying up. -/
theorem chain_copyUp {st : State} {m : Name} {mp sub : Path} (hsub : sub ≠ []) (h1 : (copyUp st m mp sub.dropLast.reverse).WF)
    (h2 : (copyUp st m mp sub.dropLast.reverse).isDirAt (m :: sub.dropLast) = true) : (copyUp st m mp sub.dropLast.reverse).Chain (m :: sub) := by
  intro q hq
  obtain ⟨d, hd1, hd2⟩ := FS.isDirAt_iff.1 h2
  have hq' : q <+: m :: sub.dropLast := by
    have hb := hq
    obtain ⟨w, hw, he⟩ := hb
    have hl : sub.dropLast ++ [sub.getLast hsub] = sub := List.dropLast_append_getLast hsub
    have he' : (m :: sub.dropLast) ++ [sub.getLast hsub] = q ++ w := by rw [List.cons_append, hl]; exact he
    rcases List.prefix_concat_iff.1 (⟨w, he'.symm⟩ : q <+: (m :: sub.dropLast) ++ [sub.getLast hsub]) with h | h
    · exfalso
      rw [List.cons_append, hl] at h
      exact hq.ne h
    · exact h
  by_cases he : q = m :: sub.dropLast
  · rw [he]; exact h2
  · exact h1.ancestor hd1 (below_iff.2 ⟨hq', he⟩)

/-- What is stored after copying up and replacing what is at `sub`. -/
structure Written (st : State) (m : Name) (mp sub : Path) (o : Option Node) (u : FS) : Prop where
  wf : u.WF
  at_ : u.get (m :: sub) = o
  off : ∀ q, q ≠ m :: sub → ¬ Below (m :: sub) q → u.get q = st.upper.get q ∨ (st.upper.get q = none ∧ ∃ y n, q = m :: y ∧ y ≠ [] ∧ Below y sub ∧ u.get q = some { n with dev := devAt st.upper [m] } ∧
      Spec.view st m mp y = some n ∧ st.lower.get (mp ++ y) = some n ∧ n.isDir = true)
  below : ∀ y, Below sub y → u.get (m :: y) = st.upper.get (m :: y) ∨ u.get (m :: y) = none

theorem Written.regular {st : State} (hs : Regular st) {m : Name} {mp sub : Path} {o : Option Node} {u : FS} (h : Written st m mp sub o u)
    (ho : ∀ n, o = some n → n.redirect = none ∧ n.whiteout = false) : Regular { st with upper := u } := by
  have key : ∀ q n, u.get q = some n → n.redirect = none ∧ n.whiteout = false := by
    intro q n hg
    by_cases hq : q = m :: sub
    · rw [hq, h.at_] at hg; exact ho n hg
    · by_cases hb : Below (m :: sub) q
      · obtain ⟨w, hw, rfl⟩ := hb
        rcases h.below (sub ++ w) ⟨w, hw, rfl⟩ with h' | h'
        · rw [← List.cons_append] at h'
          rw [h'] at hg
          exact ⟨hs.redirect _ n hg, hs.whiteout _ n hg⟩
        · rw [← List.cons_append] at h'
          rw [h'] at hg; cases hg
      · rcases h.off q hq hb with h' | ⟨_, y, k, _, _, _, h5, _, h7, _⟩
        · rw [h'] at hg; exact ⟨hs.redirect _ n hg, hs.whiteout _ n hg⟩
        · rw [h5] at hg; cases hg
          have := hs.plain _ k h7
          exact ⟨this.1, this.2.2⟩
  exact ⟨hs.host, h.wf, fun q n hg => (key q n hg).1, fun q n hg => (key q n hg).2, hs.plain⟩

theorem Written.top {st : State} {m : Name} {mp sub : Path} (hsub : sub ≠ []) {o : Option Node} {u : FS} (h : Written st m mp sub o u) : u.get [m] = st.upper.get [m] := by
  have h1 : ([m] : Path) ≠ m :: sub := fun e => hsub (by simpa using e.symm)
  have h2 : ¬ Below (m :: sub) [m] := fun hb => by have := hb.prefix.length_le; simp at this; exact hsub this
  rcases h.off [m] h1 h2 with h' | ⟨_, y, n, h3, h4, _⟩
  · exact h'
  · exact absurd (by simpa using h3.symm) h4

/-- Away from the path the view is the same. -/
theorem Written.apart {st : State} (hs : Regular st) {m : Name} {mp sub : Path} (ht : TopOk st m mp) (hsub : sub ≠ []) {o : Option Node} {u : FS} (h : Written st m mp sub o u)
    (ho : ∀ n, o = some n → n.redirect = none ∧ n.whiteout = false) {y : Path} (hy : ¬ sub <+: y) : noDev (Spec.view { st with upper := u } m mp y) = noDev (Spec.view st m mp y) := by
  have hs' := h.regular hs ho
  have ht' : TopOk { st with upper := u } m mp := ⟨ht.1, by rw [FS.isDirAt_congr (gs := st.upper) (h.top hsub)]; exact ht.2⟩
  have hoff : ∀ q, q <+: y → (m :: q) ≠ m :: sub ∧ ¬ Below (m :: sub) (m :: q) := fun q hq =>
    ⟨fun e => hy (by rw [← (List.cons.inj e).2]; exact hq), fun hb => hy ((cons_prefix.1 hb.prefix).trans hq)⟩
  refine view_same hs hs' rfl ht ht' (fun q hq0 hq => ?_) ?_
  · rcases h.off (m :: q) (hoff q hq).1 (hoff q hq).2 with h' | ⟨h0, y', n, h1, _, _, h4, _, h6, h7⟩
    · rw [show ({ st with upper := u } : State).upper = u from rfl, h']
    · cases h1
      have hp := hs.plain _ n h6
      constructor
      · rintro ⟨k, hk, hh⟩
        rw [show ({ st with upper := u } : State).upper = u from rfl, h4] at hk
        cases hk
        exact absurd hh (not_hides_dir h7 hp.2.1 hp.2.2)
      · rintro ⟨k, hk, _⟩
        rw [h0] at hk; cases hk
  · rcases h.off (m :: y) (hoff y (List.prefix_refl _)).1 (hoff y (List.prefix_refl _)).2 with h' | ⟨h0, y', n, h1, _, _, h4, h5, h6, h7⟩
    · exact Or.inl h'
    · cases h1
      refine Or.inr ⟨h0, n, _, h4, ?_, h5⟩
      have hp := hs.plain _ n h6
      cases hw : isWhiteout n with
      | false => rfl
      | true => exact absurd (Or.inl hw) (not_hides_dir h7 hp.2.1 hp.2.2)

/-- The remaining facts about an update. -/
theorem Written.updated {st : State} (hs : Regular st) {m : Name} {mp sub : Path} (ht : TopOk st m mp) (hsub : sub ≠ []) {o : Option Node} {u : FS} (h : Written st m mp sub o u)
    (ho : ∀ n, o = some n → n.redirect = none ∧ n.whiteout = false) {v : Option Attrs} (hhere : attrsOf (Spec.view { st with upper := u } m mp sub) = v)
    (hbelow : ∀ y, Below sub y → noDev (Spec.view { st with upper := u } m mp y) = noDev (Spec.view st m mp y))
    (hnode : ∀ n, o = some n → n.kind = .dir ∨ n.kind = .chr 0 ∨ v = some (n.kind, n.uid, n.gid, n.perm))
    (hkept : ∀ k, Spec.view st m mp sub = some k → k.isDir = true → v ≠ none → ∃ k', Spec.view { st with upper := u } m mp sub = some k' ∧ k'.isDir = true ∧ k'.opq = k.opq) :
    Updated st { st with upper := u } m mp sub v := by
  have hcases : ∀ y n, u.get (m :: y) = some n → st.upper.get (m :: y) = some n ∨ (y = sub ∧ o = some n) ∨ (y ≠ [] ∧ Below y sub ∧ n.isDir = true) := by
    intro y n hg
    by_cases hy : y = sub
    · subst hy; rw [h.at_] at hg; exact Or.inr (Or.inl ⟨rfl, hg⟩)
    · by_cases hb : Below sub y
      · rcases h.below y hb with h' | h'
        · rw [h'] at hg; exact Or.inl hg
        · rw [h'] at hg; cases hg
      · rcases h.off (m :: y) (fun e => hy (List.cons.inj e).2) (fun hc => hb (by
          obtain ⟨w, hw, he⟩ := hc
          exact ⟨w, hw, by simpa using he⟩)) with h' | ⟨_, y', k, h1, h2, h3, h4, _, _, h7⟩
        · rw [h'] at hg; exact Or.inl hg
        · cases h1
          rw [h4] at hg; cases hg
          exact Or.inr (Or.inr ⟨h2, h3, h7⟩)
  refine ⟨h.regular hs ho, rfl, fun q hq => ?_, h.top hsub, hhere, fun y hy => ?_, fun y n hg => ?_, fun y n hg => ?_, hkept⟩
  · by_cases hb : Below (m :: sub) q
    · obtain ⟨w, _, he⟩ := hb
      exact absurd he (hq _)
    · rcases h.off q (hq sub) hb with h' | ⟨_, y, _, h1, _⟩
      · exact h'
      · exact absurd h1 (hq y)
  · by_cases hp : sub <+: y
    · exact hbelow y (below_iff.2 ⟨hp, fun e => hy e.symm⟩)
    · exact h.apart hs ht hsub ho hp
  · rcases hcases y n hg with h' | ⟨rfl, _⟩ | ⟨h1, h2, _⟩
    · left; rw [h']; rfl
    · exact Or.inr ⟨hsub, List.prefix_refl _⟩
    · exact Or.inr ⟨h1, h2.prefix⟩
  · rcases hcases y n hg with h' | ⟨rfl, h2⟩ | ⟨h1, h2, h3⟩
    · exact Or.inl h'
    · exact Or.inr ⟨hsub, List.prefix_refl _, hnode n h2⟩
    · exact Or.inr ⟨h1, h2.prefix, Or.inl (by unfold Node.isDir at h3; simpa using h3)⟩

section
variable {st : State} (hs : Regular st) {m : Name} {mp sub : Path} (ht : TopOk st m mp) (hsub : sub ≠ []) (hN : ∀ y, y <+: sub → NormalPath (m :: y))
  (hNv : ∀ y, (∃ n, Spec.view st m mp y = some n) → NormalPath (m :: y)) (hpar : dirSeen (Spec.view st m mp sub.dropLast) = true)
include hs ht hsub hN hNv hpar

theorem written_set {n : Node} (hn : n.isDir = false → ∀ y, Below sub y → st.upper.get (m :: y) = none) :
    Written st m mp sub (some n) ((copyUp st m mp sub.dropLast.reverse).set (m :: sub) n) ∧
    ∀ y, Below sub y → ((copyUp st m mp sub.dropLast.reverse).set (m :: sub) n).get (m :: y) = st.upper.get (m :: y) := by
  obtain ⟨c1, c2, c3⟩ := copyUp_spec hs ht hNv sub.dropLast.reverse (by rw [List.reverse_reverse]; exact hpar)
  rw [List.reverse_reverse] at c2 c3
  have hdl : ∀ y, y <+: sub.dropLast → Below y sub := fun y hy => by
    have := dropLast_below hsub
    exact below_of_prefix_below hy this
  have hbelow : ∀ y, Below sub y → (copyUp st m mp sub.dropLast.reverse).get (m :: y) = st.upper.get (m :: y) := by
    intro y hb
    rcases c3 (m :: y) with h | ⟨_, y', k, h1, _, h3, _⟩
    · exact h
    · cases h1
      exact absurd hb.prefix (hdl y h3).not_prefix
  refine ⟨⟨c1.set (hN _ (List.prefix_refl _)) (chain_copyUp hsub c1 c2) (fun hnd => ⟨by simp, fun q hq => ?_⟩), by rw [FS.get_set, if_pos rfl], fun q hq hb => ?_, fun y hb => ?_⟩, fun y hb => ?_⟩
  · obtain ⟨w, hw, rfl⟩ := hq
    rw [List.cons_append, hbelow (sub ++ w) ⟨w, hw, rfl⟩]
    exact hn hnd _ ⟨w, hw, rfl⟩
  · rw [FS.get_set, if_neg (fun e => hq e.symm)]
    rcases c3 q with h | ⟨h0, y, k, h1, h2, h3, h4⟩
    · exact Or.inl h
    · exact Or.inr ⟨h0, y, k, h1, h2, hdl y h3, h4⟩
  · rw [FS.get_set, if_neg (fun e => hb.ne (List.cons.inj e).2)]
    exact Or.inl (hbelow y hb)
  · rw [FS.get_set, if_neg (fun e => hb.ne (List.cons.inj e).2)]
    exact hbelow y hb

theorem written_prune {o : Option Node} (ho : ∀ n, o = some n → n.isDir = false) : ∀ u : FS,
    (u = match o with
      | none => (copyUp st m mp sub.dropLast.reverse).filter (fun e => !(m :: sub).isPrefixOf e.1)
      | some n => FS.set ((copyUp st m mp sub.dropLast.reverse).filter (fun e => !(m :: sub).isPrefixOf e.1)) (m :: sub) n) →
    Written st m mp sub o u := by
  rintro u rfl
  obtain ⟨c1, c2, c3⟩ := copyUp_spec hs ht hNv sub.dropLast.reverse (by rw [List.reverse_reverse]; exact hpar)
  rw [List.reverse_reverse] at c2 c3
  have hdl : ∀ y, y <+: sub.dropLast → Below y sub := fun y hy => below_of_prefix_below hy (dropLast_below hsub)
  have hwf := WF_prune c1 (p := m :: sub) (by simp)
  have hoff : ∀ q, q ≠ m :: sub → ¬ Below (m :: sub) q → FS.get ((copyUp st m mp sub.dropLast.reverse).filter (fun e => !(m :: sub).isPrefixOf e.1)) q = (copyUp st m mp sub.dropLast.reverse).get q := by
    intro q h1 h2
    rw [get_prune, if_neg (fun h => h2 (below_iff.2 ⟨h, fun e => h1 e.symm⟩))]
  have hch : FS.Chain ((copyUp st m mp sub.dropLast.reverse).filter (fun e => !(m :: sub).isPrefixOf e.1)) (m :: sub) := by
    intro q hq
    rw [FS.isDirAt_congr (hoff q hq.ne (fun hb => hb.not_prefix hq.prefix))]
    exact chain_copyUp hsub c1 c2 q hq
  have hc : ∀ q, q ≠ m :: sub → ¬ Below (m :: sub) q → (copyUp st m mp sub.dropLast.reverse).get q = st.upper.get q ∨ (st.upper.get q = none ∧ ∃ y n, q = m :: y ∧ y ≠ [] ∧ Below y sub ∧
      (copyUp st m mp sub.dropLast.reverse).get q = some { n with dev := devAt st.upper [m] } ∧ Spec.view st m mp y = some n ∧ st.lower.get (mp ++ y) = some n ∧ n.isDir = true) := by
    intro q _ _
    rcases c3 q with h | ⟨h0, y, k, h1, h2, h3, h4⟩
    · exact Or.inl h
    · exact Or.inr ⟨h0, y, k, h1, h2, hdl y h3, h4⟩
  cases o with
  | none =>
    refine ⟨hwf, by rw [get_prune, if_pos (List.prefix_refl _)], fun q h1 h2 => ?_, fun y hb => ?_⟩
    · dsimp only; rw [hoff q h1 h2]; exact hc q h1 h2
    · right; dsimp only; rw [get_prune, if_pos (below_cons hb).prefix]
  | some n =>
    refine ⟨hwf.set (hN _ (List.prefix_refl _)) hch (fun _ => ⟨by simp, fun q hq => by rw [get_prune, if_pos hq.prefix]⟩), by rw [FS.get_set, if_pos rfl], fun q h1 h2 => ?_, fun y hb => ?_⟩
    · dsimp only; rw [FS.get_set, if_neg (fun e => h1 e.symm), hoff q h1 h2]; exact hc q h1 h2
    · right; dsimp only; rw [FS.get_set, if_neg (fun e => hb.ne (List.cons.inj e).2), get_prune, if_pos (below_cons hb).prefix]

end

end SB
