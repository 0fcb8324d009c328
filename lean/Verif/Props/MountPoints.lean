import Verif.Model.MountPoints
import Verif.Props.Setup
import Verif.Lib.FSLemmas

/-!
# C79: what starting a sandbox creates for mounts to be placed on
-/

namespace SB

/-- The line of a mount table for a mount. -/
def opLine (o : MountOp) : Line := ⟨o.target, .own o.what⟩

theorem lineAt_ops (ops : List MountOp) (p : Path) : lineAt (ops.map opLine) p = (seen ops p).map opLine := by
  unfold lineAt seen
  rw [← List.map_reverse, List.find?_map]
  rfl

/-- Lines that are not at or above a path do not matter for it. -/
theorem lineAt_skip {A B C : List Line} {p : Path} (h : ∀ l ∈ B, ¬ l.target <+: p) : lineAt (A ++ B ++ C) p = lineAt (A ++ C) p := by
  rw [lineAt_append, lineAt_append, lineAt_none h, Option.none_or, lineAt_append]

/-- What a path refers to when the mounts `ops` have been made. -/
def Spec.place (ops : List MountOp) (p : Path) : Where :=
  match seen ops p with
  | none => .other
  | some o =>
    match o.what with
    | .overlay d => .stored (mountName d) d (p.drop o.target.length)
    | .bind s ro => .host (s ++ p.drop o.target.length) ro
    | _ => .other

theorem whereOf_place {t : List Line} {ops : List MountOp} {p : Path} (h : lineAt t p = lineAt (ops.map opLine) p) : whereOf t p = Spec.place ops p := by
  unfold whereOf Spec.place
  rw [h, lineAt_ops]
  cases seen ops p with
  | none => rfl
  | some o => cases ho : o.what <;> simp [opLine, ho]

/-- The overlays of some of the mounts, without the root. -/
def overlayMounts (ms : List MountHash) : List MountOp := (ms.filter (fun m => m.dir ≠ [])).map (fun m => ⟨m.dir, .overlay m.dir⟩)

/-- One operation of set-up, with the mounts made before it: a place for an overlay, or for a bind. -/
inductive Stage (su : SetupEnv) (uid gid : Nat) (mounts : List MountHash) (binds : List StartBind) : FileOp → Prop where
  | overlay (t : List Line) (p : Path) (n : Node) (before after : List MountHash) (m : MountHash) : mounts = before ++ m :: after → m.dir ≠ [] →
      p <+: m.dir → p ≠ [] → n = rootDir → (∀ q, q <+: m.dir → lineAt t q = lineAt ((earlyMounts ++ overlayMounts before).map opLine) q) → Stage su uid gid mounts binds (.make t p n)
  | bind (t : List Line) (p : Path) (n : Node) (before after : List StartBind) (b : StartBind) : binds = before ++ b :: after →
      p <+: b.target → (p ≠ [] ∨ b.target = []) → n = (if p = b.target then bindNode su uid gid b else rootDir) →
      (∀ q, q <+: b.target → lineAt t q = lineAt ((startMounts su.se mounts before).map opLine) q) →
      Stage su uid gid mounts binds (.make t p n)

theorem mem_makePath {t : List Line} {p : Path} {n : Node} {o : FileOp} (h : o ∈ makePath t p n) :
    ∃ q, o = .make t q (if q = p then n else rootDir) ∧ q <+: p ∧ (q ≠ [] ∨ p = []) := by
  unfold makePath at h
  rcases List.mem_append.1 h with h | h
  · obtain ⟨q, hq, rfl⟩ := List.mem_map.1 h
    have hp : p ≠ [] := by rintro rfl; simp at hq
    have hq' : q <+: p.dropLast := List.mem_inits _ _ |>.1 (List.mem_of_mem_tail hq)
    have hne : q ≠ [] := by
      rintro rfl
      cases hd : p.dropLast with
      | nil => rw [hd] at hq; simp at hq
      | cons x r => rw [hd] at hq; simp [List.inits] at hq
    have hqp : q ≠ p := by
      rintro rfl
      have h1 := hq'.length_le
      rw [List.length_dropLast] at h1
      have : q.length ≠ 0 := by simpa using hp
      omega
    exact ⟨q, by rw [if_neg hqp], hq'.trans (List.dropLast_prefix p), Or.inl hne⟩
  · rw [List.mem_singleton] at h
    refine ⟨p, by rw [if_pos rfl]; exact h, List.prefix_refl _, ?_⟩
    by_cases hp : p = []
    · exact Or.inr hp
    · exact Or.inl hp

theorem overlayFiles_stage (su : SetupEnv) (uid gid : Nat) (host : List Line) (mounts : List MountHash) (binds : List StartBind) (h : Spec.SetupOk su host mounts binds) :
    ∀ (ms before : List MountHash), mounts = before ++ ms →
    ∀ o ∈ overlayFiles su ms (earlyMounts.map opLine ++ stagedLines su binds 0 ++ (host ++ overlayLines su mounts).map (fun l => (⟨su.oldRoot :: l.target, l.what⟩ : Line)) ++
      (overlayMounts before).map opLine), Stage su uid gid mounts binds o
  | [], _, _, o, ho => by simp [overlayFiles] at ho
  | m :: r, before, hms, o, ho => by
    have hall : ∀ x ∈ m :: r, x ∈ mounts := fun x hx => by rw [hms]; exact List.mem_append_right _ hx
    rw [overlayFiles] at ho
    by_cases hd : m.dir = []
    · rw [if_pos hd] at ho
      refine overlayFiles_stage su uid gid host mounts binds h r (before ++ [m]) (by simp [hms]) o ?_
      have : overlayMounts (before ++ [m]) = overlayMounts before := by simp [overlayMounts, hd]
      rw [this]
      exact ho
    · rw [if_neg hd] at ho
      have hB : ∀ l ∈ (overlayMounts before).map opLine, l.target ≠ [] ∧ l.target.head? ≠ some su.oldRoot := by
        intro l hl
        obtain ⟨x, hx, rfl⟩ := List.mem_map.1 hl
        obtain ⟨m', hm', rfl⟩ := List.mem_map.1 hx
        obtain ⟨h1, h2⟩ := List.mem_filter.1 hm'
        exact ⟨by simpa [opLine] using h2, h.fresh m' (by rw [hms]; exact List.mem_append_left _ h1)⟩
      have hb := bindOverlays_eq su mounts (fun m hm => (h.names m hm).1) (fun m hm => (h.names m hm).2) h.fresh (earlyMounts.map opLine ++ stagedLines su binds 0) host [m]
        ((overlayMounts before).map opLine) (fun x hx => hall x (by simp at hx; simp [hx])) hB
      rw [bindOverlays, if_neg hd] at hb
      generalize hT : earlyMounts.map opLine ++ stagedLines su binds 0 ++ (host ++ overlayLines su mounts).map (fun l => (⟨su.oldRoot :: l.target, l.what⟩ : Line)) ++
        (overlayMounts before).map opLine = T at ho hb
      have hbl : bindLine T (su.oldRoot :: (su.overlayBase ++ [m.hash])) m.dir = some (T ++ [⟨m.dir, .own (.overlay m.dir)⟩]) := by
        cases hx : bindLine T (su.oldRoot :: (su.overlayBase ++ [m.hash])) m.dir with
        | none => rw [hx] at hb; cases hb
        | some t' =>
          rw [hx] at hb
          simpa [bindOverlays, hd] using hb
      rw [hbl] at ho
      rcases List.mem_append.1 ho with ho | ho
      · obtain ⟨q, rfl, hq, hne⟩ := mem_makePath ho
        refine .overlay T q _ before r m hms hd hq (hne.resolve_right hd) (by simp) (fun q hq => ?_)
        rw [← hT, List.append_assoc (earlyMounts.map opLine), List.map_append (f := opLine)]
        refine lineAt_skip (fun l hl hpre => ?_)
        rcases List.mem_append.1 hl with hl | hl
        · obtain ⟨j, _, ht⟩ := stagedLines_mem hl
          rw [ht] at hpre
          exact (h.mountsApart m (hall m (by simp)) hd).2 (List.IsPrefix.trans ⟨[_], rfl⟩ (hpre.trans hq))
        · obtain ⟨x, _, rfl⟩ := List.mem_map.1 hl
          have := hpre.trans hq
          simp only at this
          cases hmd : m.dir with
          | nil => exact hd hmd
          | cons a as =>
            rw [hmd] at this
            refine h.fresh m (hall m (by simp)) ?_
            rw [hmd, (List.cons_prefix_cons.1 this).1]
            rfl
      · refine overlayFiles_stage su uid gid host mounts binds h r (before ++ [m]) (by simp [hms]) o ?_
        have : (overlayMounts (before ++ [m])).map opLine = (overlayMounts before).map opLine ++ [⟨m.dir, .own (.overlay m.dir)⟩] := by simp [overlayMounts, hd, opLine]
        rw [this, ← List.append_assoc, hT]
        exact ho

theorem bindFiles_stage (su : SetupEnv) (uid gid : Nat) (host : List Line) (mounts : List MountHash) (binds : List StartBind) (h : Spec.SetupOk su host mounts binds) (C : List Line)
    (hC : C = (overlayMounts mounts ++ systemMounts su.se).map opLine) :
    ∀ (bs before : List StartBind), binds = before ++ bs →
    ∀ o ∈ bindFiles su uid gid bs before.length (earlyMounts.map opLine ++ stagedLines su binds 0 ++ C ++ before.map (fun b => (⟨b.target, .own (bindMounted su.se b)⟩ : Line))),
      Stage su uid gid mounts binds o
  | [], _, _, o, ho => by simp [bindFiles] at ho
  | b :: r, before, hbs, o, ho => by
    have hall : ∀ x ∈ b :: r, x ∈ binds := fun x hx => by rw [hbs]; exact List.mem_append_right _ hx
    have hCa : ∀ l ∈ C, Spec.Apart l.target [str "run", su.staging] := by
      intro l hl
      rw [hC] at hl
      obtain ⟨x, hx, rfl⟩ := List.mem_map.1 hl
      rcases List.mem_append.1 hx with hx | hx
      · obtain ⟨m, hm, rfl⟩ := List.mem_map.1 hx
        obtain ⟨h1, h2⟩ := List.mem_filter.1 hm
        exact h.mountsApart m h1 (by simpa using h2)
      · exact systemMounts_apart x hx
    have hPa : ∀ l ∈ before.map (fun b => (⟨b.target, .own (bindMounted su.se b)⟩ : Line)), Spec.Apart l.target [str "run", su.staging] := by
      intro l hl
      obtain ⟨x, hx, rfl⟩ := List.mem_map.1 hl
      exact h.bindsApart x (by rw [hbs]; exact List.mem_append_left _ hx)
    have hb := placeBinds_eq su binds (earlyMounts.map opLine) C hCa [b] before.length (before.map (fun b => (⟨b.target, .own (bindMounted su.se b)⟩ : Line)))
      (fun j x hj => by
        cases j with
        | zero => simp at hj; subst hj; rw [hbs]; simp
        | succ j => simp at hj) (fun x hx => h.bindsApart x (hall x (by simp at hx; simp [hx]))) hPa
    rw [placeBinds] at hb
    rw [bindFiles] at ho
    generalize hT : earlyMounts.map opLine ++ stagedLines su binds 0 ++ C ++ before.map (fun b => (⟨b.target, .own (bindMounted su.se b)⟩ : Line)) = T at ho hb
    have hbl : bindLine T (stagingPath su before.length) b.target = some (T ++ [⟨b.target, .own (bindMounted su.se b)⟩]) := by
      cases hx : bindLine T (stagingPath su before.length) b.target with
      | none => rw [hx] at hb; cases hb
      | some t' =>
        rw [hx] at hb
        simpa [placeBinds] using hb
    rw [hbl] at ho
    rcases List.mem_append.1 ho with ho | ho
    · obtain ⟨q, rfl, hq, hne⟩ := mem_makePath ho
      refine .bind T q _ before r b hbs hq hne rfl (fun q hq => ?_)
      have hsm : (startMounts su.se mounts before).map opLine = earlyMounts.map opLine ++ (C ++ before.map (fun b => (⟨b.target, .own (bindMounted su.se b)⟩ : Line))) := by
        rw [hC]
        simp [startMounts, overlayMounts, opLine, Function.comp_def]
      rw [← hT, hsm, List.append_assoc _ C]
      refine lineAt_skip (fun l hl hpre => ?_)
      obtain ⟨j, _, ht⟩ := stagedLines_mem hl
      rw [ht] at hpre
      exact (h.bindsApart b (hall b (by simp))).2 (List.IsPrefix.trans ⟨[_], rfl⟩ (hpre.trans hq))
    · refine bindFiles_stage su uid gid host mounts binds h C hC r (before ++ [b]) (by simp [hbs]) o ?_
      rw [List.length_append, List.length_singleton, List.map_append, ← List.append_assoc, hT]
      exact ho

/-- The operations of set-up: make the place for the old root, places for overlays, remove the place for the old root, places for binds. -/
theorem setupFiles_eq (su : SetupEnv) (uid gid : Nat) (host : List Line) (mounts : List MountHash) (binds : List StartBind) (h : Spec.SetupOk su host mounts binds) :
    ∃ L1 L2, setupFiles su uid gid host mounts binds = .makeOld :: (L1 ++ .removeOld :: L2) ∧ (∀ o ∈ L1, Stage su uid gid mounts binds o) ∧
      ∀ o ∈ L2, Stage su uid gid mounts binds o := by
  have h1 := setup_root su host mounts binds h
  have h2 := setup_pivot su host mounts binds h
  have h3 := setup_overlays su host mounts binds h
  have h4 := setup_detach su host mounts binds h
  have e0 : firstLines = earlyMounts.map opLine := rfl
  have e1 : (systemMounts su.se).map (fun o => (⟨o.target, .own o.what⟩ : Line)) = (systemMounts su.se).map opLine := rfl
  have e : boundLines mounts = (overlayMounts mounts).map opLine := by simp [boundLines, overlayMounts, opLine]
  refine ⟨overlayFiles su mounts (firstLines ++ stagedLines su binds 0 ++ (host ++ overlayLines su mounts).map (fun l => (⟨su.oldRoot :: l.target, l.what⟩ : Line))),
    bindFiles su uid gid binds 0 (firstLines ++ stagedLines su binds 0 ++ boundLines mounts ++ (systemMounts su.se).map (fun o => ⟨o.target, .own o.what⟩)),
    by unfold setupFiles; simp only [h1, h2, h3, h4], ?_, ?_⟩
  · intro o ho
    refine overlayFiles_stage su uid gid host mounts binds h mounts [] rfl o ?_
    rw [← e0]
    simpa [overlayMounts] using ho
  · intro o ho
    refine bindFiles_stage su uid gid host mounts binds h _ rfl binds [] rfl o ?_
    rw [e, e0, e1] at ho
    simpa [List.append_assoc] using ho

/-! ### Scope -/

theorem recordIn_scope {st : State} {m : Name} {mp sub : Path} {n : Node} {q : Path} (h : (recordIn st m mp sub n).get q ≠ st.upper.get q) : ∃ y, y <+: sub ∧ q = m :: y := by
  by_contra hc
  push Not at hc
  refine h ?_
  unfold recordIn
  rw [FS.get_set, if_neg (fun e => hc sub (List.prefix_refl _) e.symm)]
  have : ∀ (l : List Path) (u : FS), (∀ y ∈ l, y <+: sub) →
      (l.foldl (fun u y => if (u.get (m :: y)).isSome then u else u.set (m :: y) ((Spec.view st m mp y).getD { kind := .dir })) u).get q = u.get q := by
    intro l
    induction l with
    | nil => intro u _; rfl
    | cons y r ih =>
      intro u hy
      rw [List.foldl_cons, ih _ (fun z hz => hy z (List.mem_cons_of_mem _ hz))]
      split
      · rfl
      · rw [FS.get_set, if_neg (fun e => hc y (hy y (by simp)) e.symm)]
  exact this _ _ (fun y hy => (List.mem_inits _ _).1 (List.dropLast_subset _ hy))

theorem place_stored {se : StartEnv} {mounts : List MountHash} {binds : List StartBind} {ops : List MountOp} {p : Path} {m : Name} {mp sub : Path}
    (hops : ∀ o ∈ ops, o ∈ startMounts se mounts binds) (h : Spec.place ops p = .stored m mp sub) : m = mountName mp ∧ mp ++ sub = p ∧ (mp = [] ∨ ∃ x ∈ mounts, x.dir = mp) := by
  unfold Spec.place at h
  cases hs : seen ops p with
  | none => rw [hs] at h; cases h
  | some o =>
    rw [hs] at h
    have hm : o ∈ ops := List.mem_reverse.1 (List.mem_of_find?_eq_some hs)
    have hp : o.target <+: p := by have := List.find?_some hs; exact List.isPrefixOf_iff_prefix.1 this
    cases hw : o.what <;> simp only [hw, reduceCtorEq, Where.stored.injEq] at h
    obtain ⟨rfl, rfl, rfl⟩ := h
    have ht := hops o hm
    unfold startMounts at ht
    simp only [List.mem_append, List.mem_map, List.mem_filter] at ht
    rename_i d
    have : o.target = d ∧ (d = [] ∨ ∃ x ∈ mounts, x.dir = d) := by
      rcases ht with ((ht | ⟨x, ⟨hx, _⟩, rfl⟩) | ht) | ⟨b, _, rfl⟩
      · simp only [earlyMounts, List.mem_cons, List.not_mem_nil, or_false] at ht
        rcases ht with rfl | rfl | rfl <;> simp at hw
        subst hw; exact ⟨rfl, Or.inl rfl⟩
      · simp at hw; subst hw; exact ⟨rfl, Or.inr ⟨x, hx, rfl⟩⟩
      · exfalso
        simp only [systemMounts, List.mem_append, List.mem_map, List.mem_cons, List.not_mem_nil, or_false] at ht
        rcases ht with (ht | ⟨x, _, rfl⟩) | ⟨x, _, rfl⟩
        · rcases ht with rfl | rfl | rfl | rfl | rfl | rfl <;> cases hw
        · simp only at hw; split at hw <;> cases hw
        · cases hw
      · exfalso
        simp only [bindMounted] at hw
        split at hw
        · split at hw <;> cases hw
        · cases hw
        · cases hw
    obtain ⟨r, rfl⟩ := hp
    rw [← this.1, List.drop_left]
    exact ⟨rfl, rfl, this.1 ▸ this.2⟩

theorem place_host {se : StartEnv} {mounts : List MountHash} {binds : List StartBind} {p q : Path} {ro : Bool} (h : Spec.place (startMounts se mounts binds) p = .host q ro) :
    ∃ b ∈ binds, ∃ r, b.opt ≠ .mask ∧ (ro = false → b.opt = .rw) ∧ q = b.source ++ r ∧ b.target ++ r = p := by
  unfold Spec.place at h
  cases hs : seen (startMounts se mounts binds) p with
  | none => rw [hs] at h; cases h
  | some o =>
    rw [hs] at h
    have ht : o ∈ startMounts se mounts binds := List.mem_reverse.1 (List.mem_of_find?_eq_some hs)
    have hp : o.target <+: p := by have := List.find?_some hs; exact List.isPrefixOf_iff_prefix.1 this
    cases hw : o.what <;> simp only [hw, reduceCtorEq, Where.host.injEq] at h
    obtain ⟨rfl, rfl⟩ := h
    unfold startMounts at ht
    simp only [List.mem_append, List.mem_map, List.mem_filter] at ht
    rename_i s ro
    rcases ht with ((ht | ⟨x, ⟨hx, _⟩, rfl⟩) | ht) | ⟨b, hb, rfl⟩
    · simp only [earlyMounts, List.mem_cons, List.not_mem_nil, or_false] at ht
      rcases ht with rfl | rfl | rfl <;> simp at hw
    · simp at hw
    · exfalso
      simp only [systemMounts, List.mem_append, List.mem_map, List.mem_cons, List.not_mem_nil, or_false] at ht
      rcases ht with (ht | ⟨x, _, rfl⟩) | ⟨x, _, rfl⟩
      · rcases ht with rfl | rfl | rfl | rfl | rfl | rfl <;> cases hw
      · simp only at hw; split at hw <;> cases hw
      · cases hw
    · obtain ⟨r, rfl⟩ := hp
      refine ⟨b, hb, r, ?_⟩
      simp only [bindMounted] at hw
      simp only [List.drop_left]
      cases hbo : b.opt with
      | mask => rw [hbo] at hw; simp only at hw; split at hw <;> cases hw
      | ro => rw [hbo] at hw; simp only [Mounted.bind.injEq] at hw; obtain ⟨rfl, rfl⟩ := hw; simp
      | rw => rw [hbo] at hw; simp only [Mounted.bind.injEq] at hw; obtain ⟨rfl, rfl⟩ := hw; simp

/-- A place a mount is asked for: a mount point of the host, or the target of a bind or mask. -/
def Spec.Asked (mounts : List MountHash) (binds : List StartBind) (T : Path) : Prop := (∃ m ∈ mounts, m.dir = T) ∨ ∃ b ∈ binds, b.target = T

/-- A host path below an earlier bind that can be written to, on the way to the target of a later one. -/
def Spec.BelowBind (binds : List StartBind) (q : Path) : Prop :=
  ∃ before b after, binds = before ++ b :: after ∧ ∃ b' ∈ before, b'.opt = .rw ∧ ∃ r, q = b'.source ++ r ∧ b'.target ++ r <+: b.target

theorem stage_scope {su : SetupEnv} {uid gid : Nat} {mounts : List MountHash} {binds : List StartBind} {o : FileOp} (h : Stage su uid gid mounts binds o) {ex : Path → Bool}
    {st st' : State} (hr : runFile su ex st o = some st') :
    (∀ q, st'.upper.get q ≠ st.upper.get q → ∃ mp sub T, q = mountName mp :: sub ∧ (mp = [] ∨ ∃ m ∈ mounts, m.dir = mp) ∧ Spec.Asked mounts binds T ∧ mp ++ sub <+: T) ∧
    ∀ q, st'.lower.get q ≠ st.lower.get q → st.lower.get q = none ∧ Spec.BelowBind binds q := by
  have key : ∀ (t : List Line) (p : Path) (n : Node) (ops : List MountOp) (T : Path), o = .make t p n → Spec.Asked mounts binds T → p <+: T →
      whereOf t p = Spec.place ops p → (∀ x ∈ ops, x ∈ startMounts su.se mounts binds) →
      (∀ q, Spec.place ops p = .host q false → Spec.BelowBind binds q) →
      (∀ q, st'.upper.get q ≠ st.upper.get q → ∃ mp sub T, q = mountName mp :: sub ∧ (mp = [] ∨ ∃ m ∈ mounts, m.dir = mp) ∧ Spec.Asked mounts binds T ∧ mp ++ sub <+: T) ∧
      ∀ q, st'.lower.get q ≠ st.lower.get q → st.lower.get q = none ∧ Spec.BelowBind binds q := by
    intro t p n ops T ho hT hpT hw hops hb
    subst ho
    rw [runFile] at hr
    split at hr
    · cases hr; exact ⟨fun q hq => absurd rfl hq, fun q hq => absurd rfl hq⟩
    · rename_i hne
      cases hwp : whereOf t p with
      | stored m mp sub =>
        rw [hwp] at hr
        cases hr
        obtain ⟨rfl, h2, h3⟩ := place_stored hops (hw ▸ hwp)
        refine ⟨fun q hq => ?_, fun q hq => absurd rfl hq⟩
        obtain ⟨y, hy, rfl⟩ := recordIn_scope hq
        exact ⟨mp, y, T, rfl, h3, hT, (((List.prefix_append_right_inj mp).2 hy).trans (h2 ▸ List.prefix_refl _)).trans hpT⟩
      | host q0 ro =>
        rw [hwp] at hr
        cases ro with
        | true => cases hr
        | false =>
          cases hr
          refine ⟨fun q hq => absurd rfl hq, fun q hq => ?_⟩
          simp only [FS.get_set] at hq
          split at hq
          · rename_i e
            subst e
            refine ⟨?_, hb _ (hw ▸ hwp)⟩
            simp only [existsAt, hwp] at hne
            simpa using hne
          · exact absurd rfl hq
      | other => rw [hwp] at hr; cases hr; exact ⟨fun q hq => absurd rfl hq, fun q hq => absurd rfl hq⟩
  cases h with
  | overlay t p n before after m hm hd hp hp0 hn ht =>
    have hops : ∀ x ∈ earlyMounts ++ overlayMounts before, x ∈ startMounts su.se mounts [] := by
      intro x hx
      subst hm
      rcases List.mem_append.1 hx with hx | hx
      · simp only [startMounts, List.mem_append]; exact Or.inl (Or.inl (Or.inl hx))
      · obtain ⟨y, hy, rfl⟩ := List.mem_map.1 hx
        obtain ⟨h1, h2⟩ := List.mem_filter.1 hy
        simp only [startMounts, List.mem_append, List.mem_map, List.mem_filter]
        exact Or.inl (Or.inl (Or.inr ⟨y, ⟨Or.inl h1, h2⟩, rfl⟩))
    refine key t p n _ m.dir rfl (Or.inl ⟨m, by rw [hm]; simp, rfl⟩) hp (whereOf_place (ht p hp)) (fun x hx => ?_) (fun q hq => ?_)
    · have := hops x hx
      simp only [startMounts, List.map_nil, List.append_nil] at this
      simp only [startMounts]
      exact List.mem_append_left _ this
    · exfalso
      unfold Spec.place at hq
      cases hs : seen (earlyMounts ++ overlayMounts before) p with
      | none => rw [hs] at hq; cases hq
      | some x =>
        rw [hs] at hq
        have hx : x ∈ earlyMounts ++ overlayMounts before := List.mem_reverse.1 (List.mem_of_find?_eq_some hs)
        rcases List.mem_append.1 hx with hx | hx
        · simp only [earlyMounts, List.mem_cons, List.not_mem_nil, or_false] at hx
          rcases hx with rfl | rfl | rfl <;> cases hq
        · obtain ⟨y, _, rfl⟩ := List.mem_map.1 hx
          cases hq
  | bind t p n before after b hb hp hp0 hn ht =>
    refine key t p n _ b.target rfl (Or.inr ⟨b, by rw [hb]; simp, rfl⟩) hp (whereOf_place (ht p hp)) (fun x hx => ?_) (fun q hq => ?_)
    · simp only [startMounts, List.mem_append, List.mem_map] at hx ⊢
      rcases hx with hx | ⟨y, hy, rfl⟩
      · exact Or.inl hx
      · exact Or.inr ⟨y, by rw [hb]; exact List.mem_append_left _ hy, rfl⟩
    · obtain ⟨b', hb', r, _, hrw, rfl, ht'⟩ := place_host hq
      exact ⟨before, b, after, hb, b', hb', hrw rfl, r, rfl, ht' ▸ hp⟩

theorem runFiles_scope {su : SetupEnv} {ex : Path → Bool} {P : FileOp → Prop} {U L : State → Path → Prop}
    (hop : ∀ o, P o → ∀ st st', runFile su ex st o = some st' → (∀ q, st'.upper.get q ≠ st.upper.get q → U st q) ∧ ∀ q, st'.lower.get q ≠ st.lower.get q → st.lower.get q = none ∧ L st q)
    (hU : ∀ a b q, U a q → U b q) (hL : ∀ a b q, L a q → L b q) : ∀ (ops : List FileOp) (st st' : State), (∀ o ∈ ops, P o) → runFiles su ex st ops = some st' →
    (∀ q, st'.upper.get q ≠ st.upper.get q → U st q) ∧ ∀ q, st'.lower.get q ≠ st.lower.get q → st.lower.get q = none ∧ L st q
  | [], st, st', _, h => by cases h; exact ⟨fun q hq => absurd rfl hq, fun q hq => absurd rfl hq⟩
  | o :: r, st, st', hP, h => by
    rw [runFiles] at h
    cases h1 : runFile su ex st o with
    | none => rw [h1] at h; cases h
    | some s =>
      rw [h1] at h
      obtain ⟨a1, a2⟩ := hop o (hP o (by simp)) st s h1
      obtain ⟨b1, b2⟩ := runFiles_scope hop hU hL r s st' (fun o ho => hP o (List.mem_cons_of_mem _ ho)) h
      constructor
      · intro q hq
        by_cases e : s.upper.get q = st.upper.get q
        · exact hU _ _ _ (b1 q (by rw [e]; exact hq))
        · exact a1 q e
      · intro q hq
        by_cases e : s.lower.get q = st.lower.get q
        · obtain ⟨c1, c2⟩ := b2 q (by rw [e]; exact hq)
          exact ⟨by rw [← e]; exact c1, hL _ _ _ c2⟩
        · exact a2 q e

/-- The place for the old root, or its directory. -/
def Spec.OldRoot (su : SetupEnv) (q : Path) : Prop := q ≠ [] ∧ q <+: [mountName [], su.oldRoot]

/-- All operations together, stopped anywhere. -/
theorem setupFiles_scope (su : SetupEnv) (uid gid : Nat) (ex : Path → Bool) (host : List Line) (mounts : List MountHash) (binds : List StartBind)
    (h : Spec.SetupOk su host mounts binds) (st st' : State) (n : Nat) (hr : runFiles su ex st ((setupFiles su uid gid host mounts binds).take n) = some st') :
    (∀ q, st'.upper.get q ≠ st.upper.get q → Spec.OldRoot su q ∨
      ∃ mp sub T, q = mountName mp :: sub ∧ (mp = [] ∨ ∃ m ∈ mounts, m.dir = mp) ∧ Spec.Asked mounts binds T ∧ mp ++ sub <+: T) ∧
    ∀ q, st'.lower.get q ≠ st.lower.get q → st.lower.get q = none ∧ Spec.BelowBind binds q := by
  obtain ⟨L1, L2, he, hL1, hL2⟩ := setupFiles_eq su uid gid host mounts binds h
  refine runFiles_scope (P := fun o => o = .makeOld ∨ o = .removeOld ∨ Stage su uid gid mounts binds o)
    (U := fun _ q => Spec.OldRoot su q ∨ ∃ mp sub T, q = mountName mp :: sub ∧ (mp = [] ∨ ∃ m ∈ mounts, m.dir = mp) ∧ Spec.Asked mounts binds T ∧ mp ++ sub <+: T)
    (L := fun _ q => Spec.BelowBind binds q) ?_ (fun _ _ _ h => h) (fun _ _ _ h => h) _ st st' ?_ hr
  · intro o ho s s' hs
    rcases ho with rfl | rfl | ho
    · rw [runFile] at hs
      split at hs
      · cases hs
      · cases hs
        refine ⟨fun q hq => Or.inl ?_, fun q hq => absurd rfl hq⟩
        obtain ⟨y, hy, rfl⟩ := recordIn_scope hq
        exact ⟨by simp, List.cons_prefix_cons.2 ⟨rfl, hy⟩⟩
    · rw [runFile] at hs
      split at hs <;> cases hs <;> refine ⟨fun q hq => Or.inl ?_, fun q hq => absurd rfl hq⟩
      · simp only [FS.get_set] at hq
        split at hq
        · rename_i e; subst e; exact ⟨by simp, List.prefix_refl _⟩
        · exact absurd rfl hq
      · simp only [FS.get_del] at hq
        split at hq
        · rename_i e; subst e; exact ⟨by simp, List.prefix_refl _⟩
        · exact absurd rfl hq
    · obtain ⟨a, b⟩ := stage_scope ho hs
      exact ⟨fun q hq => Or.inr (a q hq), b⟩
  · intro o ho
    have := List.mem_of_mem_take ho
    rw [he] at this
    simp only [List.mem_cons, List.mem_append] at this
    rcases this with e | e | e | e
    · exact Or.inl e
    · exact Or.inr (Or.inr (hL1 o e))
    · exact Or.inr (Or.inl e)
    · exact Or.inr (Or.inr (hL2 o e))


/-- **C79 for the storage.** Whenever the set-up of a sandbox is interrupted, and when it is complete, what differs in the sandbox's storage is the place made for the old root, or lies
on the way to a place something is to be mounted on: a mount point of the host, the target of a bind or mask. -/
theorem C79_storage_partial (su : SetupEnv) (uid gid : Nat) (ex : Path → Bool) (host : List Line) (mounts : List MountHash) (binds : List StartBind)
    (h : Spec.SetupOk su host mounts binds) (st st' : State) (n : Nat) (hr : runFiles su ex st ((setupFiles su uid gid host mounts binds).take n) = some st') (q : Path)
    (hq : st'.upper.get q ≠ st.upper.get q) :
    Spec.OldRoot su q ∨ ∃ mp sub T, q = mountName mp :: sub ∧ (mp = [] ∨ ∃ m ∈ mounts, m.dir = mp) ∧ Spec.Asked mounts binds T ∧ mp ++ sub <+: T :=
  (setupFiles_scope su uid gid ex host mounts binds h st st' n hr).1 q hq

/-- **C79 for the host.** Whenever the set-up of a sandbox is interrupted, and when it is complete, what differs on the host did not exist there, and lies below the source of a bind that
can be written to, on the way to the target of a later bind or mask. -/
theorem C79_host_partial (su : SetupEnv) (uid gid : Nat) (ex : Path → Bool) (host : List Line) (mounts : List MountHash) (binds : List StartBind)
    (h : Spec.SetupOk su host mounts binds) (st st' : State) (n : Nat) (hr : runFiles su ex st ((setupFiles su uid gid host mounts binds).take n) = some st') (q : Path)
    (hq : st'.lower.get q ≠ st.lower.get q) : st.lower.get q = none ∧ Spec.BelowBind binds q :=
  (setupFiles_scope su uid gid ex host mounts binds h st st' n hr).2 q hq

/-- **C79 for the host**: nothing changes there if no bind or mask is placed below the target of an earlier bind that can be written to. -/
theorem C79_host_kept_partial (su : SetupEnv) (uid gid : Nat) (ex : Path → Bool) (host : List Line) (mounts : List MountHash) (binds : List StartBind)
    (h : Spec.SetupOk su host mounts binds) (hb : ∀ before b after, binds = before ++ b :: after → ∀ b' ∈ before, b'.opt = .rw → ¬ b'.target <+: b.target)
    (st st' : State) (n : Nat) (hr : runFiles su ex st ((setupFiles su uid gid host mounts binds).take n) = some st') (q : Path) : st'.lower.get q = st.lower.get q := by
  by_contra hq
  obtain ⟨_, before, b, after, e, b', hb', hrw, r, _, hp⟩ := C79_host_partial su uid gid ex host mounts binds h st st' n hr q hq
  exact hb before b after e b' hb' hrw ((List.prefix_append _ _).trans hp)

/-! ### Nothing left -/

/-- Something is there when the mounts `ops` have been made; what is in a private file system does not matter. -/
def Spec.Exists (st : State) (ops : List MountOp) (p : Path) : Prop :=
  match Spec.place ops p with
  | .stored m mp sub => (Spec.view st m mp sub).isSome = true
  | .host q _ => (st.lower.get q).isSome = true
  | .other => True

/-- Everything that something is to be mounted on exists, with the directories above it. -/
structure Spec.PlacesExist (su : SetupEnv) (mounts : List MountHash) (binds : List StartBind) (st : State) : Prop where
  overlays : ∀ before m after, mounts = before ++ m :: after → m.dir ≠ [] → ∀ p, p <+: m.dir → p ≠ [] → Spec.Exists st (earlyMounts ++ overlayMounts before) p
  binds : ∀ before b after, binds = before ++ b :: after → ∀ p, p <+: b.target → (p ≠ [] ∨ b.target = []) → Spec.Exists st (startMounts su.se mounts before) p

theorem lookup_congr {st st' : State} {m : Name} {mp : Path} (hl : st'.lower = st.lower) (sub : Path) (hu : ∀ y, y <+: sub → st'.upper.get (m :: y) = st.upper.get (m :: y)) :
    Spec.lookup st' m mp sub = Spec.lookup st m mp sub := by
  unfold Spec.lookup
  have : ∀ (r : List Name), r.reverse <+: sub → Spec.lookupRev st' m mp r = Spec.lookupRev st m mp r := by
    intro r
    induction r with
    | nil => intro hr; simp only [Spec.lookupRev, hu [] hr]
    | cons x r ih =>
      intro hr
      have h1 := ih ((by rw [List.reverse_cons]; exact List.prefix_append _ _ : r.reverse <+: (x :: r).reverse).trans hr)
      simp only [Spec.lookupRev, h1, hu _ hr, hl]
  exact this _ (by rw [List.reverse_reverse])

theorem view_congr {st st' : State} {m : Name} {mp : Path} (hl : st'.lower = st.lower) (sub : Path) (hu : ∀ y, y <+: sub → st'.upper.get (m :: y) = st.upper.get (m :: y)) :
    Spec.view st' m mp sub = Spec.view st m mp sub := by
  unfold Spec.view
  rw [lookup_congr hl sub hu, hl]

/-- The state does not change if every place exists. -/
theorem runFiles_same {su : SetupEnv} {ex : Path → Bool} {st : State} : ∀ {ops : List FileOp}, (∀ o ∈ ops, runFile su ex st o = some st) → runFiles su ex st ops = some st
  | [], _ => rfl
  | o :: r, h => by
    rw [runFiles, h o (by simp)]
    exact runFiles_same (fun o ho => h o (List.mem_cons_of_mem _ ho))

theorem make_same {su : SetupEnv} {mounts : List MountHash} {binds : List StartBind} (hn : ∀ m ∈ mounts, NormalPath m.dir) {ex : Path → Bool} {st s : State} (hl : s.lower = st.lower)
    {t : List Line} {p : Path} {n : Node} {ops : List MountOp} {T : Path} (hpT : p <+: T)
    (hu : (∀ q, q ≠ [mountName [], su.oldRoot] → s.upper.get q = st.upper.get q) ∧ T.head? ≠ some su.oldRoot ∨ ∀ q, s.upper.get q = st.upper.get q)
    (hw : whereOf t p = Spec.place ops p) (hops : ∀ x ∈ ops, x ∈ startMounts su.se mounts binds) (hex : Spec.Exists st ops p) : runFile su ex s (.make t p n) = some s := by
  rw [runFile]
  cases hwp : whereOf t p with
  | stored m mp sub =>
    rw [hw] at hwp
    obtain ⟨rfl, h2, h3⟩ := place_stored hops hwp
    rw [if_pos]
    simp only [existsAt, hw, hwp]
    simp only [Spec.Exists, hwp] at hex
    rw [view_congr hl sub, hex]
    intro y hy
    rcases hu with ⟨hu, hT⟩ | hu
    · refine hu _ (fun e => ?_)
      obtain ⟨e1, rfl⟩ := List.cons.inj e
      have hmp : mp = [] := by
        rcases h3 with h3 | ⟨x, hx, rfl⟩
        · exact h3
        · exact C29_injective _ _ (hn x hx) (by intro n hn; simp at hn) e1
      subst hmp
      obtain ⟨z, rfl⟩ := hy
      refine hT ?_
      obtain ⟨w, rfl⟩ := hpT
      rw [← h2]
      simp
    · exact hu _
  | host q ro =>
    rw [if_pos]
    simp only [existsAt, hwp, hl]
    rw [hw] at hwp
    simpa only [Spec.Exists, hwp] using hex
  | other =>
    simp only
    split <;> rfl

theorem stage_same {su : SetupEnv} {uid gid : Nat} {mounts : List MountHash} {binds : List StartBind} {o : FileOp} (h : Stage su uid gid mounts binds o)
    (hn : ∀ m ∈ mounts, NormalPath m.dir) {ex : Path → Bool} {st s : State}
    (hp : Spec.PlacesExist su mounts binds st) (hf : ∀ m ∈ mounts, m.dir.head? ≠ some su.oldRoot) (hfb : ∀ b ∈ binds, b.target.head? ≠ some su.oldRoot) (hl : s.lower = st.lower)
    (hu : ∀ q, q ≠ [mountName [], su.oldRoot] → s.upper.get q = st.upper.get q) : runFile su ex s o = some s := by
  cases h with
  | overlay t p n before after m hm hd hpp hp0 hn' ht =>
    refine make_same (binds := binds) hn hl hpp (Or.inl ⟨hu, hf m (by rw [hm]; simp)⟩) (whereOf_place (ht p hpp)) (fun x hx => ?_) (hp.overlays before m after hm hd p hpp hp0)
    simp only [startMounts, List.mem_append, List.mem_map, List.mem_filter]
    rcases List.mem_append.1 hx with hx | hx
    · exact Or.inl (Or.inl (Or.inl hx))
    · obtain ⟨y, hy, rfl⟩ := List.mem_map.1 hx
      obtain ⟨h1, h2⟩ := List.mem_filter.1 hy
      exact Or.inl (Or.inl (Or.inr ⟨y, ⟨by rw [hm]; exact List.mem_append_left _ h1, h2⟩, rfl⟩))
  | bind t p n before after b hb hpp hp0 hn' ht =>
    refine make_same (binds := binds) hn hl hpp (Or.inl ⟨hu, hfb b (by rw [hb]; simp)⟩) (whereOf_place (ht p hpp)) (fun x hx => ?_) (hp.binds before b after hb p hpp hp0)
    simp only [startMounts, List.mem_append, List.mem_map] at hx ⊢
    rcases hx with hx | ⟨y, hy, rfl⟩
    · exact Or.inl hx
    · exact Or.inr ⟨y, by rw [hb]; exact List.mem_append_left _ hy, rfl⟩

theorem runFiles_append (su : SetupEnv) (ex : Path → Bool) : ∀ (a b : List FileOp) (st : State),
    runFiles su ex st (a ++ b) = (runFiles su ex st a).bind (fun s => runFiles su ex s b)
  | [], _, _ => rfl
  | o :: r, b, st => by
    rw [List.cons_append, runFiles, runFiles]
    cases runFile su ex st o with
    | none => rfl
    | some s => exact runFiles_append su ex r b s

/-- **C79, nothing left.** If everything that something is to be mounted on exists, and the name of the old root is new, then a complete set-up leaves the sandbox's storage and the host
as they were. -/
theorem C79_nothing_partial (su : SetupEnv) (uid gid : Nat) (ex : Path → Bool) (host : List Line) (mounts : List MountHash) (binds : List StartBind)
    (h : Spec.SetupOk su host mounts binds) (hb : ∀ b ∈ binds, b.target.head? ≠ some su.oldRoot) (st : State) (hp : Spec.PlacesExist su mounts binds st)
    (hroot : (st.upper.get [mountName []]).isSome = true) (hnew : st.upper.get [mountName [], su.oldRoot] = none) (hfree : st.lower.get [su.oldRoot] = none) :
    ∃ st', runFiles su ex st (setupFiles su uid gid host mounts binds) = some st' ∧ st'.lower = st.lower ∧ ∀ q, st'.upper.get q = st.upper.get q := by
  obtain ⟨L1, L2, he, hL1, hL2⟩ := setupFiles_eq su uid gid host mounts binds h
  have hv : Spec.view st (mountName []) [] [su.oldRoot] = none := by
    simp only [Spec.view, Spec.lookup, List.reverse_cons, List.reverse_nil, List.nil_append, Spec.lookupRev, hnew, Spec.lowerName, Option.map_some, Option.bind_some, Spec.present, hfree]
    simp
  have hm : runFile su ex st .makeOld = some { st with upper := st.upper.set [mountName [], su.oldRoot] rootDir } := by
    rw [runFile, hv]
    simp [recordIn, hroot]
  set s1 : State := { st with upper := st.upper.set [mountName [], su.oldRoot] rootDir } with hs1
  have h1 : runFiles su ex s1 L1 = some s1 := by
    refine runFiles_same (fun o ho => stage_same (hL1 o ho) (fun m hm => (h.names m hm).2) hp h.fresh hb rfl (fun q hq => ?_))
    rw [hs1]
    simp only [FS.get_set]
    rw [if_neg (fun e => hq e.symm)]
  have hr : runFile su ex s1 .removeOld = some { s1 with upper := s1.upper.del [mountName [], su.oldRoot] } := by
    rw [runFile, if_neg (by rw [hs1]; simp [hfree])]
  set s2 : State := { s1 with upper := s1.upper.del [mountName [], su.oldRoot] } with hs2
  have hu2 : ∀ q, s2.upper.get q = st.upper.get q := by
    intro q
    rw [hs2]
    simp only [FS.get_del]
    split
    · rename_i e; rw [← e, hnew]
    · rename_i e; rw [hs1]; simp only [FS.get_set]; rw [if_neg e]
  have h2 : runFiles su ex s2 L2 = some s2 :=
    runFiles_same (fun o ho => stage_same (hL2 o ho) (fun m hm => (h.names m hm).2) hp h.fresh hb rfl (fun q _ => hu2 q))
  refine ⟨s2, ?_, rfl, hu2⟩
  rw [he, runFiles, hm]
  simp only
  rw [runFiles_append, h1, Option.bind_some, runFiles, hr]
  exact h2


/-! ### Examples -/

instance (st : State) (ops : List MountOp) (p : Path) : Decidable (Spec.Exists st ops p) := by unfold Spec.Exists; split <;> infer_instance

theorem placesExist_of_check {su : SetupEnv} {mounts : List MountHash} {binds : List StartBind} {st : State}
    (h1 : ∀ i : Fin mounts.length, (mounts[i]).dir ≠ [] → ∀ p ∈ (mounts[i]).dir.inits, p ≠ [] → Spec.Exists st (earlyMounts ++ overlayMounts (mounts.take i)) p)
    (h2 : ∀ i : Fin binds.length, ∀ p ∈ (binds[i]).target.inits, (p ≠ [] ∨ (binds[i]).target = []) → Spec.Exists st (startMounts su.se mounts (binds.take i)) p) :
    Spec.PlacesExist su mounts binds st where
  overlays before m after e hd p hp hp0 := by
    subst e
    have := h1 ⟨before.length, by simp⟩
    simp only [Fin.getElem_fin, List.getElem_append_right (Nat.le_refl _), Nat.sub_self, List.getElem_cons_zero, List.take_left] at this
    exact this hd p ((List.mem_inits _ _).2 hp) hp0
  binds before b after e p hp hp0 := by
    subst e
    have := h2 ⟨before.length, by simp⟩
    simp only [Fin.getElem_fin, List.getElem_append_right (Nat.le_refl _), Nat.sub_self, List.getElem_cons_zero, List.take_left] at this
    exact this p ((List.mem_inits _ _).2 hp) hp0

/-- A host with the sandbox's data directory and `/opt`, `/etc`; nothing stored yet. -/
def exPlaces : State :=
  ⟨[ ([], rootDir), ([str "home"], rootDir), ([str "home", str "s"], rootDir), ([str "home", str "s", str "b"], rootDir), ([str "home", str "s", str "b", str "data"], rootDir),
     ([str "opt"], rootDir), ([str "etc"], rootDir), ([str "home", str "d"], { kind := .dir, uid := 1000, gid := 1000 }) ],
   [ ([], { kind := .dir }), ([mountName []], { kind := .dir }), ([mountName [str "home"]], { kind := .dir }) ]⟩

def exPlaceBinds : List StartBind := [⟨[str "opt"], [str "opt"], .ro⟩, ⟨[str "dev", str "null"], [str "run", str "user"], .mask⟩, exData]

theorem exPlaces_setup : Spec.SetupOk exSetup exHostTable exSetupMounts exPlaceBinds where
  hostRoot := ⟨_, _, rfl, by decide +kernel⟩
  root := by simp [exSetupMounts]
  names := by decide +kernel
  fresh := by decide +kernel
  mountsApart := by decide +kernel
  bindsApart := by decide +kernel

/-- Non-vacuity of `C79_nothing_partial`. -/
example : Spec.PlacesExist exSetup exSetupMounts exPlaceBinds exPlaces ∧ (∀ b ∈ exPlaceBinds, b.target.head? ≠ some exSetup.oldRoot) ∧
    (exPlaces.upper.get [mountName []]).isSome = true ∧ exPlaces.upper.get [mountName [], exSetup.oldRoot] = none ∧ exPlaces.lower.get [exSetup.oldRoot] = none ∧
    (setupFiles exSetup 1000 1000 exHostTable exSetupMounts exPlaceBinds).length = 10 :=
  ⟨placesExist_of_check (by decide +kernel) (by decide +kernel), by decide +kernel, by decide +kernel, by decide +kernel, by decide +kernel, by decide +kernel⟩

/-- **C79 refuted** for targets that do not exist: `sandbox --mask /home/x/y` of a path that is not there stores the directories `/home/x` and `/home/x/y` as changes of the sandbox, so
that `accept` would create them on the host. -/
theorem C79_refuted_target : let binds : List StartBind := [⟨[str "dev", str "null"], [str "home", str "x", str "y"], .mask⟩, exData]
    let st := runFiles exSetup (fun _ => false) exPlaces (setupFiles exSetup 1000 1000 exHostTable exSetupMounts binds)
    (runSetup exSetup exHostTable exSetupMounts binds).isSome = true ∧
    st.bind (fun s => s.upper.get [mountName [str "home"], str "x"]) = some rootDir ∧
    st.bind (fun s => s.upper.get [mountName [str "home"], str "x", str "y"]) = some { kind := .dir, uid := 1000, gid := 1000, perm := 0o755 } ∧
    exPlaces.upper.get [mountName [str "home"], str "x"] = none ∧ exPlaces.lower.get [str "home", str "x"] = none := by decide +kernel

/-- **C79 refuted** for a start that fails or is killed: after its first step (the source of a bind may turn out not to exist later) the directory made for the old root is in the storage,
a change of the sandbox to be accepted. -/
theorem C79_refuted_old : (runFiles exSetup (fun _ => false) exPlaces ((setupFiles exSetup 1000 1000 exHostTable exSetupMounts exPlaceBinds).take 1)).bind
      (fun s => s.upper.get [mountName [], exSetup.oldRoot]) = some rootDir ∧ exPlaces.upper.get [mountName [], exSetup.oldRoot] = none := by decide +kernel

/-- **C79 refuted** for a caller whose environment has a variable of the program's own tests, whatever its value: no start succeeds, whatever is mounted, and each leaves one more directory
`/old-root-…` in the storage, a change to be accepted. -/
theorem C79_refuted_variable (su : SetupEnv) (uid gid : Nat) (ex : Path → Bool) (host : List Line) (mounts : List MountHash) (binds : List StartBind)
    (h : Spec.SetupOk su host mounts binds) (st : State) (d : Node) (hroot : st.upper.get [mountName []] = some d) (hd : d.isDir = true) (hnew : Spec.view st (mountName []) [] [su.oldRoot] = none) :
    runFiles su ex st (setupFilesIn true su uid gid host mounts binds) = none ∧
    ∃ st', runFiles su ex st ((setupFilesIn true su uid gid host mounts binds).take 1) = some st' ∧ st'.upper.get [mountName [], su.oldRoot] = some rootDir := by
  obtain ⟨L1, L2, he, -, -⟩ := setupFiles_eq su uid gid host mounts binds h
  have h1 : runFile su ex st .makeOld = some { st with upper := recordIn st (mountName []) [] [su.oldRoot] rootDir } := by
    rw [runFile, hnew]; rfl
  have h2 : (recordIn st (mountName []) [] [su.oldRoot] rootDir).get [mountName [], su.oldRoot] = some rootDir := by
    rw [recordIn, FS.get_set, if_pos rfl]
  have h3 : (recordIn st (mountName []) [] [su.oldRoot] rootDir).get [mountName []] = some d := by
    rw [recordIn, FS.get_set, if_neg (by simp)]
    simp [hroot]
  have hk : d.kind = .dir := by simpa [Node.isDir] using hd
  rw [setupFilesIn, if_pos rfl, he]
  refine ⟨?_, ⟨_, by rw [List.take_succ_cons, List.take_zero, runFiles, h1]; rfl, h2⟩⟩
  rw [runFiles, h1]
  simp only
  rw [runFiles]
  have : runFile su ex { st with upper := recordIn st (mountName []) [] [su.oldRoot] rootDir } .makeOld = none := by
    rw [runFile, if_pos]
    have hw : Spec.isWhiteout rootDir = false := by decide
    have hf : Spec.ftype d.kind = .directory := by rw [hk]; rfl
    have hf' : Spec.ftype rootDir.kind = .directory := rfl
    have ho : rootDir.opq = false := rfl
    simp [Spec.view, Spec.lookup, Spec.lookupRev, h2, h3, hf, hf', hw, ho]
  rw [this]

-- Non-vacuity of `C79_refuted_variable`.
example : Spec.SetupOk exSetup exHostTable exSetupMounts exPlaceBinds ∧ exPlaces.upper.get [mountName []] = some { kind := .dir } ∧ Spec.view exPlaces (mountName []) [] [exSetup.oldRoot] = none ∧
    setupFilesIn false exSetup 1000 1000 exHostTable exSetupMounts exPlaceBinds = setupFiles exSetup 1000 1000 exHostTable exSetupMounts exPlaceBinds :=
  ⟨exPlaces_setup, by decide +kernel, by decide +kernel, rfl⟩

/-- **C79 refuted** for the host: with `--bind /etc:/home/x --bind /home/d:/home/x/new` the directory `/etc/new` is made on the host by root (the program is setuid) and given to the
caller, who could not make it. -/
theorem C79_refuted_host : let binds : List StartBind := [⟨[str "etc"], [str "home", str "x"], .rw⟩, ⟨[str "home", str "d"], [str "home", str "x", str "new"], .rw⟩, exData]
    let st := runFiles exSetup (fun _ => false) exPlaces (setupFiles exSetup 1000 1000 exHostTable exSetupMounts binds)
    (runSetup exSetup exHostTable exSetupMounts binds).isSome = true ∧
    st.bind (fun s => s.lower.get [str "etc", str "new"]) = some { kind := .dir, uid := 1000, gid := 1000, perm := 0o755 } ∧
    exPlaces.lower.get [str "etc", str "new"] = none ∧ (exPlaces.lower.get [str "etc"]).any (fun n => n.uid == 0 && n.perm == 0o755) = true := by decide +kernel

end SB
