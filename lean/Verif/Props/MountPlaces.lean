import Verif.Props.MountPoints

/-!
# C79: what the places look like that starting a sandbox creates
-/

namespace SB

/-- A directory is needed to place this on: what is masked is a directory, or does not exist; or a directory is bound. -/
def Spec.WantsDir (se : StartEnv) (b : StartBind) : Prop :=
  (b.opt = .mask ∧ (se.isDir b.target = true ∨ se.pexists b.target = false)) ∨ (b.opt ≠ .mask ∧ se.isDir b.source = true)

/-- A new place for a bind or mask: a directory of the user, or an empty file of root. -/
def Spec.NewPlace (se : StartEnv) (uid gid : Nat) (b : StartBind) (n : Node) : Prop :=
  (Spec.WantsDir se b → n = { kind := .dir, uid := uid, gid := gid, perm := 0o755 }) ∧ (¬ Spec.WantsDir se b → n = { kind := .reg [], perm := 0o644 })

/-- A directory above such a place: root's. -/
def Spec.NewAbove (n : Node) : Prop := n = { kind := .dir, perm := 0o755 }

theorem bindNode_new (su : SetupEnv) (uid gid : Nat) (b : StartBind) : Spec.NewPlace su.se uid gid b (bindNode su uid gid b) := by
  obtain ⟨src, tgt, opt⟩ := b
  unfold Spec.NewPlace Spec.WantsDir bindNode
  cases opt <;> cases h1 : su.se.isDir tgt <;> cases h2 : su.se.pexists tgt <;> cases h3 : su.se.isDir src <;> simp [h1, h2, h3]

/-- What differs after some operations was put there by one of them. -/
theorem runFiles_made {su : SetupEnv} {ex : Path → Bool} : ∀ (ops : List FileOp) (st st' : State), runFiles su ex st ops = some st' →
    (∀ q, st'.lower.get q ≠ st.lower.get q → ∃ t p n, .make t p n ∈ ops ∧ whereOf t p = .host q false ∧ st'.lower.get q = some n) ∧
    ∀ q, st'.upper.get q ≠ st.upper.get q → Spec.OldRoot su q ∨ ∃ t p n m mp sub y, .make t p n ∈ ops ∧ whereOf t p = .stored m mp sub ∧ y <+: sub ∧ q = m :: y ∧ (y = sub → st'.upper.get q = some n)
  | [], st, st', h => by cases h; exact ⟨fun q hq => absurd rfl hq, fun q hq => absurd rfl hq⟩
  | o :: r, st, st', h => by
    rw [runFiles] at h
    cases h1 : runFile su ex st o with
    | none => rw [h1] at h; cases h
    | some s =>
      rw [h1] at h
      obtain ⟨a, b⟩ := runFiles_made r s st' h
      have first : (∀ q, s.lower.get q ≠ st.lower.get q → ∃ t p n, .make t p n = o ∧ whereOf t p = .host q false ∧ s.lower.get q = some n) ∧
          ∀ q, s.upper.get q ≠ st.upper.get q → Spec.OldRoot su q ∨ ∃ t p n m mp sub y, .make t p n = o ∧ whereOf t p = .stored m mp sub ∧ y <+: sub ∧ q = m :: y ∧ (y = sub → s.upper.get q = some n) := by
        cases o with
        | makeOld =>
          rw [runFile] at h1
          split at h1
          · cases h1
          · cases h1
            refine ⟨fun q hq => absurd rfl hq, fun q hq => Or.inl ?_⟩
            obtain ⟨y, hy, rfl⟩ := recordIn_scope hq
            exact ⟨by simp, List.cons_prefix_cons.2 ⟨rfl, hy⟩⟩
        | removeOld =>
          rw [runFile] at h1
          split at h1 <;> cases h1 <;> refine ⟨fun q hq => absurd rfl hq, fun q hq => Or.inl ?_⟩
          · simp only [FS.get_set] at hq
            split at hq
            · rename_i e; subst e; exact ⟨by simp, List.prefix_refl _⟩
            · exact absurd rfl hq
          · simp only [FS.get_del] at hq
            split at hq
            · rename_i e; subst e; exact ⟨by simp, List.prefix_refl _⟩
            · exact absurd rfl hq
        | make t p n =>
          rw [runFile] at h1
          split at h1
          · cases h1; exact ⟨fun q hq => absurd rfl hq, fun q hq => absurd rfl hq⟩
          · cases hwp : whereOf t p with
            | stored m mp sub =>
              rw [hwp] at h1
              cases h1
              refine ⟨fun q hq => absurd rfl hq, fun q hq => Or.inr ?_⟩
              obtain ⟨y, hy, rfl⟩ := recordIn_scope hq
              refine ⟨t, p, n, m, mp, sub, y, rfl, hwp, hy, rfl, fun e => ?_⟩
              subst e
              simp only [recordIn, FS.get_set, if_true]
            | host q0 ro =>
              rw [hwp] at h1
              cases ro with
              | true => cases h1
              | false =>
                cases h1
                refine ⟨fun q hq => ?_, fun q hq => absurd rfl hq⟩
                simp only [FS.get_set] at hq
                split at hq
                · rename_i e
                  subst e
                  exact ⟨t, p, n, rfl, hwp, by simp only [FS.get_set, if_true]⟩
                · exact absurd rfl hq
            | other => rw [hwp] at h1; cases h1; exact ⟨fun q hq => absurd rfl hq, fun q hq => absurd rfl hq⟩
      constructor
      · intro q hq
        by_cases e : st'.lower.get q = s.lower.get q
        · obtain ⟨t, p, n, h2, h3, h4⟩ := first.1 q (by rw [← e]; exact hq)
          exact ⟨t, p, n, by simp [h2], h3, by rw [e]; exact h4⟩
        · obtain ⟨t, p, n, h2, h3⟩ := a q e
          exact ⟨t, p, n, List.mem_cons_of_mem _ h2, h3⟩
      · intro q hq
        by_cases e : st'.upper.get q = s.upper.get q
        · rcases first.2 q (by rw [← e]; exact hq) with h2 | ⟨t, p, n, m, mp, sub, y, h2, h3, h4, h5, h6⟩
          · exact Or.inl h2
          · exact Or.inr ⟨t, p, n, m, mp, sub, y, by simp [h2], h3, h4, h5, fun hy => by rw [e]; exact h6 hy⟩
        · rcases b q e with h2 | ⟨t, p, n, m, mp, sub, y, h2, h3⟩
          · exact Or.inl h2
          · exact Or.inr ⟨t, p, n, m, mp, sub, y, List.mem_cons_of_mem _ h2, h3⟩

theorem startMounts_of_bind {se : StartEnv} {mounts : List MountHash} {before : List StartBind} {b : StartBind} {after : List StartBind} {x : MountOp}
    (hx : x ∈ startMounts se mounts before) : x ∈ startMounts se mounts (before ++ b :: after) := by
  simp only [startMounts, List.mem_append, List.mem_map] at hx ⊢
  rcases hx with hx | ⟨y, hy, rfl⟩
  · exact Or.inl hx
  · exact Or.inr ⟨y, Or.inl hy, rfl⟩

section
variable {su : SetupEnv} {uid gid : Nat} {ex : Path → Bool} {host : List Line} {mounts : List MountHash} {binds : List StartBind}

theorem setup_stage (h : Spec.SetupOk su host mounts binds) {k : Nat} {t : List Line} {p : Path} {n : Node}
    (hm : .make t p n ∈ (setupFiles su uid gid host mounts binds).take k) : Stage su uid gid mounts binds (.make t p n) := by
  obtain ⟨L1, L2, he, hL1, hL2⟩ := setupFiles_eq su uid gid host mounts binds h
  have := List.mem_of_mem_take hm
  rw [he] at this
  simp only [List.mem_cons, List.mem_append, reduceCtorEq, false_or] at this
  rcases this with e | e
  · exact hL1 _ e
  · exact hL2 _ e

theorem stage_node {t : List Line} {p : Path} {n : Node} (h : Stage su uid gid mounts binds (.make t p n)) :
    ((∃ m ∈ mounts, p <+: m.dir) ∧ Spec.NewAbove n) ∨ ∃ before b after, binds = before ++ b :: after ∧ p <+: b.target ∧ (p ≠ b.target → Spec.NewAbove n) ∧ (p = b.target → Spec.NewPlace su.se uid gid b n) := by
  cases h with
  | overlay _ _ _ before after m hm _ hp _ hn _ => exact Or.inl ⟨⟨m, by rw [hm]; simp, hp⟩, hn⟩
  | bind _ _ _ before after b hb hp _ hn _ =>
    refine Or.inr ⟨before, b, after, hb, hp, fun e => ?_, fun e => ?_⟩
    · rw [if_neg e] at hn; exact hn
    · rw [if_pos e] at hn; rw [hn]; exact bindNode_new su uid gid b

end

/-- **C79: what is made on the host.** Whenever the set-up of a sandbox is interrupted, and when it is complete: what differs on the host lies below the source of a bind that can be written
to; it is the place of a later bind or mask (a directory of the user if a directory is needed: a directory is bound, or what is masked is a directory or missing; otherwise an empty file of
root), or a directory of root above such a place. -/
theorem C79_host_nodes_partial (su : SetupEnv) (uid gid : Nat) (ex : Path → Bool) (host : List Line) (mounts : List MountHash) (binds : List StartBind)
    (h : Spec.SetupOk su host mounts binds) (st st' : State) (k : Nat) (hr : runFiles su ex st ((setupFiles su uid gid host mounts binds).take k) = some st') (q : Path)
    (hq : st'.lower.get q ≠ st.lower.get q) :
    ∃ n before b after, st'.lower.get q = some n ∧ binds = before ++ b :: after ∧ ∃ b' ∈ before, b'.opt = .rw ∧ ∃ r, q = b'.source ++ r ∧ b'.target ++ r <+: b.target ∧
      (b'.target ++ r ≠ b.target → Spec.NewAbove n) ∧ (b'.target ++ r = b.target → Spec.NewPlace su.se uid gid b n) := by
  obtain ⟨t, p, n, hm, hw, hn⟩ := (runFiles_made _ st st' hr).1 q hq
  have hs := setup_stage h hm
  cases hs with
  | overlay _ _ _ before after m hm' hd hp hp0 hnn ht =>
    exfalso
    rw [whereOf_place (ht p hp)] at hw
    unfold Spec.place at hw
    cases hsn : seen (earlyMounts ++ overlayMounts before) p with
    | none => rw [hsn] at hw; cases hw
    | some x =>
      rw [hsn] at hw
      have hx : x ∈ earlyMounts ++ overlayMounts before := List.mem_reverse.1 (List.mem_of_find?_eq_some hsn)
      rcases List.mem_append.1 hx with hx | hx
      · simp only [earlyMounts, List.mem_cons, List.not_mem_nil, or_false] at hx
        rcases hx with rfl | rfl | rfl <;> cases hw
      · obtain ⟨y, _, rfl⟩ := List.mem_map.1 hx
        cases hw
  | bind _ _ _ before after b hb hp hp0 hnn ht =>
    rw [whereOf_place (ht p hp)] at hw
    obtain ⟨b', hb', r, _, hrw, rfl, ht'⟩ := place_host hw
    refine ⟨n, before, b, after, hn, hb, b', hb', hrw rfl, r, rfl, ht' ▸ hp, fun e => ?_, fun e => ?_⟩
    · rw [ht'] at e
      rw [if_neg e] at hnn; exact hnn
    · rw [ht'] at e
      rw [if_pos e] at hnn; rw [hnn]; exact bindNode_new su uid gid b

/-- **C79: what is stored.** What differs in the storage of the sandbox, whenever its set-up is interrupted and when it is complete, at the path of a place something was asked to be mounted
on, if nothing was asked for below it: it is made for the bind or mask with this target (a directory of the user, or an empty file of root), or it is a directory of root. -/
theorem C79_storage_nodes_partial (su : SetupEnv) (uid gid : Nat) (ex : Path → Bool) (host : List Line) (mounts : List MountHash) (binds : List StartBind)
    (h : Spec.SetupOk su host mounts binds) (st st' : State) (k : Nat) (hr : runFiles su ex st ((setupFiles su uid gid host mounts binds).take k) = some st') (mp sub : Path)
    (hq : st'.upper.get (mountName mp :: sub) ≠ st.upper.get (mountName mp :: sub)) (hinj : ∀ m ∈ mounts, mountName m.dir = mountName mp → m.dir = mp)
    (hroot : mountName [] = mountName mp → mp = [])
    (hold : ¬ Spec.OldRoot su (mountName mp :: sub)) (hlast : ∀ T, Spec.Asked mounts binds T → mp ++ sub <+: T → T = mp ++ sub) :
    ∃ n, st'.upper.get (mountName mp :: sub) = some n ∧ (((∃ m ∈ mounts, m.dir = mp ++ sub) ∧ Spec.NewAbove n) ∨ ∃ b ∈ binds, b.target = mp ++ sub ∧ Spec.NewPlace su.se uid gid b n) := by
  rcases (runFiles_made _ st st' hr).2 _ hq with h1 | ⟨t, p, n, m, mp', sub', y, hm, hw, hy, he, hval⟩
  · exact absurd h1 hold
  · have hs := setup_stage h hm
    obtain ⟨hm1, hm2, hm3⟩ : m = mountName mp' ∧ mp' ++ sub' = p ∧ (mp' = [] ∨ ∃ x ∈ mounts, x.dir = mp') := by
      cases hs with
      | overlay _ _ _ before after m hm' hd hp hp0 hnn ht =>
        rw [whereOf_place (ht p hp)] at hw
        refine place_stored (se := su.se) (binds := []) (fun x hx => ?_) hw
        subst hm'
        rcases List.mem_append.1 hx with hx | hx
        · simp only [startMounts, List.mem_append]; exact Or.inl (Or.inl (Or.inl hx))
        · obtain ⟨z, hz, rfl⟩ := List.mem_map.1 hx
          obtain ⟨h1, h2⟩ := List.mem_filter.1 hz
          simp only [startMounts, List.mem_append, List.mem_map, List.mem_filter]
          exact Or.inl (Or.inl (Or.inr ⟨z, ⟨Or.inl h1, h2⟩, rfl⟩))
      | bind _ _ _ before after b hb hp hp0 hnn ht =>
        rw [whereOf_place (ht p hp)] at hw
        exact place_stored (fun x hx => hx) hw
    obtain ⟨hname, hsub⟩ := List.cons.inj he
    have hmp : mp' = mp := by
      rw [hm1] at hname
      rcases hm3 with rfl | ⟨x, hx, rfl⟩
      · exact (hroot hname.symm).symm
      · exact hinj x hx hname.symm
    subst hmp; subst hsub
    have hTp : ∀ T, Spec.Asked mounts binds T → p <+: T → sub' = sub ∧ T = p := by
      intro T hT hpT
      have h1 := hlast T hT ((((List.prefix_append_right_inj mp').2 hy).trans (hm2 ▸ List.prefix_refl _)).trans hpT)
      rw [h1, ← hm2] at hpT
      have h2 := (List.prefix_append_right_inj mp').1 hpT
      have h3 : sub' = sub := h2.eq_of_length_le hy.length_le
      subst h3
      exact ⟨rfl, h1.trans hm2⟩
    rcases stage_node hs with ⟨⟨x, hx, hpx⟩, hn⟩ | ⟨before, b, after, hb, hpb, hn1, hn2⟩
    · obtain ⟨h1, h2⟩ := hTp _ (Or.inl ⟨x, hx, rfl⟩) hpx
      subst h1
      exact ⟨n, hval rfl, Or.inl ⟨⟨x, hx, h2.trans hm2.symm⟩, hn⟩⟩
    · have hbm : b ∈ binds := by rw [hb]; simp
      obtain ⟨h1, h2⟩ := hTp _ (Or.inr ⟨b, hbm, rfl⟩) hpb
      subst h1
      exact ⟨n, hval rfl, Or.inr ⟨b, hbm, h2.trans hm2.symm, hn2 h2.symm⟩⟩

/-- The host of `exPlaces`, with a file `/etc/hosts`; `/home/y` and `/home/z` do not exist. -/
def exPlaceSetup : SetupEnv :=
  { exSetup with se := { exStart with isDir := fun p => (exPlaces.lower.get p).isSome, pexists := fun p => (exPlaces.lower.get p).isSome || p == [str "etc", str "hosts"] } }

/-- `--bind /etc:/home/x --bind /home/d:/home/x/new --mask /home/y --bind /etc/hosts:/home/z` -/
def exPlaceAll : List StartBind := [⟨[str "etc"], [str "home", str "x"], .rw⟩, ⟨[str "home", str "d"], [str "home", str "x", str "new"], .rw⟩, ⟨[str "dev", str "null"], [str "home", str "y"], .mask⟩,
  ⟨[str "etc", str "hosts"], [str "home", str "z"], .ro⟩, exData]

/-- The set-up meets the conditions of both theorems, and makes a place on the host, a directory for the mask and a file for the bind of a file in the storage. -/
example : Spec.SetupOk exPlaceSetup exHostTable exSetupMounts exPlaceAll ∧
    (let st := runFiles exPlaceSetup (fun _ => false) exPlaces (setupFiles exPlaceSetup 1000 1000 exHostTable exSetupMounts exPlaceAll)
    st.bind (fun s => s.lower.get [str "etc", str "new"]) = some { kind := .dir, uid := 1000, gid := 1000, perm := 0o755 } ∧ exPlaces.lower.get [str "etc", str "new"] = none ∧
    st.bind (fun s => s.upper.get [mountName [str "home"], str "y"]) = some { kind := .dir, uid := 1000, gid := 1000, perm := 0o755 } ∧ exPlaces.upper.get [mountName [str "home"], str "y"] = none ∧
    st.bind (fun s => s.upper.get [mountName [str "home"], str "z"]) = some { kind := .reg [], perm := 0o644 } ∧ exPlaces.upper.get [mountName [str "home"], str "z"] = none) ∧
    (∀ m ∈ exSetupMounts, mountName m.dir = mountName [str "home"] → m.dir = [str "home"]) ∧ mountName [] ≠ mountName [str "home"] := by
  refine ⟨⟨⟨_, _, rfl, by decide +kernel⟩, by simp [exSetupMounts], by decide +kernel, by decide +kernel, by decide +kernel, by decide +kernel⟩, by decide +kernel, by decide +kernel, by decide +kernel⟩

end SB
