import Verif.Props.Access
import Verif.Props.View

/-!
# C97: a sandbox shows the file systems of the host

Elsewhere the host is one tree of files.  Here every mounted file system has its own tree, so that something mounted on a directory hides what is below it.  An overlay's lower layer is one of
these trees: `lowerdir=` names a directory, and overlayfs does not follow into what is mounted below (kernel: the layer is a private clone of the one mount); neither does `MS_BIND` without `MS_REC`.
-/

namespace SB

/-! ### Specification -/

/-- A mounted file system: where, of which type, and all its files by the paths they have when nothing else is mounted over them. -/
structure Spec.HostMount where
  dir : Path
  type : Str
  files : FS

/-- The mount that is seen at a path: the last one made at or above it. -/
def Spec.mountedAt (T : List Spec.HostMount) (p : Path) : Option Spec.HostMount := T.reverse.find? (fun m => m.dir.isPrefixOf p)

/-- The file that is seen at a path on a machine with these mounts. -/
def Spec.fileAt (T : List Spec.HostMount) (p : Path) : Option Node := (Spec.mountedAt T p).bind (fun m => m.files.get p)

/-- The lines of `/proc/mounts`. -/
def Spec.table (T : List Spec.HostMount) : List MountEntry := T.map (fun m => ⟨m.dir, m.type⟩)

/-- The file that is seen at a path in a sandbox with the mounts `ops` and the stored changes `up`. -/
def Spec.fileIn (T : List Spec.HostMount) (up : FS) (ops : List MountOp) (p : Path) : Option Node :=
  match seen ops p with
  | some ⟨t, .overlay d⟩ => (Spec.mountedAt T d).bind (fun l => Spec.view ⟨l.files, up⟩ (mountName d) d (p.drop t.length))
  | some ⟨t, .bind s _⟩ => (Spec.mountedAt T s).bind (fun l => l.files.get (s ++ p.drop t.length))
  | _ => none

/-- No mount hides an earlier one, there is a root, and the trees are trees. -/
structure Spec.PlainTable (T : List Spec.HostMount) : Prop where
  apart : T.Pairwise (fun a b => ¬ b.dir <+: a.dir)
  normal : ∀ m ∈ T, NormalPath m.dir
  root : ∃ m ∈ T, m.dir = []
  trees : ∀ m ∈ T, ∀ p x, m.dir <+: p → m.files.get p = none → m.files.get (p ++ [x]) = none

/-- The file systems that are overlaid: of the types listed, or the root; outside the sandbox's own directory. -/
def Spec.Overlaid (base : Path) (m : Spec.HostMount) : Prop :=
  (m.dir = [] ∨ m.type ∈ [str "xfs", str "nfs4", str "ext2", str "ext3", str "ext4", str "zfs", str "btrfs"]) ∧ ¬ base <+: m.dir

instance (base : Path) (m : Spec.HostMount) : Decidable (Spec.Overlaid base m) := by unfold Spec.Overlaid; infer_instance

/-! ### Lemmas -/

theorem overlaid_iff (base : Path) (m : Spec.HostMount) : Spec.Overlaid base m ↔ Spec.ToOverlay base ⟨m.dir, m.type⟩ := by
  rw [← keepMount_iff]
  unfold Spec.Overlaid keepMount acceptableMountTypes
  by_cases h1 : m.dir = []
  · simp [h1, ← List.isPrefixOf_iff_prefix]
  · by_cases h2 : m.type ∈ [str "xfs", str "nfs4", str "ext2", str "ext3", str "ext4", str "zfs", str "btrfs"]
    · rw [if_neg (by simp only [h2]; simp)]
      simp only [h2, or_true, true_and, ← List.isPrefixOf_iff_prefix, Bool.not_eq_true', Bool.not_eq_true]
    · rw [if_pos ⟨h1, h2⟩]
      simp [h1, h2]

theorem mountedAt_some {T : List Spec.HostMount} {p : Path} {m : Spec.HostMount} (h : Spec.mountedAt T p = some m) :
    m.dir <+: p ∧ ∃ as bs, T = as ++ m :: bs ∧ ∀ x ∈ bs, ¬ x.dir <+: p := by
  obtain ⟨h1, as, bs, h2, h3⟩ := List.find?_eq_some_iff_append.1 h
  refine ⟨List.isPrefixOf_iff_prefix.1 h1, bs.reverse, as.reverse, ?_, fun x hx => ?_⟩
  · have := congrArg List.reverse h2
    simpa using this
  · have := h3 x (List.mem_reverse.1 hx)
    intro hc
    rw [List.isPrefixOf_iff_prefix.2 hc] at this
    cases this

theorem mountedAt_of {T : List Spec.HostMount} {p : Path} {m : Spec.HostMount} (as bs : List Spec.HostMount) (h : T = as ++ m :: bs) (h1 : m.dir <+: p) (h2 : ∀ x ∈ bs, ¬ x.dir <+: p) :
    Spec.mountedAt T p = some m := by
  unfold Spec.mountedAt
  rw [List.find?_eq_some_iff_append]
  refine ⟨List.isPrefixOf_iff_prefix.2 h1, bs.reverse, as.reverse, by rw [h]; simp, fun x hx => ?_⟩
  have := h2 x (List.mem_reverse.1 hx)
  rw [Bool.not_eq_true', Bool.eq_false_iff]
  exact fun e => this (List.isPrefixOf_iff_prefix.1 e)

theorem mountedAt_root {T : List Spec.HostMount} (h : ∃ m ∈ T, m.dir = []) (p : Path) : ∃ m, Spec.mountedAt T p = some m := by
  obtain ⟨m, hm, hd⟩ := h
  cases hf : Spec.mountedAt T p with
  | some x => exact ⟨x, rfl⟩
  | none =>
    unfold Spec.mountedAt at hf
    rw [List.find?_eq_none] at hf
    exact absurd (List.isPrefixOf_iff_prefix.2 (hd ▸ List.nil_prefix)) (hf m (List.mem_reverse.2 hm))

/-- Every path between a mount point and a path seen there is seen there. -/
theorem mountedAt_between {T : List Spec.HostMount} {p q : Path} {m : Spec.HostMount} (h : Spec.mountedAt T p = some m) (h1 : m.dir <+: q) (h2 : q <+: p) : Spec.mountedAt T q = some m := by
  obtain ⟨_, as, bs, he, hb⟩ := mountedAt_some h
  exact mountedAt_of as bs he h1 (fun x hx hc => hb x hx (hc.trans h2))

theorem mountedAt_filter {T : List Spec.HostMount} {p base : Path} {M : Spec.HostMount} (hM : Spec.mountedAt T p = some M) (ho : Spec.Overlaid base M) :
    Spec.mountedAt (T.filter (fun m => decide (Spec.Overlaid base m))) p = some M := by
  obtain ⟨h1, as, bs, h2, h3⟩ := mountedAt_some hM
  refine mountedAt_of (as.filter (fun m => decide (Spec.Overlaid base m))) (bs.filter (fun m => decide (Spec.Overlaid base m))) ?_ h1 (fun x hx => h3 x (List.mem_filter.1 hx).1)
  rw [h2, List.filter_append, List.filter_cons_of_pos (by simpa using ho)]

/-- Overlayfs lookup without redirects looks only at the path's own names in the lower layer. -/
theorem lookup_lower_congr {l1 l2 up : FS} {m : Name} {mp : Path} : ∀ r : List Name,
    (∀ y, y <+: r.reverse → ∀ n, up.get (m :: y) = some n → n.redirect = none) → (∀ y, y ≠ [] → y <+: r.reverse → l1.get (mp ++ y) = l2.get (mp ++ y)) →
    Spec.lookupRev ⟨l1, up⟩ m mp r = Spec.lookupRev ⟨l2, up⟩ m mp r ∧ ∀ f, Spec.lookupRev ⟨l1, up⟩ m mp r = some f → f.lower = none ∨ f.lower = some (mp ++ r.reverse)
  | [], _, _ => ⟨rfl, fun f h => by
      simp only [Spec.lookupRev, Option.some.injEq] at h
      subst h
      simp⟩
  | x :: r, hr, hl => by
    have hpre : r.reverse <+: (x :: r).reverse := by simp
    obtain ⟨ih1, ih2⟩ := lookup_lower_congr (l1 := l1) (l2 := l2) (up := up) (m := m) (mp := mp) r (fun y hy => hr y (hy.trans hpre)) (fun y h1 hy => hl y h1 (hy.trans hpre))
    have hlast := hl (x :: r).reverse (by simp) (List.prefix_refl _)
    have hred := hr (x :: r).reverse (List.prefix_refl _)
    have hpres : Spec.present l1 (mp ++ (x :: r).reverse) = Spec.present l2 (mp ++ (x :: r).reverse) := by unfold Spec.present; rw [hlast]
    have hpresd : Spec.presentDir l1 (mp ++ (x :: r).reverse) = Spec.presentDir l2 (mp ++ (x :: r).reverse) := by unfold Spec.presentDir; rw [hlast]
    have hp1 : ∀ {l : FS} {q z : Path}, Spec.present l q = some z → z = q := by
      intro l q z h
      unfold Spec.present at h
      split at h <;> simp at h
      exact h.symm
    have hp2 : ∀ {l : FS} {q z : Path}, Spec.presentDir l q = some z → z = q := by
      intro l q z h
      unfold Spec.presentDir at h
      split at h
      · split at h <;> simp at h
        exact h.symm
      · cases h
    cases hd : Spec.lookupRev ⟨l1, up⟩ m mp r with
    | none =>
      have hd' := ih1 ▸ hd
      constructor
      · simp only [Spec.lookupRev, hd, hd']
      · intro f hf
        simp only [Spec.lookupRev, hd] at hf
        cases hf
    | some d =>
      have hd' := ih1 ▸ hd
      have hlow := ih2 d hd
      have key : ∀ l : FS, (Spec.lowerName mp d.lower x none).bind (Spec.present l) = d.lower.bind (fun _ => Spec.present l (mp ++ (x :: r).reverse)) := by
        intro l
        rcases hlow with h | h <;> simp [Spec.lowerName, h]
      have keyd : ∀ l : FS, (Spec.lowerName mp d.lower x none).bind (Spec.presentDir l) = d.lower.bind (fun _ => Spec.presentDir l (mp ++ (x :: r).reverse)) := by
        intro l
        rcases hlow with h | h <;> simp [Spec.lowerName, h]
      constructor
      · simp only [Spec.lookupRev, hd, hd']
        generalize hup : (if (d.upper.any (fun n => decide (Spec.ftype n.kind = .directory))) = true then up.get (m :: (x :: r).reverse) else none) = u
        cases u with
        | none => simp only [key, hpres]
        | some n =>
          have : n.redirect = none := by
            split at hup
            · exact hred n hup
            · cases hup
          simp only [this, keyd, hpresd]
      · intro f hf
        simp only [Spec.lookupRev, hd] at hf
        generalize hup : (if (d.upper.any (fun n => decide (Spec.ftype n.kind = .directory))) = true then up.get (m :: (x :: r).reverse) else none) = u at hf
        cases u with
        | none =>
          simp only [key] at hf
          cases hz : d.lower.bind (fun _ => Spec.present l1 (mp ++ (x :: r).reverse)) with
          | none => rw [hz] at hf; cases hf
          | some z =>
            rw [hz] at hf
            cases hf
            obtain ⟨_, _, hz⟩ := Option.bind_eq_some_iff.1 hz
            exact Or.inr (congrArg some (hp1 hz))
        | some n =>
          have hn : n.redirect = none := by
            split at hup
            · exact hred n hup
            · cases hup
          simp only [hn, keyd] at hf
          split at hf
          · cases hf
          · split at hf
            · cases hf; exact Or.inl rfl
            · split at hf
              · cases hf; exact Or.inl rfl
              · cases hf
                cases hz : d.lower.bind (fun _ => Spec.presentDir l1 (mp ++ (x :: r).reverse)) with
                | none => exact Or.inl rfl
                | some z =>
                  obtain ⟨_, _, hz⟩ := Option.bind_eq_some_iff.1 hz
                  exact Or.inr (congrArg some (hp2 hz))

theorem view_lower_congr {l1 l2 up : FS} {m : Name} {mp sub : Path} (hr : ∀ y, y <+: sub → ∀ n, up.get (m :: y) = some n → n.redirect = none)
    (hl : ∀ y, y <+: sub → l1.get (mp ++ y) = l2.get (mp ++ y)) : Spec.view ⟨l1, up⟩ m mp sub = Spec.view ⟨l2, up⟩ m mp sub := by
  obtain ⟨h1, h2⟩ := lookup_lower_congr (l1 := l1) (l2 := l2) (up := up) (m := m) (mp := mp) sub.reverse (by rw [List.reverse_reverse]; exact hr) (by rw [List.reverse_reverse]; exact fun y _ => hl y)
  unfold Spec.view Spec.lookup
  cases hf : Spec.lookupRev ⟨l1, up⟩ m mp sub.reverse with
  | none => rw [← h1, hf]; rfl
  | some f =>
    rw [← h1, hf]
    simp only [Option.bind_some]
    cases f.upper with
    | some n => rfl
    | none =>
      rcases h2 f hf with h | h
      · simp [h]
      · rw [h, List.reverse_reverse]
        exact hl sub (List.prefix_refl _)

/-- Overlayfs lookup looks only at what is below the mount point in the lower layer. -/
theorem lookup_lower_all {l1 l2 up : FS} {m : Name} {mp : Path} (hl : ∀ q, mp <+: q → l1.get q = l2.get q) : ∀ r : List Name,
    Spec.lookupRev ⟨l1, up⟩ m mp r = Spec.lookupRev ⟨l2, up⟩ m mp r ∧ ∀ f z, Spec.lookupRev ⟨l1, up⟩ m mp r = some f → f.lower = some z → mp <+: z
  | [] => ⟨rfl, fun f z h hz => by
      simp only [Spec.lookupRev, Option.some.injEq] at h
      subst h
      simp only [Option.some.injEq] at hz
      rw [hz]⟩
  | x :: r => by
    obtain ⟨ih1, ih2⟩ := lookup_lower_all (up := up) (m := m) hl r
    have hp1 : ∀ {l : FS} {q z : Path}, Spec.present l q = some z → z = q := by
      intro l q z h
      unfold Spec.present at h
      split at h <;> simp at h
      exact h.symm
    have hp2 : ∀ {l : FS} {q z : Path}, Spec.presentDir l q = some z → z = q := by
      intro l q z h
      unfold Spec.presentDir at h
      split at h
      · split at h <;> simp at h
        exact h.symm
      · cases h
    cases hd : Spec.lookupRev ⟨l1, up⟩ m mp r with
    | none =>
      have hd' := ih1 ▸ hd
      constructor
      · simp only [Spec.lookupRev, hd, hd']
      · intro f z hf
        simp only [Spec.lookupRev, hd] at hf
        cases hf
    | some d =>
      have hd' := ih1 ▸ hd
      have hname : ∀ rd q, Spec.lowerName mp d.lower x rd = some q → mp <+: q := by
        intro rd q hq
        cases rd with
        | none =>
          simp only [Spec.lowerName] at hq
          obtain ⟨a, ha, rfl⟩ := Option.map_eq_some_iff.1 hq
          exact (ih2 d a hd ha).trans (List.prefix_append _ _)
        | some rd =>
          simp only [Spec.lowerName] at hq
          split at hq
          · cases hq; exact List.prefix_append _ _
          · obtain ⟨a, ha, rfl⟩ := Option.map_eq_some_iff.1 hq
            exact (ih2 d a hd ha).trans (List.prefix_append _ _)
      have key : ∀ rd, (Spec.lowerName mp d.lower x rd).bind (Spec.present l1) = (Spec.lowerName mp d.lower x rd).bind (Spec.present l2) := by
        intro rd
        cases hq : Spec.lowerName mp d.lower x rd with
        | none => rfl
        | some q => simp only [Option.bind_some, Spec.present, hl q (hname rd q hq)]
      have keyd : ∀ rd, (Spec.lowerName mp d.lower x rd).bind (Spec.presentDir l1) = (Spec.lowerName mp d.lower x rd).bind (Spec.presentDir l2) := by
        intro rd
        cases hq : Spec.lowerName mp d.lower x rd with
        | none => rfl
        | some q => simp only [Option.bind_some, Spec.presentDir, hl q (hname rd q hq)]
      constructor
      · simp only [Spec.lookupRev, hd, hd', key, keyd]
      · intro f z hf hz
        simp only [Spec.lookupRev, hd] at hf
        split at hf
        · split at hf
          · cases hf
          · split at hf
            · cases hf; cases hz
            · split at hf
              · cases hf; cases hz
              · cases hf
                obtain ⟨q, hq, hz⟩ := Option.bind_eq_some_iff.1 hz
                exact hp2 hz ▸ hname _ q hq
        · split at hf
          · next w hw =>
            cases hf
            simp only [Option.some.injEq] at hz
            subst hz
            obtain ⟨q, hq, hz⟩ := Option.bind_eq_some_iff.1 hw
            exact hp1 hz ▸ hname _ q hq
          · cases hf

theorem view_lower_all {l1 l2 up : FS} {m : Name} {mp sub : Path} (hl : ∀ q, mp <+: q → l1.get q = l2.get q) : Spec.view ⟨l1, up⟩ m mp sub = Spec.view ⟨l2, up⟩ m mp sub := by
  obtain ⟨h1, h2⟩ := lookup_lower_all (up := up) (m := m) hl sub.reverse
  unfold Spec.view Spec.lookup
  cases hf : Spec.lookupRev ⟨l1, up⟩ m mp sub.reverse with
  | none => rw [← h1, hf]; rfl
  | some f =>
    rw [← h1, hf]
    simp only [Option.bind_some]
    cases f.upper with
    | some n => rfl
    | none =>
      cases hz : f.lower with
      | none => rfl
      | some z => exact hl z (h2 f z hf hz)

/-- A path on an overlaid file system shows the overlay of it. -/
theorem seen_overlaid {T : List Spec.HostMount} (hT : Spec.PlainTable T) {base : Path} {ms : List MountHash} (hms : scanSystemMounts base (some (Spec.table T)) = some ms) (se : StartEnv)
    {binds : List StartBind} {p : Path} (hsys : ¬ Spec.SystemPath p) (hb : ∀ b ∈ binds, ¬ b.target <+: p) {M : Spec.HostMount}
    (hM : Spec.mountedAt (T.filter (fun m => decide (Spec.Overlaid base m))) p = some M) :
    ∃ sub, M.dir ++ sub = p ∧ Spec.mountedAt T M.dir = some M ∧ M.dir ∈ ms.map MountHash.dir ∧
      ∀ up, Spec.fileIn T up (startMounts se ms binds) p = Spec.view ⟨M.files, up⟩ (mountName M.dir) M.dir sub := by
  obtain ⟨h1, as, bs, h2, h3⟩ := mountedAt_some hM
  have hMf : M ∈ T.filter (fun m => decide (Spec.Overlaid base m)) := by rw [h2]; simp
  obtain ⟨hMT, hMo⟩ := List.mem_filter.1 hMf
  simp only [decide_eq_true_eq] at hMo
  have hself : Spec.mountedAt T M.dir = some M := by
    obtain ⟨as', bs', he⟩ := List.append_of_mem hMT
    refine mountedAt_of as' bs' he (List.prefix_refl _) (fun x hx => ?_)
    have := hT.apart
    rw [he] at this
    exact (List.pairwise_cons.1 (List.pairwise_append.1 this).2.1).1 x hx
  have hdeep : Spec.Deepest base (Spec.table T) p M.dir := by
    refine ⟨⟨⟨M.dir, M.type⟩, List.mem_map.2 ⟨M, hMT, rfl⟩, rfl, (overlaid_iff base M).1 hMo⟩, h1, fun e he ho hp => ?_⟩
    obtain ⟨x, hx, rfl⟩ := List.mem_map.1 he
    have hxf : x ∈ T.filter (fun m => decide (Spec.Overlaid base m)) := List.mem_filter.2 ⟨hx, by simpa using (overlaid_iff base x).2 ho⟩
    rw [h2] at hxf
    rcases List.mem_append.1 hxf with hin | hin
    · have hap := hT.apart.sublist (List.filter_sublist (p := fun m => decide (Spec.Overlaid base m)))
      rw [h2] at hap
      have := (List.pairwise_append.1 hap).2.2 x hin M (by simp)
      rcases prefix_total hp h1 with hc | hc
      · exact hc
      · exact absurd hc this
    · rcases List.mem_cons.1 hin with rfl | hin
      · exact List.prefix_refl _
      · exact absurd hp (h3 x hin)
  have hseen := C31_every_path_shows_its_overlay base (Spec.table T) (fun m hm => by obtain ⟨x, hx, rfl⟩ := List.mem_map.1 hm; exact hT.normal x hx) ms hms se binds p M.dir hsys hb hdeep
  cases hs : seen (startMounts se ms binds) p with
  | none => rw [hs] at hseen; cases hseen
  | some o =>
    rw [hs] at hseen
    obtain ⟨t, w⟩ := o
    simp only [Option.map_some, Option.some.injEq] at hseen
    subst hseen
    have hplace : Spec.place (startMounts se ms binds) p = .stored (mountName M.dir) M.dir (p.drop t.length) := by unfold Spec.place; rw [hs]
    obtain ⟨-, hp, -⟩ := place_stored (fun _ h => h) hplace
    refine ⟨p.drop t.length, hp, hself, ?_, fun up => ?_⟩
    · exact (C31_exact base (Spec.table T) ms hms M.dir).2 ⟨⟨M.dir, M.type⟩, List.mem_map.2 ⟨M, hMT, rfl⟩, rfl, (overlaid_iff base M).1 hMo⟩
    · unfold Spec.fileIn
      rw [hs]
      simp only [hself, Option.bind_some]

/-- Nothing is stored but the top directories. -/
def Spec.NothingStored (up : FS) : Prop := ∀ m sub, sub ≠ [] → up.get (m :: sub) = none

theorem view_layer {l up : FS} {h : Name} {mp : Path} (hempty : Spec.NothingStored up) (htree : ∀ p x, mp <+: p → l.get p = none → l.get (p ++ [x]) = none) (sub : Path) (hsub : sub ≠ []) :
    Spec.view ⟨l, up⟩ h mp sub = l.get (mp ++ sub) := by
  have key : ∀ r : Path, r ≠ [] → Spec.lookupRev ⟨l, up⟩ h mp r = (Spec.present l (mp ++ r.reverse)).map (fun p => ⟨none, some p⟩) := by
    intro r
    induction r with
    | nil => intro h; exact absurd rfl h
    | cons x r ih =>
      intro _
      unfold Spec.lookupRev
      have hnone : up.get (h :: (x :: r).reverse) = none := hempty _ _ (by simp)
      by_cases hr : r = []
      · subst hr
        simp only [Spec.lookupRev]
        simp only [List.reverse_cons, List.reverse_nil, List.nil_append] at hnone ⊢
        rw [hnone]
        simp only [ite_self, Spec.lowerName, Option.map_some, Option.bind_some]
        cases Spec.present l (mp ++ [x]) <;> rfl
      · rw [ih hr]
        cases hp : Spec.present l (mp ++ r.reverse) with
        | none =>
          have hg : l.get (mp ++ r.reverse) = none := by
            unfold Spec.present at hp
            cases hg : l.get (mp ++ r.reverse) with
            | none => rfl
            | some n => rw [hg] at hp; simp at hp
          have hg2 := htree (mp ++ r.reverse) x (List.prefix_append _ _) hg
          rw [List.append_assoc] at hg2
          simp only [Option.map_none, List.reverse_cons]
          rw [Spec.present, hg2]
          rfl
        | some p =>
          have hpe : p = mp ++ r.reverse := by
            unfold Spec.present at hp
            split at hp
            · cases hp; rfl
            · cases hp
          subst hpe
          simp only [Option.map_some, Option.any_none, Bool.false_eq_true, if_false, Spec.lowerName, Option.bind_some, List.append_assoc, List.reverse_cons]
          cases Spec.present l (mp ++ (r.reverse ++ [x])) <;> rfl
  unfold Spec.view Spec.lookup
  rw [key sub.reverse (by simpa using hsub), List.reverse_reverse]
  unfold Spec.present
  cases hg : l.get (mp ++ sub) with
  | none => simp
  | some n => simp [hg]

/-! ### C97 -/

/-- **C97**, what a new sandbox shows: at every path below the mount points (outside `/dev`, `/run`, `/proc`, `/sys` and bind mounts) the file that would be seen on the host if only the overlaid file
systems were mounted there. -/
theorem C97_shown (T : List Spec.HostMount) (hT : Spec.PlainTable T) (base : Path) (hbase : base ≠ []) (ms : List MountHash) (hms : scanSystemMounts base (some (Spec.table T)) = some ms)
    (se : StartEnv) (binds : List StartBind) (up : FS) (hup : Spec.NothingStored up) (p : Path) (hsys : ¬ Spec.SystemPath p) (hb : ∀ b ∈ binds, ¬ b.target <+: p)
    (hp : ∀ m ∈ T, m.dir ≠ p) :
    Spec.fileIn T up (startMounts se ms binds) p = Spec.fileAt (T.filter (fun m => decide (Spec.Overlaid base m))) p := by
  have hroot : ∃ m ∈ T.filter (fun m => decide (Spec.Overlaid base m)), m.dir = [] := by
    obtain ⟨m, hm, hd⟩ := hT.root
    refine ⟨m, List.mem_filter.2 ⟨hm, ?_⟩, hd⟩
    simp only [Spec.Overlaid, hd, true_or, true_and, decide_eq_true_eq, List.prefix_nil]
    exact hbase
  obtain ⟨M, hM⟩ := mountedAt_root hroot p
  obtain ⟨sub, rfl, -, -, hview⟩ := seen_overlaid hT hms se hsys hb hM
  have hMf : M ∈ T := by
    obtain ⟨_, as, bs, h2, _⟩ := mountedAt_some hM
    exact (List.mem_filter.1 (by rw [h2]; simp : M ∈ T.filter (fun m => decide (Spec.Overlaid base m)))).1
  rw [hview, view_layer hup (hT.trees M hMf) sub (fun e => hp M hMf (by simp [e]))]
  unfold Spec.fileAt
  rw [hM]
  rfl

/-- **C97**: what is on an overlaid file system is seen in a new sandbox as it is on the host. -/
theorem C97_same_partial (T : List Spec.HostMount) (hT : Spec.PlainTable T) (base : Path) (hbase : base ≠ []) (ms : List MountHash) (hms : scanSystemMounts base (some (Spec.table T)) = some ms)
    (se : StartEnv) (binds : List StartBind) (up : FS) (hup : Spec.NothingStored up) (p : Path) (hsys : ¬ Spec.SystemPath p) (hb : ∀ b ∈ binds, ¬ b.target <+: p)
    (hp : ∀ m ∈ T, m.dir ≠ p) (M : Spec.HostMount) (hM : Spec.mountedAt T p = some M) (ho : Spec.Overlaid base M) :
    Spec.fileIn T up (startMounts se ms binds) p = Spec.fileAt T p := by
  rw [C97_shown T hT base hbase ms hms se binds up hup p hsys hb hp]
  unfold Spec.fileAt
  rw [hM, mountedAt_filter hM ho]

/-- **C97**, with changes stored: at a path on an overlaid file system overlayfs shows what it would show if its lower layer were the whole host, as it is taken to be elsewhere
(`host`): what is mounted further down makes no difference.  Without renamed directories on the way. -/
theorem C97_changed_partial (T : List Spec.HostMount) (hT : Spec.PlainTable T) (base : Path) (ms : List MountHash) (hms : scanSystemMounts base (some (Spec.table T)) = some ms)
    (se : StartEnv) (binds : List StartBind) (host up : FS) (hhost : ∀ q, host.get q = Spec.fileAt T q) (p : Path) (hsys : ¬ Spec.SystemPath p) (hb : ∀ b ∈ binds, ¬ b.target <+: p)
    (M : Spec.HostMount) (hM : Spec.mountedAt T p = some M) (ho : Spec.Overlaid base M) (sub : Path) (hsub : M.dir ++ sub = p)
    (hr : ∀ y, y <+: sub → ∀ n, up.get (mountName M.dir :: y) = some n → n.redirect = none) :
    Spec.fileIn T up (startMounts se ms binds) p = Spec.view ⟨host, up⟩ (mountName M.dir) M.dir sub := by
  obtain ⟨sub', h1, -, -, hview⟩ := seen_overlaid hT hms se hsys hb (mountedAt_filter hM ho)
  obtain rfl : sub' = sub := List.append_cancel_left (h1.trans hsub.symm)
  rw [hview]
  refine view_lower_congr hr (fun y hy => ?_)
  rw [hhost]
  unfold Spec.fileAt
  rw [mountedAt_between hM (List.prefix_append _ _) (by rw [← hsub]; exact (List.prefix_append_right_inj _).2 hy)]
  rfl

/-- **C97**, with changes stored and directories renamed: likewise on a file system with nothing mounted further down. -/
theorem C97_moved_partial (T : List Spec.HostMount) (hT : Spec.PlainTable T) (base : Path) (ms : List MountHash) (hms : scanSystemMounts base (some (Spec.table T)) = some ms)
    (se : StartEnv) (binds : List StartBind) (host up : FS) (hhost : ∀ q, host.get q = Spec.fileAt T q) (p : Path) (hsys : ¬ Spec.SystemPath p) (hb : ∀ b ∈ binds, ¬ b.target <+: p)
    (M : Spec.HostMount) (hM : Spec.mountedAt T p = some M) (ho : Spec.Overlaid base M) (sub : Path) (hsub : M.dir ++ sub = p) (halone : ∀ x ∈ T, ¬ Below M.dir x.dir) :
    Spec.fileIn T up (startMounts se ms binds) p = Spec.view ⟨host, up⟩ (mountName M.dir) M.dir sub := by
  obtain ⟨sub', h1, hself, -, hview⟩ := seen_overlaid hT hms se hsys hb (mountedAt_filter hM ho)
  obtain rfl : sub' = sub := List.append_cancel_left (h1.trans hsub.symm)
  rw [hview]
  refine view_lower_all (fun q hq => ?_)
  rw [hhost]
  unfold Spec.fileAt
  obtain ⟨-, as, bs, h2, h3⟩ := mountedAt_some hself
  rw [mountedAt_of as bs h2 hq (fun x hx hc => ?_)]
  · rfl
  · rcases prefix_total hc hq with h | h
    · exact h3 x hx h
    · exact halone x (by rw [h2]; simp [hx]) (below_iff.2 ⟨h, fun e => h3 x hx (e ▸ List.prefix_refl _)⟩)

/-- **C97** for bind mounts: below the target of a bind the file at the same place below the source is seen, if nothing else is mounted on the way to it. -/
theorem C97_bind_partial (T : List Spec.HostMount) (ms : List MountHash) (se : StartEnv) (binds : List StartBind) (up : FS) (p q : Path) (ro : Bool)
    (hp : Spec.place (startMounts se ms binds) p = .host q ro) (h : ∀ b ∈ binds, ∀ r, b.source ++ r = q → Spec.mountedAt T b.source = Spec.mountedAt T q) :
    Spec.fileIn T up (startMounts se ms binds) p = Spec.fileAt T q := by
  unfold Spec.fileIn
  unfold Spec.place at hp
  cases hs : seen (startMounts se ms binds) p with
  | none => rw [hs] at hp; cases hp
  | some o =>
    rw [hs] at hp
    obtain ⟨t, w⟩ := o
    cases w <;> simp only [reduceCtorEq, Where.host.injEq] at hp
    rename_i s ro'
    obtain ⟨rfl, rfl⟩ := hp
    simp only
    have hmem : (⟨t, .bind s ro'⟩ : MountOp) ∈ startMounts se ms binds := List.mem_reverse.1 (List.mem_of_find?_eq_some (show List.find? _ _ = some _ from hs))
    rcases mem_startMounts hmem with ⟨d, hd, _⟩ | ⟨b, hb, _, hbm⟩ | ⟨_, hd⟩
    · cases hd
    · have : b.source = s := by
        unfold bindMounted at hbm
        cases hbo : b.opt <;> rw [hbo] at hbm <;> simp only [Mounted.bind.injEq] at hbm
        · exact hbm.1.symm
        · exact hbm.1.symm
        · split at hbm <;> cases hbm
      subst this
      rw [h b hb _ rfl]
      rfl
    · exact absurd rfl (hd s ro')

/-- A machine with a disk for `/`, one for `/home` and a file system in memory at `/tmp`; there is a forgotten file on the first disk below `/tmp`. -/
def exLayers : List Spec.HostMount :=
  [ ⟨[], str "ext4", [([], { kind := .dir }), ([str "tmp"], { kind := .dir }), ([str "tmp", str "x"], { kind := .reg (str "old") }), ([str "home"], { kind := .dir }),
      ([str "etc"], { kind := .dir }), ([str "etc", str "f"], { kind := .reg (str "f") })]⟩,
    ⟨[str "home"], str "xfs", [([str "home"], { kind := .dir, dev := 2 }), ([str "home", str "g"], { kind := .reg (str "g"), dev := 2 })]⟩,
    ⟨[str "tmp"], str "tmpfs", [([str "tmp"], { kind := .dir, dev := 3 }), ([str "tmp", str "x"], { kind := .reg (str "precious"), dev := 3 }),
      ([str "tmp", str "y"], { kind := .reg (str "y"), dev := 3 })]⟩ ]

/-- What is seen of it. -/
def exLayersHost : FS :=
  [ ([], { kind := .dir }), ([str "home"], { kind := .dir, dev := 2 }), ([str "etc"], { kind := .dir }), ([str "etc", str "f"], { kind := .reg (str "f") }),
    ([str "home", str "g"], { kind := .reg (str "g"), dev := 2 }), ([str "tmp"], { kind := .dir, dev := 3 }), ([str "tmp", str "x"], { kind := .reg (str "precious"), dev := 3 }),
    ([str "tmp", str "y"], { kind := .reg (str "y"), dev := 3 }) ]

def exLayersBase : Path := [str "home", str "s", str "box"]
def exLayersMounts : List MountHash := [⟨mountName [], []⟩, ⟨mountName [str "home"], [str "home"]⟩]

/-- The storage of a new sandbox. -/
def exLayersNew : FS := [([], { kind := .dir }), ([mountName []], { kind := .dir }), ([mountName [str "home"]], { kind := .dir })]

theorem exLayers_plain : Spec.PlainTable exLayers := by
  refine ⟨by decide, fun m hm => ?_, ⟨_, List.mem_cons_self, rfl⟩, fun m hm p x hp hn => ?_⟩
  · simp only [exLayers, List.mem_cons, List.not_mem_nil, or_false] at hm
    rcases hm with rfl | rfl | rfl <;> decide
  · cases hg : m.files.get (p ++ [x]) with
    | none => rfl
    | some n =>
      exfalso
      have h1 : ∀ e ∈ m.files, e.1 ≠ m.dir → m.files.get e.1.dropLast ≠ none := by
        simp only [exLayers, List.mem_cons, List.not_mem_nil, or_false] at hm
        rcases hm with rfl | rfl | rfl <;> decide
      refine h1 _ (FS.mem_of_get hg) (fun e => ?_) (by simpa using hn)
      have := hp.length_le
      simp only at e
      rw [← e, List.length_append, List.length_singleton] at this
      omega

theorem exLayersNew_nothing : Spec.NothingStored exLayersNew := by
  intro m sub hs
  cases hg : exLayersNew.get (m :: sub) with
  | none => rfl
  | some n =>
    have : (m :: sub).length ≤ 1 := (by decide +kernel : ∀ e ∈ exLayersNew, e.1.length ≤ 1) _ (FS.mem_of_get hg)
    cases sub with
    | nil => exact absurd rfl hs
    | cons => simp at this

/-- Non-vacuity of `C97_shown`, `C97_same_partial`, `C97_changed_partial` and (for `/home`) `C97_moved_partial`: files on the two disks. -/
example : Spec.PlainTable exLayers ∧ scanSystemMounts exLayersBase (some (Spec.table exLayers)) = some exLayersMounts ∧ Spec.NothingStored exLayersNew ∧
    (∀ p ∈ [[str "etc", str "f"], [str "home", str "g"]], (¬ Spec.SystemPath p) ∧ (∀ m ∈ exLayers, m.dir ≠ p) ∧ (Spec.mountedAt exLayers p).any (fun M => decide (Spec.Overlaid exLayersBase M)) = true ∧
      (Spec.fileAt exLayers p).isSome = true ∧ Spec.fileIn exLayers exLayersNew (startMounts exStart exLayersMounts []) p = Spec.fileAt exLayers p) :=
  ⟨exLayers_plain, by decide +kernel, exLayersNew_nothing, by unfold Spec.SystemPath; decide +kernel⟩
example : ∀ x ∈ exLayers, ¬ Below [str "home"] x.dir := by
  simp only [below_iff]
  decide +kernel
example : ∀ q, exLayersHost.get q = Spec.fileAt exLayers q := by
  intro q
  by_cases hq : q ∈ exLayersHost.keys ++ exLayers.flatMap (fun m => m.files.keys)
  · exact (by decide +kernel : ∀ q ∈ exLayersHost.keys ++ exLayers.flatMap (fun m => m.files.keys), exLayersHost.get q = Spec.fileAt exLayers q) q hq
  · have h1 : exLayersHost.get q = none := by
      cases hg : exLayersHost.get q with
      | none => rfl
      | some n => exact absurd (List.mem_append_left _ (FS.mem_keys.2 ⟨n, hg⟩)) hq
    rw [h1]
    cases hg : Spec.fileAt exLayers q with
    | none => rfl
    | some n =>
      obtain ⟨m, hm, hg⟩ := Option.bind_eq_some_iff.1 hg
      obtain ⟨_, as, bs, he, _⟩ := mountedAt_some hm
      exact absurd (List.mem_append_right _ (List.mem_flatMap.2 ⟨m, by rw [he]; simp, FS.mem_keys.2 ⟨n, hg⟩⟩)) hq

/-- Non-vacuity of `C97_bind_partial`: `/home` bound to `/mnt`. -/
example : Spec.place (startMounts exStart exLayersMounts [⟨[str "home"], [str "mnt"], .rw⟩]) [str "mnt", str "g"] = .host [str "home", str "g"] false ∧
    Spec.fileIn exLayers exLayersNew (startMounts exStart exLayersMounts [⟨[str "home"], [str "mnt"], .rw⟩]) [str "mnt", str "g"] = some { kind := .reg (str "g"), dev := 2 } := by decide +kernel

/-- **C97 refuted** for file systems of other types (here one in memory): their files are not seen in a sandbox; instead the directory they are mounted on is. -/
theorem C97_refuted_unseen : scanSystemMounts exLayersBase (some (Spec.table exLayers)) = some exLayersMounts ∧
    (Spec.fileAt exLayers [str "tmp", str "y"]).map (·.kind) = some (.reg (str "y")) ∧ Spec.fileIn exLayers exLayersNew (startMounts exStart exLayersMounts []) [str "tmp", str "y"] = none ∧
    (Spec.fileAt exLayers [str "tmp", str "x"]).map (·.kind) = some (.reg (str "precious")) ∧
    (Spec.fileIn exLayers exLayersNew (startMounts exStart exLayersMounts []) [str "tmp", str "x"]).map (·.kind) = some (.reg (str "old")) := by decide +kernel

/-- **C97 refuted** for bind mounts: `--bind /` shows the directory below `/tmp`'s file system, too. -/
theorem C97_refuted_bind : (Spec.fileIn exLayers exLayersNew (startMounts exStart exLayersMounts [⟨[], [str "mnt"], .ro⟩]) [str "mnt", str "tmp", str "x"]).map (·.kind) = some (.reg (str "old")) ∧
    Spec.place (startMounts exStart exLayersMounts [⟨[], [str "mnt"], .ro⟩]) [str "mnt", str "tmp", str "x"] = .host [str "tmp", str "x"] true := by decide +kernel

/-- In the sandbox: `rm /tmp/x; echo new > /tmp/y`. -/
def exLayersUsed : FS :=
  exLayersNew ++ [([mountName [], str "tmp"], { kind := .dir }), ([mountName [], str "tmp", str "x"], { kind := .chr 0 }), ([mountName [], str "tmp", str "y"], { kind := .reg (str "new") })]

/-- The program's environment for these examples: all changes are selected. -/
def exLayersEnv : Env := { exViewEnv with decode := fun m => if m = mountName [] then some [] else if m = mountName [str "home"] then some [str "home"] else none }

/-- **C97, C01, C71 refuted** for file systems of other types: the sandbox deleted the forgotten file `/tmp/x` and made a new file `/tmp/y`; `accept` deletes the file `/tmp/x` of the file system in memory, which was
never seen in the sandbox, and overwrites its `/tmp/y`. -/
theorem C97_refuted_accept :
    (Spec.fileIn exLayers exLayersNew (startMounts exStart exLayersMounts []) [str "tmp", str "y"]) = none ∧
    (Spec.fileIn exLayers exLayersUsed (startMounts exStart exLayersMounts []) [str "tmp", str "y"]).map (·.kind) = some (.reg (str "new")) ∧
    (status exLayersEnv ⟨exLayersHost, exLayersUsed⟩).1.map (fun e => (e.op, e.dest)) = [(.remove, [str "tmp", str "x"]), (.set .modify, [str "tmp", str "y"])] ∧
    (accept exLayersEnv ⟨exLayersHost, exLayersUsed⟩).error = none ∧
    exLayersHost.get [str "tmp", str "x"] = some { kind := .reg (str "precious"), dev := 3 } ∧
    (accept exLayersEnv ⟨exLayersHost, exLayersUsed⟩).state.lower.get [str "tmp", str "x"] = none ∧
    ((accept exLayersEnv ⟨exLayersHost, exLayersUsed⟩).state.lower.get [str "tmp", str "y"]).map (·.kind) = some (.reg (str "new")) := by
  decide +kernel

end SB
