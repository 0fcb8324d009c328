import Verif.Props.FindMount
import Verif.Props.Config

/-! # C59: choice of the storage directory -/

namespace SB

/-- `q` is the deepest existing path at or above `p`. -/
def Spec.Nearest (fs : FS) (p q : Path) : Prop := q <+: p ∧ fs.pexists q = true ∧ ∀ q', q' <+: p → Below q q' → fs.pexists q' = false

/-- The file system seen at `p`: of the mounts at or above `p`, the last one of the table. -/
def Spec.MountSeen (mounts : List MountEntry) (p : Path) (m : MountEntry) : Prop :=
  ∃ pre post, mounts = pre ++ m :: post ∧ m.dir <+: p ∧ ∀ m' ∈ post, ¬ m'.dir <+: p

/-- The candidate lies (or would lie, once created) on a file system of an acceptable type. -/
def Spec.Acceptable (fs : FS) (mounts : List MountEntry) (p : Path) : Prop :=
  ∃ q m, Spec.Nearest fs p q ∧ Spec.MountSeen mounts q m ∧ m.type ∈ [str "btrfs", str "ext4", str "tmpfs", str "xfs", str "zfs"]

/-- The directory is the user's own or can be created by the user. -/
def Spec.Usable (w : World) (d : Path) : Prop :=
  d ≠ [] ∧ (∀ q, Spec.Nearest w.fs d.dropLast q → w.canWrite q = true) ∧ w.canCreate d = true ∧
  (w.fs.pexists d = true → ∃ n, w.fs.lstat d = .ok n ∧ n.isDir = true ∧ n.uid = w.uid ∧ n.gid = w.gid)

/-- The directories that are considered. -/
def Spec.Candidates (w : World) (setting : Option Str) : List Path :=
  match setting with
  | some s => [(parsePath s).comps]
  | none => [w.home.comps ++ [str ".sandboxes"], [str "tmp", str "sandboxes-" ++ (toString w.uid).toList]]

/-- No mount is covered by a later one. -/
def Spec.NothingCovered (mounts : List MountEntry) : Prop := mounts.Pairwise (fun a b => ¬ b.dir <+: a.dir)

/-- What the mount table and device numbers are like for C59. -/
structure Spec.PlainMounts (fs : FS) (mounts : List MountEntry) : Prop where
  wf : fs.WF
  covered : Spec.NothingCovered mounts
  devices : ∃ dev, Spec.DevicesFrom fs (mounts.map MountEntry.dir) dev
  parents : Spec.ParentsDiffer fs (mounts.map MountEntry.dir)
  root : ∃ m ∈ mounts, m.dir = []

/-- The path does not lead through a symbolic link. -/
def Spec.NoLinks (fs : FS) (p : Path) : Prop := ∀ q, q <+: p → fs.pexists q = true → q ∈ fs.keys

theorem nearest_unique {fs : FS} {p q q' : Path} (h : Spec.Nearest fs p q) (h' : Spec.Nearest fs p q') : q = q' := by
  rcases prefix_total h.1 h'.1 with hp | hp
  · by_contra hne
    have := h.2.2 q' h'.1 (below_iff.2 ⟨hp, hne⟩)
    rw [h'.2.1] at this; cases this
  · by_contra hne
    have := h'.2.2 q h.1 (below_iff.2 ⟨hp, fun e => hne e.symm⟩)
    rw [h.2.1] at this; cases this

theorem nearest_nearestExisting {fs : FS} (hr : fs.isDirAt [] = true) (p : Path) : Spec.Nearest fs p (nearestExisting fs p.reverse) := by
  obtain ⟨h1, h2, h3⟩ := nearestExisting_spec hr p.reverse
  rw [List.reverse_reverse] at h1 h3
  exact ⟨h1, h2, h3⟩

theorem canMkdirUp_iff (w : World) (hr : w.fs.isDirAt [] = true) : ∀ r : List Name, canMkdirUp w r = w.canWrite (nearestExisting w.fs r)
  | [] => rfl
  | x :: r => by
    unfold canMkdirUp nearestExisting
    split
    · rfl
    · exact canMkdirUp_iff w hr r

theorem usable_iff (w : World) (hr : w.fs.isDirAt [] = true) (d : Path) :
    (d ≠ [] ∧ (canMkdirUp w d.dropLast.reverse && mkdirOk w d) = true) ↔ Spec.Usable w d := by
  unfold Spec.Usable
  rw [Bool.and_eq_true, canMkdirUp_iff w hr]
  refine and_congr_right fun _ => and_congr ?_ ?_
  · constructor
    · intro h q hq; rw [← nearest_unique (nearest_nearestExisting hr _) hq]; exact h
    · intro h; exact h _ (nearest_nearestExisting hr _)
  · unfold mkdirOk
    split
    · rename_i he
      cases hl : w.fs.lstat d with
      | error e => simp [he]
      | ok n =>
        simp only [Bool.and_eq_true, beq_iff_eq, Except.ok.injEq, exists_eq_left']
        tauto
    · rename_i he
      simp [he]

theorem findMountPoint_nearest {fs : FS} {p q : Path} (hr : fs.isDirAt [] = true) (h : Spec.Nearest fs p q) : findMountPoint fs p = findMountPoint fs q := by
  have h1 : nearestExisting fs p.reverse = q := nearest_unique (nearest_nearestExisting hr p) h
  have h2 : nearestExisting fs q.reverse = q :=
    nearest_unique (nearest_nearestExisting hr q) ⟨List.prefix_refl _, h.2.1, fun q' hq hb => absurd hq hb.not_prefix⟩
  unfold findMountPoint
  simp only [h1, h2]

theorem mountSeen_exists {mounts : List MountEntry} {q : Path} (h : ∃ m ∈ mounts, m.dir = []) : ∃ m, Spec.MountSeen mounts q m := by
  induction mounts with
  | nil => obtain ⟨m, hm, _⟩ := h; cases hm
  | cons a r ih =>
    by_cases hr : ∃ m ∈ r, m.dir <+: q
    · have : ∀ l : List MountEntry, (∃ m ∈ l, m.dir <+: q) → ∃ m, Spec.MountSeen l q m := by
        intro l
        induction l with
        | nil => rintro ⟨_, hm, _⟩; cases hm
        | cons b t iht =>
          intro hb
          by_cases ht : ∃ m ∈ t, m.dir <+: q
          · obtain ⟨m, pre, post, he, h1, h2⟩ := iht ht
            exact ⟨m, b :: pre, post, by rw [he]; rfl, h1, h2⟩
          · obtain ⟨m, hm, hp⟩ := hb
            rcases List.mem_cons.1 hm with rfl | hm
            · exact ⟨m, [], t, rfl, hp, fun m' hm' hp' => ht ⟨m', hm', hp'⟩⟩
            · exact absurd ⟨m, hm, hp⟩ ht
      obtain ⟨m, pre, post, he, h1, h2⟩ := this r hr
      exact ⟨m, a :: pre, post, by rw [he]; rfl, h1, h2⟩
    · obtain ⟨m, hm, hd⟩ := h
      rcases List.mem_cons.1 hm with rfl | hm
      · exact ⟨m, [], r, rfl, hd ▸ List.nil_prefix, fun m' hm' hp' => hr ⟨m', hm', hp'⟩⟩
      · exact absurd ⟨m, hm, hd ▸ List.nil_prefix⟩ hr

theorem mountSeen_find {fs : FS} {mounts : List MountEntry} {q : Path} {m : MountEntry} (h : Spec.PlainMounts fs mounts) (hs : Spec.MountSeen mounts q m)
    (hq : q ∈ fs.keys) (he : fs.pexists q = true) : mounts.find? (fun x => decide (x.dir = findMountPoint fs q)) = some m := by
  obtain ⟨pre, post, hm, hp, hpost⟩ := hs
  obtain ⟨dev, hdev⟩ := h.devices
  have hcov := h.covered
  unfold Spec.NothingCovered at hcov
  rw [hm, List.pairwise_append] at hcov
  have hmax : ∀ x ∈ mounts, x.dir <+: q → x.dir <+: m.dir := by
    intro x hx hxq
    rw [hm] at hx
    rcases List.mem_append.1 hx with hx | hx
    · rcases prefix_total hxq hp with h1 | h1
      · exact h1
      · exact absurd h1 (hcov.2.2 x hx m List.mem_cons_self)
    · rcases List.mem_cons.1 hx with rfl | hx
      · exact List.prefix_refl _
      · exact absurd hxq (hpost x hx)
  have hmem : m ∈ mounts := by rw [hm]; simp
  have hf : findMountPoint fs q = m.dir := by
    refine C33_deepest_mount_partial fs h.wf (mounts.map MountEntry.dir) dev hdev h.parents q hq he m.dir (List.mem_map_of_mem hmem) hp ?_
    intro M' hM' hM'q
    obtain ⟨x, hx, rfl⟩ := List.mem_map.1 hM'
    exact hmax x hx hM'q
  rw [hf, List.find?_eq_some_iff_append]
  refine ⟨by simp, pre, post, hm, fun x hx => ?_⟩
  have := hcov.2.2 x hx m List.mem_cons_self
  simp only [Bool.not_eq_true', decide_eq_false_iff_not]
  intro hx'
  rw [hx'] at this
  exact this (List.prefix_refl _)

theorem acceptable_find {fs : FS} {mounts : List MountEntry} {p : Path} (h : Spec.PlainMounts fs mounts) (hl : Spec.NoLinks fs p) :
    ∃ m, mounts.find? (fun x => decide (x.dir = findMountPoint fs p)) = some m ∧ (Spec.Acceptable fs mounts p ↔ m.type ∈ storageTypes) := by
  have hn := nearest_nearestExisting h.wf.root p
  set q := nearestExisting fs p.reverse with hqd
  obtain ⟨m, hm⟩ := mountSeen_exists (q := q) h.root
  have hk : q ∈ fs.keys := hl q hn.1 hn.2.1
  refine ⟨m, ?_, ?_⟩
  · rw [findMountPoint_nearest h.wf.root hn]; exact mountSeen_find h hm hk hn.2.1
  · constructor
    · rintro ⟨q', m', hn', hm', ht⟩
      have := nearest_unique hn hn'
      subst this
      have h1 := mountSeen_find h hm hk hn.2.1
      rw [mountSeen_find h hm' hk hn.2.1] at h1
      cases h1
      exact ht
    · intro ht; exact ⟨q, m, hn, hm, ht⟩

theorem resolveStorageLoop_spec (w : World) (ms : List MountEntry) (hp : Spec.PlainMounts w.fs ms) : ∀ (cands : List RPath),
    (∀ c ∈ cands, c.abs = true ∧ Spec.NoLinks w.fs c.comps) → ∀ d,
    (resolveStorageLoop w ms cands = .ok d ↔ ∃ pre post, cands.map RPath.comps = pre ++ d :: post ∧ (∀ x ∈ pre, ¬ Spec.Acceptable w.fs ms x) ∧
      Spec.Acceptable w.fs ms d ∧ Spec.Usable w d)
  | [], _, d => by simp [resolveStorageLoop]
  | c :: r, hc, d => by
    obtain ⟨ha, hl⟩ := hc c List.mem_cons_self
    obtain ⟨m, hf, hacc⟩ := acceptable_find hp hl
    have hr : ∀ c ∈ r, c.abs = true ∧ Spec.NoLinks w.fs c.comps := fun c h => hc c (List.mem_cons_of_mem _ h)
    unfold resolveStorageLoop
    simp only [ha, Bool.not_true, Bool.false_eq_true, if_false, hf, Option.map_some]
    by_cases hty : m.type ∈ storageTypes
    · rw [if_neg (by simpa using hty)]
      have hA := hacc.2 hty
      have key : (∃ pre post, (c :: r).map RPath.comps = pre ++ d :: post ∧ (∀ x ∈ pre, ¬ Spec.Acceptable w.fs ms x) ∧
          Spec.Acceptable w.fs ms d ∧ Spec.Usable w d) ↔ d = c.comps ∧ Spec.Usable w c.comps := by
        constructor
        · rintro ⟨pre, post, he, h1, h2, h3⟩
          cases pre with
          | nil => simp only [List.map_cons, List.nil_append, List.cons.injEq] at he; exact ⟨he.1.symm, he.1 ▸ h3⟩
          | cons x pre =>
            simp only [List.map_cons, List.cons_append, List.cons.injEq] at he
            exact absurd (he.1 ▸ hA) (h1 x List.mem_cons_self)
        · rintro ⟨rfl, hu⟩
          exact ⟨[], r.map RPath.comps, rfl, by simp, hA, hu⟩
      rw [key, ← usable_iff w hp.wf.root]
      by_cases hnil : c.comps = []
      · rw [if_pos hnil]; simp [hnil]
      · rw [if_neg hnil]
        split
        · rename_i h; simp only [Except.ok.injEq, hnil, ne_eq, not_false_eq_true, h, and_true]; exact eq_comm
        · rename_i h; simp only [h, reduceCtorEq, and_false]
    · rw [if_pos hty, resolveStorageLoop_spec w ms hp r hr d]
      have hA : ¬ Spec.Acceptable w.fs ms c.comps := fun h => hty (hacc.1 h)
      constructor
      · rintro ⟨pre, post, he, h1, h2⟩
        exact ⟨c.comps :: pre, post, by rw [List.map_cons, he]; rfl, by simpa using ⟨hA, h1⟩, h2⟩
      · rintro ⟨pre, post, he, h1, h2⟩
        cases pre with
        | nil =>
          simp only [List.map_cons, List.nil_append, List.cons.injEq] at he
          exact absurd h2.1 (he.1 ▸ hA)
        | cons x pre =>
          simp only [List.map_cons, List.cons_append, List.cons.injEq] at he
          exact ⟨pre, post, he.2, fun y hy => h1 y (List.mem_cons_of_mem _ hy), h2⟩

theorem candidates_comps (w : World) (setting : Option Str) : (storageCandidates w setting).map RPath.comps = Spec.Candidates w setting := by
  cases setting with
  | some s => rfl
  | none => simp only [storageCandidates, Spec.Candidates, List.map_cons, List.map_nil, List.cons.injEq, and_true]; exact ⟨by simp [RPath.join, parsePath]; rfl, rfl⟩

/-- **C59**: the storage directory is `d` exactly when `d` is the first candidate on an acceptable file system and it is the user's own directory or the user can
create it; in every other case the command fails.  For absolute candidates that do not lead through symbolic links and tables in which no mount covers another
(`PlainMounts`). -/
theorem C59_choice_partial (w : World) (ms : List MountEntry) (hm : w.mounts = some ms) (hp : Spec.PlainMounts w.fs ms) (setting : Option Str)
    (hc : ∀ s, setting = some s → (parsePath s).abs = true) (hh : w.home.abs = true) (hl : ∀ c ∈ Spec.Candidates w setting, Spec.NoLinks w.fs c) (d : Path) :
    resolveStorage w setting = .ok d ↔
      ∃ pre post, Spec.Candidates w setting = pre ++ d :: post ∧ (∀ x ∈ pre, ¬ Spec.Acceptable w.fs ms x) ∧ Spec.Acceptable w.fs ms d ∧ Spec.Usable w d := by
  unfold resolveStorage
  rw [hm]
  dsimp only
  rw [resolveStorageLoop_spec w ms hp _ ?_ d, candidates_comps]
  intro c hcm
  refine ⟨?_, hl _ (by rw [← candidates_comps]; exact List.mem_map_of_mem hcm)⟩
  cases setting with
  | some s => simp only [storageCandidates, List.mem_singleton] at hcm; rw [hcm]; exact hc s rfl
  | none =>
    simp only [storageCandidates, List.mem_cons, List.not_mem_nil, or_false] at hcm
    rcases hcm with rfl | rfl
    · exact hh
    · rfl

theorem resolveStorageLoop_ok (w : World) (ms : List MountEntry) : ∀ (cands : List RPath) (d : Path), resolveStorageLoop w ms cands = .ok d →
    ∃ c ∈ cands, c.abs = true ∧ c.comps = d ∧ d ≠ [] ∧ (canMkdirUp w d.dropLast.reverse && mkdirOk w d) = true
  | [], d, h => by simp [resolveStorageLoop] at h
  | c :: r, d, h => by
    unfold resolveStorageLoop at h
    split at h
    · cases h
    · rename_i ha
      have hrec : resolveStorageLoop w ms r = .ok d → ∃ x ∈ c :: r, x.abs = true ∧ x.comps = d ∧ d ≠ [] ∧ (canMkdirUp w d.dropLast.reverse && mkdirOk w d) = true :=
        fun h => (resolveStorageLoop_ok w ms r d h).imp fun x hx => ⟨List.mem_cons_of_mem c hx.1, hx.2⟩
      split at h
      · exact hrec h
      · split at h
        · exact hrec h
        · split at h
          · cases h
          · split at h
            · rename_i hn hu
              cases h
              exact ⟨c, List.mem_cons_self, by simpa using ha, rfl, hn, hu⟩
            · cases h

/-- **C59**, unconditionally: whatever the mount table looks like, a directory is only used if it is one of the candidates and is the user's own directory (not a
symbolic link) or can be created by the user. -/
theorem C59_usable (w : World) (hr : w.fs.isDirAt [] = true) (setting : Option Str) (d : Path) (h : resolveStorage w setting = .ok d) :
    d ∈ Spec.Candidates w setting ∧ Spec.Usable w d := by
  unfold resolveStorage at h
  split at h
  · cases h
  · obtain ⟨c, hc, _, rfl, hu⟩ := resolveStorageLoop_ok w _ _ d h
    exact ⟨by rw [← candidates_comps]; exact List.mem_map_of_mem hc, (usable_iff w hr _).1 hu⟩

/-- **C59**: a relative storage directory is never accepted. -/
theorem C59_relative (w : World) (s : Str) (h : (parsePath s).abs = false) (d : Path) : resolveStorage w (some s) ≠ .ok d := by
  unfold resolveStorage
  split
  · simp
  · intro hd
    obtain ⟨c, hc, ha, _⟩ := resolveStorageLoop_ok w _ _ d hd
    simp only [storageCandidates, List.mem_singleton] at hc
    rw [hc, h] at ha; cases ha

/-- A user whose home directory is on NFS, with a local `/tmp`. -/
def exNfsWorld : World := { exCfgWorld with
  fs := [([], { kind := .dir, dev := 1 }), ([str "home"], { kind := .dir, dev := 2 }), ([str "home", str "u"], { kind := .dir, dev := 2, uid := 1000, gid := 1000 }),
    ([str "tmp"], { kind := .dir, dev := 3 })]
  mounts := some [⟨[], str "ext4"⟩, ⟨[str "home"], str "nfs4"⟩, ⟨[str "tmp"], str "tmpfs"⟩] }

/-- Non-vacuity: the second candidate is chosen; an explicit directory on NFS is an error, and so is one in which somebody else's directory stands. -/
example : resolveStorage exNfsWorld none = .ok [str "tmp", str "sandboxes-1000"] ∧ resolveStorage exNfsWorld (some (str "/home/u/s")) = .error .storage ∧
    resolveStorage exNfsWorld (some (str "/srv/s")) = .ok [str "srv", str "s"] ∧ resolveStorage exNfsWorld (some (str "/tmp")) = .error .storage := by decide +kernel

example : Spec.NothingCovered [⟨[], str "ext4"⟩, ⟨[str "home"], str "nfs4"⟩, ⟨[str "tmp"], str "tmpfs"⟩] ∧
    Spec.ParentsDiffer exNfsWorld.fs [[], [str "home"], [str "tmp"]] ∧ exNfsWorld.fs.WF := by
  unfold Spec.NothingCovered Spec.ParentsDiffer; decide +kernel

example : Spec.DevicesFrom exNfsWorld.fs [[], [str "home"], [str "tmp"]] (fun M => if M = [] then 1 else if M = [str "home"] then 2 else 3) := by
  intro p M hp hM hMp hmax
  simp only [exNfsWorld, FS.keys, List.map_cons, List.map_nil, List.mem_cons, List.not_mem_nil, or_false] at hp hM
  rcases hp with rfl | rfl | rfl | rfl <;> rcases hM with rfl | rfl | rfl <;>
    first
      | decide +kernel
      | (revert hMp; decide)
      | exact absurd (hmax [str "home"] (by simp) (by decide)) (by decide)
      | exact absurd (hmax [str "tmp"] (by simp) (by decide)) (by decide)

example : ∀ c ∈ Spec.Candidates exNfsWorld none, ∀ q ∈ c.inits, exNfsWorld.fs.pexists q = true → q ∈ exNfsWorld.fs.keys := by decide +kernel

/-- **C59 refuted** for a home directory reached through a symbolic link to another file system: `/home` is a link to `/data/home`, `/data` is ext4 and the user's home
directory is writable, yet `~/.sandboxes` is not used (the tool takes `/home/u` for a mount point and does not find it in the table). -/
theorem C59_refuted_symlink :
    let w : World := { exCfgWorld with
      fs := [([], { kind := .dir, dev := 1 }), ([str "home"], { kind := .lnk (str "/data/home"), dev := 1 }), ([str "data"], { kind := .dir, dev := 2 }),
        ([str "data", str "home"], { kind := .dir, dev := 2 }), ([str "data", str "home", str "u"], { kind := .dir, dev := 2, uid := 1000, gid := 1000 }),
        ([str "tmp"], { kind := .dir, dev := 1 })]
      mounts := some [⟨[], str "ext4"⟩, ⟨[str "data"], str "ext4"⟩] }
    w.fs.realpath [str "home", str "u"] = .ok [str "data", str "home", str "u"] ∧
    resolveStorage w none = .ok [str "tmp", str "sandboxes-1000"] ∧ resolveStorage w (some (str "/home/u/.sandboxes")) = .error .storage := by decide +kernel

/-- **C59 refuted** for stacked mounts: `/home` is mounted over twice; what is seen there is NFS, but the first line for it in the table counts. -/
theorem C59_refuted_stacked :
    let w : World := { exNfsWorld with mounts := some [⟨[], str "ext4"⟩, ⟨[str "home"], str "ext4"⟩, ⟨[str "home"], str "nfs4"⟩, ⟨[str "tmp"], str "tmpfs"⟩] }
    resolveStorage w none = .ok [str "home", str "u", str ".sandboxes"] := by decide +kernel

end SB
