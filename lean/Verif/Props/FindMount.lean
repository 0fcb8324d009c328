import Verif.Model.Changes
import Verif.Model.Mounts
import Verif.Lib.FSLemmas

/-!
# C33: finding the mount point of a path
-/

namespace SB

theorem pexists_root {fs : FS} (h : fs.isDirAt [] = true) : fs.pexists [] = true := by
  obtain ⟨n, hn, _⟩ := FS.isDirAt_iff.1 h
  unfold FS.pexists FS.stat FS.realpath FS.resolveN FS.walk
  simp [hn]

theorem nearestExisting_spec {fs : FS} (hr : fs.isDirAt [] = true) : ∀ r : List Name,
    nearestExisting fs r <+: r.reverse ∧ fs.pexists (nearestExisting fs r) = true ∧
    ∀ q, q <+: r.reverse → Below (nearestExisting fs r) q → fs.pexists q = false
  | [] => by
    refine ⟨List.prefix_refl _, pexists_root hr, ?_⟩
    intro q hq hb
    simp only [List.reverse_nil, List.prefix_nil] at hq
    subst hq
    exact absurd hb (not_below_self _)
  | x :: r => by
    unfold nearestExisting
    split
    · next h =>
      refine ⟨List.prefix_refl _, h, ?_⟩
      intro q hq hb
      exact absurd hq (fun hq => hb.not_prefix hq)
    · next h =>
      obtain ⟨h1, h2, h3⟩ := nearestExisting_spec hr r
      refine ⟨h1.trans (by rw [List.reverse_cons]; exact List.prefix_append _ _), h2, ?_⟩
      intro q hq hb
      by_cases he : q = (x :: r).reverse
      · rw [he]; simpa using h
      · apply h3 q _ hb
        rw [List.reverse_cons] at hq he
        have := prefix_dropLast_of_below (below_iff.2 ⟨hq, he⟩)
        simpa using this

theorem mountUp_spec (fs : FS) (dev : Nat) : ∀ r : List Name, mountUp fs dev r <+: r.reverse ∧
    (∀ q, mountUp fs dev r <+: q → Below q r.reverse → lstatDev fs q = dev) ∧
    (mountUp fs dev r = [] ∨ lstatDev fs (mountUp fs dev r).dropLast ≠ dev)
  | [] => ⟨List.prefix_refl _, fun q _ hb => absurd hb (by rintro ⟨t, ht, he⟩; rw [List.reverse_nil, eq_comm, List.append_eq_nil_iff] at he; exact ht he.2),
      .inl rfl⟩
  | x :: r => by
    unfold mountUp
    split
    · next h =>
      refine ⟨List.prefix_refl _, fun q hq hb => absurd hq (fun hq => hb.not_prefix hq), .inr ?_⟩
      simpa using h
    · next h =>
      obtain ⟨h1, h2, h3⟩ := mountUp_spec fs dev r
      refine ⟨h1.trans (by rw [List.reverse_cons]; exact List.prefix_append _ _), ?_, h3⟩
      intro q hq hb
      by_cases he : q = r.reverse
      · rw [he]; simpa using h
      · apply h2 q hq
        have := prefix_dropLast_of_below hb
        rw [List.reverse_cons, List.dropLast_concat] at this
        exact below_iff.2 ⟨this, he⟩

/-- **C33**: `find_mount_point p` lies at or above the nearest existing path `q` at or above `p`, everything from it down to `q` is on the same device, and it is `/` or
its parent is on another device. -/
theorem C33_spec (fs : FS) (hr : fs.isDirAt [] = true) (p : Path) :
    ∃ q, q <+: p ∧ fs.pexists q = true ∧ (∀ q', q' <+: p → Below q q' → fs.pexists q' = false) ∧
      findMountPoint fs p <+: q ∧ (∀ d, findMountPoint fs p <+: d → d <+: q → lstatDev fs d = lstatDev fs q) ∧
      (findMountPoint fs p = [] ∨ lstatDev fs (findMountPoint fs p).dropLast ≠ lstatDev fs q) := by
  obtain ⟨h1, h2, h3⟩ := nearestExisting_spec hr p.reverse
  rw [List.reverse_reverse] at h1 h3
  set q := nearestExisting fs p.reverse with hq
  obtain ⟨m1, m2, m3⟩ := mountUp_spec fs (lstatDev fs q) q.reverse
  rw [List.reverse_reverse] at m1 m2
  refine ⟨q, h1, h2, h3, m1, ?_, m3⟩
  intro d hd hdq
  by_cases he : d = q
  · rw [he]
  · exact m2 d hd (below_iff.2 ⟨hdq, he⟩)

/-- Device numbers as a mount table gives them: every existing path is on the device of the deepest mount at or above it. -/
def Spec.DevicesFrom (fs : FS) (mounts : List Path) (dev : Path → Nat) : Prop :=
  ∀ p M, p ∈ fs.keys → M ∈ mounts → M <+: p → (∀ M' ∈ mounts, M' <+: p → M' <+: M) → lstatDev fs p = dev M

/-- A mount's parent directory is on another device than the mount itself (not true of bind mounts within a file system). -/
def Spec.ParentsDiffer (fs : FS) (mounts : List Path) : Prop := ∀ M ∈ mounts, M ≠ [] → lstatDev fs M.dropLast ≠ lstatDev fs M

/-- **C33**: in terms of the mount table: for a path that exists (not through symbolic links) the result is the deepest mount point at or above it, if no mount has the
device of its parent directory. -/
theorem C33_deepest_mount_partial (fs : FS) (hw : fs.WF) (mounts : List Path) (dev : Path → Nat) (hd : Spec.DevicesFrom fs mounts dev)
    (hp : Spec.ParentsDiffer fs mounts) (p : Path) (hpf : p ∈ fs.keys) (hnl : fs.pexists p = true) (M : Path) (hM : M ∈ mounts) (hMp : M <+: p)
    (hmax : ∀ M' ∈ mounts, M' <+: p → M' <+: M) : findMountPoint fs p = M := by
  obtain ⟨q, hq1, _, hq3, hq4, hq5, hq6⟩ := C33_spec fs hw.root p
  have hqp : q = p := by
    by_contra hne
    have := hq3 p (List.prefix_refl _) (below_iff.2 ⟨hq1, hne⟩)
    rw [hnl] at this; cases this
  subst hqp
  obtain ⟨n, hn⟩ := FS.mem_keys.1 hpf
  have hkeys : ∀ d, d <+: q → d ∈ fs.keys := by
    intro d hdq
    by_cases he : d = q
    · rw [he]; exact hpf
    · obtain ⟨r, hr⟩ := hdq
      obtain ⟨m, hm, _⟩ := FS.isDirAt_iff.1 (hw.ancestor hn (q := d) (below_iff.2 ⟨⟨r, hr⟩, he⟩))
      exact FS.mem_keys.2 ⟨m, hm⟩
  -- everything between M and q is on M's device
  have hdevM : ∀ d, M <+: d → d <+: q → lstatDev fs d = dev M := fun d hMd hdq =>
    hd d M (hkeys d hdq) hM hMd (fun M' hM' hpre => hmax M' hM' (hpre.trans hdq))
  rcases prefix_total hq4 hMp with hcase | hcase
  · -- the result lies at or above M
    by_contra hne
    have hbel : Below (findMountPoint fs q) M := below_iff.2 ⟨hcase, hne⟩
    have hMne : M ≠ [] := by
      rintro rfl
      obtain ⟨r, hr, he⟩ := hbel
      rw [eq_comm, List.append_eq_nil_iff] at he
      exact hr he.2
    have h1 := hp M hM hMne
    have h2 := hq5 M.dropLast (prefix_dropLast_of_below hbel) ((dropLast_below hMne).prefix.trans hMp)
    have h3 := hdevM q hMp (List.prefix_refl _)
    have h4 := hdevM M (List.prefix_refl _) hMp
    rw [h2, h3, ← h4] at h1
    exact h1 rfl
  · -- the result lies at or below M
    by_contra hne
    have hbel : Below M (findMountPoint fs q) := below_iff.2 ⟨hcase, fun h => hne h.symm⟩
    rcases hq6 with h | h
    · rw [h] at hbel
      obtain ⟨r, hr, he⟩ := hbel
      rw [eq_comm, List.append_eq_nil_iff] at he
      exact hr he.2
    · apply h
      rw [hdevM _ (prefix_dropLast_of_below hbel) ((List.dropLast_prefix _).trans hq4), hdevM q hMp (List.prefix_refl _)]

/-- A host with a mount at `/home`. -/
def exHomeFs : FS := [ ([], { kind := .dir, dev := 1 }), ([str "home"], { kind := .dir, dev := 2 }), ([str "home", str "u"], { kind := .dir, dev := 2 }),
  ([str "home", str "u", str "f"], { kind := .reg [], dev := 2 }) ]

/-- Non-vacuity, also for a path that does not exist. -/
example : exHomeFs.WF ∧ findMountPoint exHomeFs [str "home", str "u", str "f"] = [str "home"] ∧
    findMountPoint exHomeFs [str "home", str "u", str "x", str "y"] = [str "home"] ∧ findMountPoint exHomeFs [str "x"] = [] := by decide +kernel

example : Spec.ParentsDiffer exHomeFs [[], [str "home"]] := by unfold Spec.ParentsDiffer; decide +kernel

example : Spec.DevicesFrom exHomeFs [[], [str "home"]] (fun M => if M = [] then 1 else 2) := by
  intro p M hp hM hMp hmax
  simp only [exHomeFs, FS.keys, List.map_cons, List.map_nil, List.mem_cons, List.not_mem_nil, or_false] at hp hM
  rcases hp with rfl | rfl | rfl | rfl <;> rcases hM with rfl | rfl
  · decide +kernel
  · revert hMp; decide
  · exact absurd (hmax [str "home"] (by simp) (by decide)) (by decide)
  · decide +kernel
  · exact absurd (hmax [str "home"] (by simp) (by decide)) (by decide)
  · decide +kernel
  · exact absurd (hmax [str "home"] (by simp) (by decide)) (by decide)
  · decide +kernel

/-- **C33 refuted** for mounts on the same device (a bind mount of a directory of the same file system at `/b`): the mount point found for a file in it is `/`. -/
theorem C33_refuted_same_device :
    let fs : FS := [ ([], { kind := .dir, dev := 1 }), ([str "b"], { kind := .dir, dev := 1 }), ([str "b", str "f"], { kind := .reg [], dev := 1 }) ]
    findMountPoint fs [str "b", str "f"] = [] := by decide +kernel

end SB
