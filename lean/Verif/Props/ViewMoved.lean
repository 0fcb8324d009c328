import Verif.Lib.OverlayMoved
import Verif.Props.Moved

/-!
# C01 with renamed directories
-/

namespace SB

/-- A stored node deletes or replaces what the host has at `o`: a whiteout, an opaque directory, or a file or link where the host has a directory or a link. -/
def Spec.Deletes (st : State) (n : Node) (o : Path) : Prop :=
  Spec.isWhiteout n = true ∨ n.opq = true ∨
    (Spec.ftype n.kind ≠ .directory ∧ ∃ k, st.lower.get o = some k ∧ (Spec.ftype k.kind = .directory ∨ Spec.ftype k.kind = .symlink))

/-- A storage as overlayfs leaves it, with renamed directories.  As in `Spec.PlainStorage`: whiteouts are devices 0:0 or regular files with the whiteout attribute, other
devices do not resemble 0:0, mount points are directories, mounts do not interfere, no dangling link was deleted.  Redirects are on merged directories and have the form the program
understands (`Spec.SimpleRedirects`, C15). -/
structure Spec.RedirectStorage (env : Env) (st : State) : Prop where
  wf : st.upper.WF
  whiteouts : ∀ q n, st.upper.get q = some n → n.whiteout = true → Spec.ftype n.kind = .file
  devices : ∀ q n r, st.upper.get q = some n → n.kind = .chr r → r % 65536 = 0 → r = 0
  mounts : ∀ m mp, [m] ∈ st.upper.keys → env.decode m = some mp →
    (∃ n, st.lower.get mp = some n ∧ Spec.ftype n.kind = .directory) ∧ ∃ n, st.upper.get [m] = some n ∧ Spec.ftype n.kind = .directory
  nested : ∀ m mp m' mp' sub n, [m] ∈ st.upper.keys → env.decode m = some mp → m' ≠ m → env.decode m' = some mp' → mp' <+: mp → sub ≠ [] →
    st.upper.get (m' :: sub) = some n → ∀ p, p = mp' ++ sub ∨ p = Spec.named st m' mp' sub →
    ¬ mp <+: p ∧ (Spec.Hiding n ∨ n.redirect.isSome = true → ¬ p <+: mp)
  links : ∀ m mp sub n k, env.decode m = some mp → st.upper.get (m :: sub) = some n → Spec.isWhiteout n = true → st.lower.get (Spec.named st m mp sub) = some k →
    Spec.ftype k.kind = .symlink → st.lower.pexists (Spec.named st m mp sub) = true
  redirects : ∀ m mp q n rd, env.decode m = some mp → st.upper.get (m :: q) = some n → n.redirect = some rd →
    q ≠ [] ∧ Spec.ftype n.kind = .directory ∧ n.opq = false ∧ components rd ≠ [] ∧ NormalPath (components rd)
  relative : ∀ m mp q n rd, env.decode m = some mp → st.upper.get (m :: q) = some n → n.redirect = some rd → rd.head? ≠ some '/' →
    ∀ y k, y ≠ [] → Below y q → st.upper.get (m :: y) = some k → k.redirect = none ∧ k.opq = false
  absolute : ∀ m mp q n rd, env.decode m = some mp → st.upper.get (m :: q) = some n → n.redirect = some rd → rd.head? = some '/' → findMountPoint st.lower (mp ++ q) = mp

/-- In addition: the owner and mode of renamed directories have not been changed (`C01_refuted_rename_mode`); every host path is seen at one place at most; and nothing that is
still seen was in a host directory that has been deleted or replaced, unless that directory itself was moved (`C01_refuted_moved_out`, `C13_refuted_recreated`). -/
structure Spec.MovedStorage (env : Env) (st : State) : Prop extends Spec.RedirectStorage env st where
  attributes : ∀ m mp q n k, env.decode m = some mp → st.upper.get (m :: q) = some n → n.redirect.isSome = true → st.lower.get (Spec.named st m mp q) = some k → Spec.SameNode k n
  once : ∀ m mp sub sub' f f' l, [m] ∈ st.upper.keys → env.decode m = some mp → Spec.lookup st m mp sub = some f → f.lower = some l → Spec.lookup st m mp sub' = some f' →
    f'.lower = some l → sub = sub'
  notLost : ∀ m mp sub f l y n, [m] ∈ st.upper.keys → env.decode m = some mp → Spec.lookup st m mp sub = some f → f.lower = some l → y ≠ [] → st.upper.get (m :: y) = some n →
    Spec.Deletes st n (Spec.named st m mp y) → Spec.named st m mp y <+: l →
    ∃ z k, st.upper.get (m :: z) = some k ∧ k.redirect.isSome = true ∧ Spec.named st m mp z = Spec.named st m mp y

section
variable {env : Env} {st : State}

theorem moved_removed_iff (hp : Spec.RedirectStorage env st) {q : Path} {n : Node} (hg : st.upper.get q = some n) : n.isRemoved = true ↔ Spec.isWhiteout n = true := by
  unfold Node.isRemoved Spec.isWhiteout
  cases hk : n.kind with
  | chr r =>
    have h1 := hp.devices q n r hg hk
    have h2 : n.whiteout = false := by
      cases hw : n.whiteout with
      | false => rfl
      | true => have := hp.whiteouts q n hg hw; rw [hk] at this; cases this
    simp only [h2, Bool.or_false, beq_iff_eq, Kind.chr.injEq, Bool.and_eq_true]
    constructor
    · intro h; exact h1 (by omega)
    · rintro rfl; exact ⟨rfl, rfl⟩
  | _ => simp

theorem moved_whiteout_dir (hp : Spec.RedirectStorage env st) : ∀ q n, st.upper.get q = some n → n.whiteout = true → Spec.ftype n.kind ≠ .directory :=
  fun q n hg hx => by rw [hp.whiteouts q n hg hx]; decide

/-- Everything at or above a stored path is stored. -/
theorem stored_above (hp : Spec.RedirectStorage env st) {m : Name} {sub y : Path} {n : Node} (hg : st.upper.get (m :: sub) = some n) (hy : y <+: sub) :
    ∃ k, st.upper.get (m :: y) = some k := by
  by_cases he : y = sub
  · subst he; exact ⟨n, hg⟩
  · obtain ⟨z, hz, hz'⟩ := below_iff.2 ⟨hy, he⟩
    obtain ⟨k, hk, _⟩ := FS.isDirAt_iff.1 (hp.wf.ancestor (q := m :: y) hg ⟨z, hz, by rw [hz']; simp⟩)
    exact ⟨k, hk⟩

theorem moved_root (hp : Spec.RedirectStorage env st) {m : Name} {sub : Path} {n : Node} (hg : st.upper.get (m :: sub) = some n) : [m] ∈ st.upper.keys := by
  obtain ⟨k, hk⟩ := stored_above hp hg (y := []) (List.nil_prefix)
  exact FS.mem_keys.2 ⟨k, hk⟩

/-- The program's origin of a stored path is the host path it is named after. -/
theorem moved_source (hp : Spec.RedirectStorage env st) {m : Name} {mp sub : Path} {n : Node} (hd : env.decode m = some mp) (hg : st.upper.get (m :: sub) = some n) :
    sourcePath st m mp sub = ifExists st.lower (Spec.named st m mp sub) := by
  unfold sourcePath
  rw [sourceLoop_named]
  · rw [List.append_nil]; rfl
  · intro y _ hy
    exact stored_above hp hg (by simpa using hy)
  · intro q n rd _ hq h1 h2 h3 y k hy hb hk
    exact (hp.relative m mp q n rd hd h1 h2 h3 y k hy hb hk).1
  · intro q n rd _ hq h1 h2 h3
    exact hp.absolute m mp q n rd hd h1 h2 h3

/-- Host names of stored paths are below the mount point. -/
theorem named_below (hp : Spec.RedirectStorage env st) {m : Name} {mp : Path} (hd : env.decode m = some mp) : ∀ r : List Name, mp <+: Spec.namedRev st m mp r ∧ (r ≠ [] → Below mp (Spec.namedRev st m mp r)) := by
  intro r
  induction r with
  | nil => exact ⟨List.prefix_refl _, fun h => absurd rfl h⟩
  | cons x r ih =>
    have key : Below mp (Spec.namedRev st m mp (x :: r)) := by
      rw [Spec.namedRev]
      cases hr : (st.upper.get (m :: (x :: r).reverse)).bind (·.redirect) with
      | none => exact below_of_prefix_below ih.1 ⟨[x], by simp, rfl⟩
      | some rd =>
        cases hg : st.upper.get (m :: (x :: r).reverse) with
        | none => rw [hg] at hr; cases hr
        | some n =>
          rw [hg, Option.bind_some] at hr
          have hc := (hp.redirects m mp _ n rd hd hg hr).2.2.2.1
          simp only
          split
          · exact ⟨_, hc, rfl⟩
          · exact below_of_prefix_below ih.1 ⟨_, hc, rfl⟩
    exact ⟨key.prefix, fun _ => key⟩

/-- The last redirect at or above a path: below it, names and lookup are those of its origin. -/
structure Based (st : State) (m : Name) (mp b r : Path) : Prop where
  base : b = [] ∨ ∃ n rd, st.upper.get (m :: b) = some n ∧ n.redirect = some rd
  last : ∀ q n, Below b q → q <+: b ++ r → st.upper.get (m :: q) = some n → n.redirect = none

theorem exists_based (st : State) (m : Name) (mp sub : Path) : ∃ b r, sub = b ++ r ∧ Based st m mp b r := by
  obtain ⟨r, b, h1, h2, h3⟩ := redirect_base st m sub.reverse
  refine ⟨b.reverse, r.reverse, ?_, ?_, ?_⟩
  · rw [← List.reverse_append, ← h1, List.reverse_reverse]
  · rcases h2 with rfl | h2
    · exact Or.inl rfl
    · exact Or.inr h2
  · intro q n h4 h5
    refine h3 q n h4 ?_
    rw [h1, List.reverse_append]
    exact h5

theorem Based.prefix {m : Name} {mp b r r' : Path} (h : Based st m mp b r) (hr : r' <+: r) : Based st m mp b r' :=
  ⟨h.base, fun q n h1 h2 => h.last q n h1 (h2.trans ((List.prefix_append_right_inj b).2 hr))⟩

theorem Based.named {m : Name} {mp b r : Path} (h : Based st m mp b r) : Spec.named st m mp (b ++ r) = Spec.named st m mp b ++ r := by
  unfold Spec.named
  rw [List.reverse_append, namedRev_append]
  · simp
  · intro q n h1 h2
    exact h.last q n (by simpa using h1) (by simpa using h2)

theorem Based.merged {m : Name} {mp b r : Path} (h : Based st m mp b r) (hw : st.lower.WF) (hp : Spec.RedirectStorage env st) (hm : [m] ∈ st.upper.keys) (hd : env.decode m = some mp) :
    ∃ u, Spec.ftype u.kind = .directory ∧ st.upper.get (m :: b) = some u ∧ Spec.lookupRev st m mp b.reverse = some ⟨some u, Spec.presentDir st.lower (Spec.named st m mp b)⟩ := by
  obtain ⟨⟨h1, h2, h3⟩, ⟨h4, h5, h6⟩⟩ := hp.mounts m mp hm hd
  have hmp := FS.isDirAt_iff.2 ⟨h1, h2, isDir_of_ftype h3⟩
  rcases h.base with rfl | ⟨n, rd, hn, hr⟩
  · exact ⟨h4, h6, h5, by simp [Spec.lookupRev, Spec.named, Spec.namedRev, h5, Spec.presentDir, h2, h3]⟩
  · obtain ⟨g1, g2, g3, g4, _⟩ := hp.redirects m mp b n rd hd hn hr
    refine ⟨n, g2, hn, ?_⟩
    obtain ⟨x, q, rfl⟩ : ∃ x q, b = q ++ [x] := ⟨b.getLast g1, b.dropLast, (List.dropLast_append_getLast g1).symm⟩
    obtain ⟨u, hu1, hu2⟩ := FS.isDirAt_iff.1 (hp.wf.ancestor (q := m :: q) hn ⟨[x], by simp, by simp⟩)
    have hdu : Spec.ftype u.kind = .directory := by
      unfold Node.isDir at hu2; simp at hu2; rw [hu2]; rfl
    have hrev : (q ++ [x]).reverse = x :: q.reverse := by simp
    have hnw : Spec.isWhiteout n = false := by
      unfold Spec.isWhiteout
      cases hb : n.whiteout with
      | true => exact absurd g2 (moved_whiteout_dir hp _ n hn hb)
      | false => cases hk : n.kind <;> simp_all [Spec.ftype]
    have hn' : st.upper.get (m :: (x :: q.reverse).reverse) = some n := by simpa using hn
    unfold Spec.named
    rw [hrev, Spec.namedRev, hn']
    simp only [Option.bind_some, hr]
    by_cases ha : rd.head? = some '/'
    · obtain ⟨L, hL⟩ := lookup_stored_dir (mp := mp) hp.wf (moved_whiteout_dir hp) q.reverse u (by simpa using hu1) hdu
      rw [lookup_stored hL hdu hn', hnw, hr]
      simp [g2, g3, Spec.lowerName, ha]
    · have hM : MergedAt st m mp q.reverse (Spec.namedRev st m mp q.reverse) := by
        refine merged_named hw hp.wf hmp q.reverse u (by simpa using hu1) hdu (fun y k hy hyq hk => ?_) (fun y k rd' hy hyq hk hkr => ?_)
        · rw [List.reverse_reverse] at hyq
          have hb : Below y (q ++ [x]) := below_of_prefix_below hyq ⟨[x], by simp, rfl⟩
          refine ⟨(hp.relative m mp _ n rd hd hn hr ha y k hy hb hk).2, ?_⟩
          obtain ⟨k', hk', hkd⟩ := FS.isDirAt_iff.1 (hp.wf.ancestor (q := m :: y) hn (by obtain ⟨z, hz, hz'⟩ := hb; exact ⟨z, hz, by rw [hz']; simp⟩))
          rw [hk] at hk'; cases hk'
          cases hb' : k.whiteout with
          | false => rfl
          | true =>
            refine absurd ?_ (moved_whiteout_dir hp _ k hk hb')
            unfold Node.isDir at hkd; simp at hkd; rw [hkd]; rfl
        · exact (hp.redirects m mp y k rd' hd hk hkr).2.2.2.1
      obtain ⟨v, hv, hl⟩ := hM
      rw [lookup_stored hl hv hn', hnw, hr]
      simp only [Bool.false_eq_true, if_false, g2, g3, ne_eq, not_true_eq_false, Spec.lowerName, ha]
      rw [(bind_present hw _ _ g4).2]

/-- Lookup of any path in terms of the last redirect at or above it. -/
theorem Based.lookup {m : Name} {mp b r : Path} (h : Based st m mp b r) (hw : st.lower.WF) (hp : Spec.RedirectStorage env st) (hm : [m] ∈ st.upper.keys) (hd : env.decode m = some mp) :
    (∀ n, st.upper.get (m :: (b ++ r)) = some n →
      (Spec.isWhiteout n = true → Spec.lookup st m mp (b ++ r) = none) ∧
      (Spec.isWhiteout n = false → ∃ L, Spec.lookup st m mp (b ++ r) = some ⟨some n, L⟩ ∧ (HiddenFrom st m b.reverse r.reverse → L = none) ∧
        (¬ HiddenFrom st m b.reverse r.reverse → L = Spec.presentDir st.lower (Spec.named st m mp b ++ r)))) ∧
    (st.upper.get (m :: (b ++ r)) = none →
      (HiddenFrom st m b.reverse r.reverse → Spec.lookup st m mp (b ++ r) = none) ∧
      (¬ HiddenFrom st m b.reverse r.reverse → Spec.lookup st m mp (b ++ r) = (Spec.present st.lower (Spec.named st m mp b ++ r)).map (fun l => ⟨none, some l⟩))) := by
  obtain ⟨u, hu, hg, hl⟩ := h.merged hw hp hm hd
  have := lookup_from hw hp.wf hl hu (by simpa using hg) (moved_whiteout_dir hp) r.reverse (fun q n h1 h2 => h.last q n (by simpa using h1) (by simpa using h2))
  simp only [← List.reverse_append, List.reverse_reverse] at this
  exact this

theorem moved_entry {m : Name} {mp sub : Path} {n : Node} (hg : st.upper.get (m :: sub) = some n) (hd : env.decode m = some mp) (hne : sub ≠ []) :
    ∃ ue ∈ upperEntries { env with includeIgnored := true } st, IsUpper { env with includeIgnored := true } st ue m mp sub ∧ ue.node = n :=
  upperEntries_of_kept (kept_all (FS.mem_keys.2 ⟨n, hg⟩) hd hne) hg

/-- Host names of stored paths are normal. -/
theorem named_normal (hw : st.lower.WF) (hp : Spec.RedirectStorage env st) {m : Name} {mp : Path} (hm : [m] ∈ st.upper.keys) (hd : env.decode m = some mp) :
    ∀ r : List Name, NormalPath r → NormalPath (Spec.namedRev st m mp r) := by
  obtain ⟨⟨_, h2, _⟩, _⟩ := hp.mounts m mp hm hd
  have hmp := hw.normal_of_get h2
  have happ : ∀ {a b : Path}, NormalPath a → NormalPath b → NormalPath (a ++ b) := fun h1 h2 x hx => (List.mem_append.1 hx).elim (h1 x) (h2 x)
  intro r
  induction r with
  | nil => exact fun _ => hmp
  | cons x r ih =>
    intro hr
    have ih := ih (fun y hy => hr y (List.mem_cons_of_mem _ hy))
    rw [Spec.namedRev]
    cases hg : st.upper.get (m :: (x :: r).reverse) with
    | none => exact happ ih (fun y hy => by rw [List.mem_singleton.1 hy]; exact hr x (List.mem_cons_self ..))
    | some n =>
      rw [Option.bind_some]
      cases hrd : n.redirect with
      | none => exact happ ih (fun y hy => by rw [List.mem_singleton.1 hy]; exact hr x (List.mem_cons_self ..))
      | some rd =>
        have hc := (hp.redirects m mp _ n rd hd hg hrd).2.2.2.2
        simp only
        split
        · exact happ hmp hc
        · exact happ ih hc

/-- Every stored redirect whose origin exists is a selected rename. -/
theorem moved_renames (hw : st.lower.WF) (hp : Spec.RedirectStorage env st) (hall : Spec.AllSelected env st) {m : Name} {mp z : Path} {n : Node}
    (hd : env.decode m = some mp) (hg : st.upper.get (m :: z) = some n) (hr : n.redirect.isSome = true) (hex : st.lower.pexists (Spec.named st m mp z) = true) :
    Spec.Renames (selected env st) (Spec.named st m mp z) (mp ++ z) ∧ (m, mp, z) ∈ kept env st := by
  obtain ⟨rd, hrd⟩ := Option.isSome_iff_exists.1 hr
  obtain ⟨g1, g2, g3, g4, g5⟩ := hp.redirects m mp z n rd hd hg hrd
  obtain ⟨ue, hue, hi, hn⟩ := moved_entry hg hd g1
  have hrm : ue.node.isRemoved = false := by
    cases hx : ue.node.isRemoved with
    | false => rfl
    | true =>
      rw [hn, moved_removed_iff hp hg] at hx
      exfalso
      unfold Spec.isWhiteout at hx
      cases hb : n.whiteout with
      | true => exact moved_whiteout_dir hp _ n hg hb g2
      | false => cases hk : n.kind <;> simp_all [Spec.ftype]
  obtain ⟨e, he⟩ := setsOf_singleton (st := st) hrm
  have hmem : e ∈ setsOf st ue := by rw [he]; simp
  have hsel := hall e (mem_changes.2 ⟨ue, hue, Or.inr hmem⟩)
  have hN : NormalPath (Spec.named st m mp z) := named_normal hw hp (moved_root hp hg) hd _
    (fun x hx => hp.wf.normal_of_get hg x (List.mem_cons_of_mem _ (List.mem_reverse.1 hx)))
  obtain ⟨k, hk⟩ := details_of_pexists hw.root (fun h => by have := hN _ (List.mem_of_getLast? h); revert this; decide) hex
  have hsrc : ue.sourceDetails = some ⟨Spec.named st m mp z, k⟩ := by
    rw [hi.details, hi.source, moved_source hp hd hg]
    simp [ifExists, hex, details, hk]
  obtain ⟨_, h2, h3, h4, _, hx⟩ := mem_setsOf hmem
  rw [hn] at hx
  rcases hx with ⟨_, hx, _⟩ | ⟨_, hsd, hx⟩ | ⟨h1, _⟩ | ⟨h1, _⟩
  · rw [hsrc] at hx; cases hx
  · refine ⟨⟨e, hsel, hx, by rw [h2, hi.lowerPath], _, by rw [h4, hsrc], rfl⟩, ?_⟩
    obtain ⟨m', mp', sub', n', k1, k2, k3, k4, k5, k6, k7, k8⟩ := rename_stored (mem_selected hsel) hx (h4.trans hsrc)
    rw [h3] at k6
    simp only [Option.some.injEq, Details.mk.injEq, hi.upperPath, List.cons.injEq] at k6
    obtain ⟨⟨rfl, rfl⟩, _⟩ := k6
    rw [hd] at k1; cases k1
    exact k8
  · rw [hrd] at h1; cases h1
  · rw [hrd] at h1; cases h1

/-- A stored redirect whose origin does not exist is an error. -/
theorem moved_missing (hp : Spec.RedirectStorage env st) (hall : Spec.AllSelected env st) {m : Name} {mp z : Path} {n : Node}
    (hd : env.decode m = some mp) (hg : st.upper.get (m :: z) = some n) (hr : n.redirect.isSome = true) (hex : st.lower.pexists (Spec.named st m mp z) = false) :
    ∃ e ∈ selected env st, e.op = .error .redirectPathNotFound ∧ e.dest = mp ++ z := by
  obtain ⟨rd, hrd⟩ := Option.isSome_iff_exists.1 hr
  obtain ⟨g1, g2, _⟩ := hp.redirects m mp z n rd hd hg hrd
  obtain ⟨ue, hue, hi, hn⟩ := moved_entry hg hd g1
  have hrm : ue.node.isRemoved = false := by
    cases hx : ue.node.isRemoved with
    | false => rfl
    | true =>
      rw [hn, moved_removed_iff hp hg] at hx
      exfalso
      unfold Spec.isWhiteout at hx
      cases hb : n.whiteout with
      | true => exact moved_whiteout_dir hp _ n hg hb g2
      | false => cases hk : n.kind <;> simp_all [Spec.ftype]
  obtain ⟨e, he⟩ := setsOf_singleton (st := st) hrm
  have hmem : e ∈ setsOf st ue := by rw [he]; simp
  have hsel := hall e (mem_changes.2 ⟨ue, hue, Or.inr hmem⟩)
  obtain ⟨_, h2, h3, h4, _, hx⟩ := mem_setsOf hmem
  rw [hn] at hx
  rcases hx with ⟨_, _, hx⟩ | ⟨_, hsd, hx⟩ | ⟨h1, _⟩ | ⟨h1, _⟩
  · exact ⟨e, hsel, hx, h2.trans hi.lowerPath⟩
  · rw [hi.details, hi.source, moved_source hp hd hg] at hsd
    simp [ifExists, hex] at hsd
  · rw [hrd] at h1; cases h1
  · rw [hrd] at h1; cases h1

theorem moved_exists (hp : Spec.RedirectStorage env st) (hall : Spec.AllSelected env st) (hok : (accept env st).error = none) {m : Name} {mp z : Path} {n : Node}
    (hd : env.decode m = some mp) (hg : st.upper.get (m :: z) = some n) (hr : n.redirect.isSome = true) : st.lower.pexists (Spec.named st m mp z) = true := by
  cases hex : st.lower.pexists (Spec.named st m mp z) with
  | true => rfl
  | false =>
    obtain ⟨e, h1, h2, _⟩ := moved_missing hp hall hd hg hr hex
    exact absurd h2 (no_error_selected hok h1 _)

/-- Every selected rename is a stored redirect. -/
theorem renames_moved (hp : Spec.RedirectStorage env st) {s d : Path} (h : Spec.Renames (selected env st) s d) :
    ∃ m mp z n, env.decode m = some mp ∧ z ≠ [] ∧ st.upper.get (m :: z) = some n ∧ n.redirect.isSome = true ∧ d = mp ++ z ∧ s = Spec.named st m mp z := by
  obtain ⟨e, he, hop, rfl, x, hx, rfl⟩ := h
  obtain ⟨m, mp, z, n, k1, k2, k3, k4, k5, k6, k7, k8⟩ := rename_stored (mem_selected he) hop hx
  refine ⟨m, mp, z, n, k1, k2, k3, k4, k5, ?_⟩
  rw [moved_source hp k1 k3] at k7
  unfold ifExists at k7
  split at k7
  · exact (Option.some.inj k7).symm
  · cases k7

/-- What a removal comes from: a stored node that deletes or replaces a host path that was not moved. -/
theorem removes_moved (hp : Spec.RedirectStorage env st) (hall : Spec.AllSelected env st) {q : Path} (h : Spec.Removes (selected env st) q)
    (hl : ∀ e ∈ selected env st, ∀ y, Below y e.dest → ∀ n, st.lower.get y = some n → Spec.ftype n.kind ≠ .symlink) (hw : st.lower.WF) (hNd : ∀ e ∈ selected env st, NormalPath e.dest) :
    ∃ m mp y n, env.decode m = some mp ∧ y ≠ [] ∧ st.upper.get (m :: y) = some n ∧ Spec.Deletes st n (Spec.named st m mp y) ∧ Spec.named st m mp y <+: q ∧
      ∀ z k, st.upper.get (m :: z) = some k → k.redirect.isSome = true → Spec.named st m mp z ≠ Spec.named st m mp y := by
  obtain ⟨e, he, ho, s, hs, rfl⟩ := h
  obtain ⟨ue, hue, h | h⟩ := mem_changes.1 (mem_selected he)
  · obtain ⟨m, mp, sub, _, hi⟩ := mem_upperEntries hue
    obtain ⟨sp, hsp, hnr, hc, _, hd, _⟩ := mem_removesOf h
    have hsrc := hsp
    rw [hi.source, moved_source hp hi.decode hi.node] at hsrc
    have hspe : sp = Spec.named st m mp sub ∧ st.lower.pexists sp = true := by
      unfold ifExists at hsrc
      split at hsrc
      · next hx => cases hsrc; exact ⟨rfl, hx⟩
      · cases hsrc
    obtain ⟨rfl, hex⟩ := hspe
    have hpre : Spec.named st m mp sub <+: s.path := by
      rcases hd with ⟨_, hw, hsrc, _⟩ | ⟨_, hde, hsrc, _⟩
      · rw [hsrc] at hs
        rw [(details_path hs).1]
        exact mem_walkDir_prefix hw
      · rw [hsrc, hi.details, hsp, Option.bind_some] at hs
        rw [(details_path hs).1]
    have hdp : e.dest = s.path := by
      rcases hd with ⟨_, hw, hsrc, _⟩ | ⟨_, hde, hsrc, _⟩
      · rw [hsrc] at hs; exact (details_path hs).1.symm
      · rw [hsrc, hi.details, hsp, Option.bind_some] at hs
        rw [hde, (details_path hs).1]
    refine ⟨m, mp, sub, ue.node, hi.decode, hi.sub_ne, hi.node, ?_, hpre, fun z k hk hkr heq => hnr ?_⟩
    · rcases hc with hc | hc | ⟨hc, hpd⟩
      · exact Or.inr (Or.inl hc)
      · exact Or.inl ((moved_removed_iff hp hi.node).1 hc)
      · refine Or.inr (Or.inr ⟨fun hx => ?_, ?_⟩)
        · rw [isDir_of_ftype hx] at hc; cases hc
        · have hNn : NormalPath (Spec.named st m mp sub) := by
            have := hNd e he
            rw [hdp] at this
            intro x hx
            obtain ⟨t, ht⟩ := hpre
            exact this x (by rw [← ht]; exact List.mem_append_left _ hx)
          have hla : ∀ y, Below y (Spec.named st m mp sub) → ∀ n, st.lower.get y = some n → Spec.ftype n.kind ≠ .symlink :=
            fun y hy => hl e he y (by rw [hdp]; exact below_of_below_prefix hy hpre)
          have hst := hex
          unfold FS.pexists FS.stat at hst
          cases hrp : st.lower.realpath (Spec.named st m mp sub) with
          | error e => rw [hrp] at hst; cases hst
          | ok c =>
            obtain ⟨_, k, hk⟩ := FS.realpath_ok_get hw.root hNn (noLinkAbove_of_ftype hla) hrp
            refine ⟨k, hk, ?_⟩
            by_cases hlk : Spec.ftype k.kind = .symlink
            · exact Or.inr hlk
            · left
              have hlk' := isLnk_of_ftype hlk
              unfold FS.pisDir at hpd
              rw [FS.stat_chain hNn hw.root (hw.chain hk) (fun x hx => by rw [hk] at hx; cases hx; exact hlk'), hk] at hpd
              simp only [Node.isDir, beq_iff_eq] at hpd
              rw [hpd]; rfl
    · obtain ⟨_, h5⟩ := moved_renames hw hp hall hi.decode hk hkr (by rw [heq]; exact hex)
      obtain ⟨ue2, hue2, hi2, hn2⟩ := upperEntries_of_kept h5 hk
      unfold renamedPaths
      refine List.mem_filterMap.2 ⟨ue2, hue2, ?_⟩
      rw [hn2, hkr, hi2.source, moved_source hp hi.decode hk]
      simp [ifExists, hex, heq]
  · obtain ⟨_, _, _, _, _, hx⟩ := mem_setsOf h
    rcases hx with ⟨_, _, hx⟩ | ⟨_, _, hx⟩ | ⟨_, _, hx⟩ | ⟨_, _, hx⟩ <;> rw [ho] at hx <;> cases hx

/-- Everything on the host at or below the host name of a hiding node is removed, or that host name is moved. -/
theorem hiding_removes_moved (hw : st.lower.WF) (hp : Spec.RedirectStorage env st) (hall : Spec.AllSelected env st) {m : Name} {mp sub q : Path} {n k : Node}
    (hdec : env.decode m = some mp) (hne : sub ≠ []) (hg : st.upper.get (m :: sub) = some n) (hh : Spec.Hiding n) (hq : st.lower.get q = some k) (hpre : Spec.named st m mp sub <+: q)
    (hself : q = Spec.named st m mp sub → Spec.isWhiteout n = true) :
    Spec.Removes (selected env st) q ∨ ∃ d, Spec.Renames (selected env st) (Spec.named st m mp sub) d := by
  have hlstat : details st.lower q = some ⟨q, k⟩ := by
    unfold details
    rw [FS.lstat_chain (hw.normal_of_get hq) (hw.chain hq), hq]
  obtain ⟨ue, hue, hi, hn⟩ := moved_entry hg hdec hne
  generalize hP : Spec.named st m mp sub = P at hpre hself ⊢
  by_cases hren : P ∈ renamedPaths (upperEntries { env with includeIgnored := true } st)
  · right
    unfold renamedPaths at hren
    obtain ⟨ue2, hue2, hx⟩ := List.mem_filterMap.1 hren
    obtain ⟨m2, mp2, sub2, _, hi2⟩ := mem_upperEntries hue2
    split at hx
    · next hr =>
      rw [hi2.source, moved_source hp hi2.decode hi2.node] at hx
      have : Spec.named st m2 mp2 sub2 = P ∧ st.lower.pexists (Spec.named st m2 mp2 sub2) = true := by
        unfold ifExists at hx
        split at hx
        · next hex => exact ⟨Option.some.inj hx, hex⟩
        · cases hx
      exact ⟨_, this.1 ▸ (moved_renames hw hp hall hi2.decode hi2.node hr this.2).1⟩
    · cases hx
  left
  have key : ∃ e ∈ removesOf st (renamedPaths (upperEntries { env with includeIgnored := true } st)) ue, e.op = .remove ∧ e.source = some ⟨q, k⟩ := by
    by_cases hself' : q = P
    · have hwn := hself hself'
      have hex : st.lower.pexists P = true := by
        by_cases hl : Spec.ftype k.kind = .symlink
        · rw [← hP]; exact hp.links m mp sub n k hdec hg hwn (by rw [hP, ← hself']; exact hq) hl
        · have hl' := isLnk_of_ftype hl
          unfold FS.pexists
          rw [← hself', FS.stat_chain (hw.normal_of_get hq) hw.root (hw.chain hq) (fun x hx => by rw [hq] at hx; cases hx; exact hl'), hq]
      have hsp : ue.sourcePath = some P := by
        rw [hi.source, moved_source hp hdec hg, hP]
        simp [ifExists, hex]
      have hrm : ue.node.isRemoved = true := by rw [hn]; exact (moved_removed_iff hp hg).2 hwn
      unfold removesOf
      rw [hsp]
      simp only [hrm, Bool.or_true, Bool.true_or, if_true]
      rw [if_neg hren]
      by_cases hd : st.lower.pisDir P = true
      · rw [if_pos hd]
        refine ⟨_, List.mem_map.2 ⟨P, ?_, rfl⟩, rfl, by rw [← hself']; exact hlstat⟩
        have hst := hex
        unfold FS.pexists FS.stat at hst
        unfold FS.walkDir
        cases hrp : st.lower.realpath P with
        | error e => rw [hrp] at hst; cases hst
        | ok c =>
          rw [hrp] at hst
          simp only at hst ⊢
          cases hgc : st.lower.get c with
          | none => rw [hgc] at hst; cases hst
          | some x =>
            refine List.mem_filterMap.2 ⟨(c, x), FS.mem_of_get hgc, ?_⟩
            simp
      · rw [if_neg hd]
        refine ⟨_, List.mem_singleton.2 rfl, rfl, ?_⟩
        simp only
        rw [hi.details, hsp, Option.bind_some, ← hself', hlstat]
    · have hb : Below P q := below_iff.2 ⟨hpre, fun h => hself' h.symm⟩
      obtain ⟨d, hd1, hd2⟩ := FS.isDirAt_iff.1 (hw.ancestor hq hb)
      have hnl : d.isLnk = false := by
        unfold Node.isDir at hd2; unfold Node.isLnk
        cases hk : d.kind <;> simp_all [Kind.isLnk]
      have hN := hw.normal_of_get hd1
      have hst : st.lower.stat P = .ok d := by
        rw [FS.stat_chain hN hw.root (hw.chain hd1) (fun x hx => by rw [hd1] at hx; cases hx; exact hnl), hd1]
      have hex : st.lower.pexists P = true := by unfold FS.pexists; rw [hst]
      have hpd : st.lower.pisDir P = true := by unfold FS.pisDir; rw [hst]; exact hd2
      have hsp : ue.sourcePath = some P := by
        rw [hi.source, moved_source hp hdec hg, hP]
        simp [ifExists, hex]
      have hcond : (ue.node.opq || ue.node.isRemoved || (!ue.node.isDir && st.lower.pisDir P)) = true := by
        rw [hn, hpd]
        rcases hh with h | h | h
        · rw [(moved_removed_iff hp hg).2 h]; simp
        · rw [h]; rfl
        · have : n.isDir = false := by
            cases hx : n.isDir with
            | false => rfl
            | true => unfold Node.isDir at hx; simp at hx; rw [hx] at h; exact absurd rfl h
          rw [this]; simp
      unfold removesOf
      rw [hsp]
      simp only
      rw [if_pos hcond, if_neg hren, if_pos hpd]
      refine ⟨_, List.mem_map.2 ⟨q, ?_, rfl⟩, rfl, hlstat⟩
      unfold FS.walkDir
      rw [FS.realpath_chain hN hw.root (hw.chain hd1) (fun x hx => by rw [hd1] at hx; cases hx; exact hnl), hd1]
      simp only
      refine List.mem_filterMap.2 ⟨(q, k), FS.mem_of_get hq, ?_⟩
      obtain ⟨r, rfl⟩ := hpre
      simp
  obtain ⟨e, he, ho, hs⟩ := key
  exact ⟨e, hall e (mem_changes.2 ⟨ue, hue, Or.inl he⟩), ho, ⟨q, k⟩, hs, rfl⟩

/-- A stored path that is neither a whiteout nor a renamed directory has been created or modified on the host. -/
theorem stored_set_moved (ho : Spec.Ordinary env st) (hp : Spec.MovedStorage env st) (hall : Spec.AllSelected env st) (hok : (accept env st).error = none) {m : Name} {mp sub : Path} {n : Node}
    (hdec : env.decode m = some mp) (hne : sub ≠ []) (hg : st.upper.get (m :: sub) = some n) (hw : Spec.isWhiteout n = false) (hr : n.redirect = none) :
    ∃ n', (accept env st).state.lower.get (mp ++ sub) = some n' ∧ Spec.SameNode n' n := by
  obtain ⟨ue, hue, hi, hn⟩ := moved_entry hg hdec hne
  have hrm : ue.node.isRemoved = false := by
    cases hx : ue.node.isRemoved with
    | false => rfl
    | true => rw [hn, moved_removed_iff hp.toRedirectStorage hg, hw] at hx; cases hx
  obtain ⟨e, he⟩ := setsOf_singleton (st := st) hrm
  have hmem : e ∈ setsOf st ue := by rw [he]; simp
  have hsel := hall e (mem_changes.2 ⟨ue, hue, Or.inr hmem⟩)
  obtain ⟨_, h2, h3, _, _, hx⟩ := mem_setsOf hmem
  have hset : Spec.IsSet e := by
    rw [hn, hr] at hx
    rcases hx with ⟨h1, _⟩ | ⟨h1, _⟩ | ⟨_, _, hx⟩ | ⟨_, _, hx⟩
    · cases h1
    · cases h1
    · exact absurd hx (no_error_selected hok hsel _)
    · exact ⟨_, hx⟩
  obtain ⟨n', h4, h5, _⟩ := C09_owner_and_mode_partial env st ho hok e _ hsel hset h3
  rw [h2, hi.lowerPath] at h4
  exact ⟨n', h4, by rw [← hn]; exact h5⟩

/-- A creation is not at the place of a renamed directory. -/
theorem set_not_redirect {e : Entry} (he : e ∈ selected env st) (hs : Spec.IsSet e) :
    ∃ m mp sub n, env.decode m = some mp ∧ sub ≠ [] ∧ st.upper.get (m :: sub) = some n ∧ n.isRemoved = false ∧ n.redirect = none ∧ e.dest = mp ++ sub := by
  obtain ⟨t, ht⟩ := hs
  obtain ⟨ue, hue, h | h⟩ := mem_changes.1 (mem_selected he)
  · obtain ⟨_, _, _, _, h, _⟩ := mem_removesOf h
    rw [ht] at h; cases h
  · obtain ⟨m, mp, sub, _, hi⟩ := mem_upperEntries hue
    obtain ⟨h1, h2, h3, _, _, hx⟩ := mem_setsOf h
    refine ⟨m, mp, sub, ue.node, hi.decode, hi.sub_ne, hi.node, h1, ?_, h2.trans hi.lowerPath⟩
    rcases hx with ⟨_, _, hx⟩ | ⟨_, _, hx⟩ | ⟨hr, _⟩ | ⟨hr, _⟩
    · rw [ht] at hx; cases hx
    · rw [ht] at hx; cases hx
    · exact hr
    · exact hr

/-- Two mounts: the places and host names of another mount's stored paths are not at a path seen through this one, and not above it if they hide or move something. -/
theorem seen_other_moved (hp : Spec.RedirectStorage env st) {m m' : Name} {mp mp' q sub' p : Path} {n : Node} (hs : Spec.Seen env st m mp q) (hmm : m' ≠ m) (hdec : env.decode m' = some mp')
    (hne : sub' ≠ []) (hg : st.upper.get (m' :: sub') = some n) (hpp : p = mp' ++ sub' ∨ p = Spec.named st m' mp' sub') (hpre : p <+: q) :
    p ≠ q ∧ ¬ (Spec.Hiding n ∨ n.redirect.isSome = true) := by
  have hroot := moved_root hp hg
  have hmp' : mp' <+: p := by
    rcases hpp with rfl | rfl
    · exact List.prefix_append _ _
    · exact (named_below hp hdec _).1
  rcases prefix_total (hmp'.trans hpre) hs.below.prefix with h | h
  · obtain ⟨h1, h2⟩ := hp.nested m mp m' mp' sub' n hs.stored hs.decode hmm hdec h hne hg p hpp
    refine ⟨fun he => h1 (by rw [he]; exact hs.below.prefix), fun hh => ?_⟩
    rcases prefix_total hpre hs.below.prefix with h3 | h3
    · exact h2 hh h3
    · exact h1 h3
  · exact absurd (hmp'.trans hpre) (hs.deepest m' mp' hroot hdec hmm h)

/-- The host path behind a path of a renamed directory is seen through the same mount. -/
theorem seen_lower (hp : Spec.RedirectStorage env st) {m : Name} {mp b r : Path} {n : Node} (hs : Spec.Seen env st m mp (mp ++ (b ++ r))) (hg : st.upper.get (m :: b) = some n)
    (hr : n.redirect.isSome = true) : Spec.Seen env st m mp (Spec.named st m mp b ++ r) := by
  obtain ⟨rd, hrd⟩ := Option.isSome_iff_exists.1 hr
  have hne := (hp.redirects m mp b n rd hs.decode hg hrd).1
  refine ⟨hs.stored, hs.decode, below_of_below_prefix ((named_below hp hs.decode b.reverse).2 (by simpa using hne)) (List.prefix_append _ _), fun m' mp' h1 h2 h3 h4 h5 => ?_⟩
  obtain ⟨k1, k2⟩ := hp.nested m' mp' m mp b n h1 h2 (Ne.symm h3) hs.decode h4 hne hg _ (Or.inr rfl)
  rcases prefix_total h5 (List.prefix_append (Spec.named st m mp b) r) with h | h
  · exact k1 h
  · exact k2 (Or.inr hr) h

theorem applied_accept (ho : Spec.Ordinary env st) (hok : (accept env st).error = none) : Spec.Applied (selected env st) st.lower (accept env st).state.lower := by
  by_cases hne : selected env st = []
  · have hne' : matching env.glob env.cwd env.patterns (changes env st) = [] := hne
    have h1 : (accept env st).state = st := by simp [accept, hne']
    rw [h1, hne]
    refine ⟨(fun e he => by cases he), fun s d r h => ?_, fun s d r h => ?_, fun _ _ _ _ => rfl, fun q _ _ h => ?_⟩
    · obtain ⟨e, he, _⟩ := h; cases he
    · obtain ⟨e, he, _⟩ := h; cases he
    · rcases h with ⟨e, he, _⟩ | ⟨_, _, ⟨e, he, _⟩, _⟩ <;> cases he
  · obtain ⟨_, st1, h1, h2, _⟩ := accept_ok hok hne
    rw [h2]
    exact (applied_of_run ho.ready ho.distinct h1).1

/-- The host after accept at a path that is not created or modified, in terms of the last redirect at or above it. -/
theorem moved_effect (ho : Spec.Ordinary env st) (hp : Spec.MovedStorage env st) (hall : Spec.AllSelected env st) (hok : (accept env st).error = none) {m : Name} {mp b r : Path}
    (hB : Based st m mp b r) (hs : Spec.Seen env st m mp (mp ++ (b ++ r))) (hns : ∀ e ∈ selected env st, Spec.IsSet e → e.dest ≠ mp ++ (b ++ r)) :
    ((Spec.Removes (selected env st) (Spec.named st m mp b ++ r) ∨ ∃ s d, Spec.Renames (selected env st) s d ∧ s <+: Spec.named st m mp b ++ r ∧ (b ≠ [] → Below (Spec.named st m mp b) s)) →
      (accept env st).state.lower.get (mp ++ (b ++ r)) = none) ∧
    (¬ Spec.Removes (selected env st) (Spec.named st m mp b ++ r) → (∀ s d, Spec.Renames (selected env st) s d → (b ≠ [] → Below (Spec.named st m mp b) s) → ¬ s <+: Spec.named st m mp b ++ r) →
      (accept env st).state.lower.get (mp ++ (b ++ r)) = st.lower.get (Spec.named st m mp b ++ r)) := by
  have hA := applied_accept ho hok
  -- a rename to a place at or above the path is the one at the base
  have hdest : ∀ s d, Spec.Renames (selected env st) s d → d <+: mp ++ (b ++ r) → ∃ z n, st.upper.get (m :: z) = some n ∧ n.redirect.isSome = true ∧ z <+: b ∧ z ≠ [] ∧ d = mp ++ z := by
    intro s d hr hd
    obtain ⟨m', mp', z, n, h1, h2, h3, h4, rfl, rfl⟩ := renames_moved hp.toRedirectStorage hr
    by_cases hmm : m' = m
    · subst hmm
      rw [hs.decode] at h1; cases h1
      have hz : z <+: b ++ r := (List.prefix_append_right_inj mp).1 hd
      refine ⟨z, n, h3, h4, ?_, h2, rfl⟩
      rcases prefix_total hz (List.prefix_append b r) with h | h
      · exact h
      · by_cases he : z = b
        · rw [he]
        · have := hB.last z n (below_iff.2 ⟨h, fun h => he h.symm⟩) hz h3
          rw [this] at h4; cases h4
    · exact absurd (Or.inr h4) (seen_other_moved hp.toRedirectStorage hs hmm h1 h2 h3 (Or.inl rfl) hd).2
  by_cases hb : b = []
  · subst hb
    have hn : Spec.named st m mp [] = mp := rfl
    have hnod : ∀ s d, Spec.Renames (selected env st) s d → ¬ d <+: mp ++ r := by
      intro s d hr hd
      obtain ⟨z, n, _, _, h1, h2, _⟩ := hdest s d hr hd
      exact h2 (List.prefix_nil.1 h1)
    rw [hn]
    simp only [List.nil_append] at hns hnod ⊢
    refine ⟨fun h => ?_, fun h1 h2 => ?_⟩
    · refine hA.gone _ hns hnod ?_
      rcases h with h | ⟨s, d, h1, h2, _⟩
      · exact Or.inl h
      · exact Or.inr ⟨s, d, h1, h2⟩
    · exact hA.kept _ hns (fun s d hr => ⟨hnod s d hr, h2 s d hr (fun h => absurd rfl h)⟩) h1
  · rcases hB.base with h | ⟨n, rd, hg, hrd⟩
    · exact absurd h hb
    have hR := (moved_renames ho.wf hp.toRedirectStorage hall hs.decode hg (by rw [hrd]; rfl) (moved_exists hp.toRedirectStorage hall hok hs.decode hg (by rw [hrd]; rfl))).1
    have hnod : ∀ s' d', Spec.Renames (selected env st) s' d' → Below (mp ++ b) d' → ¬ d' <+: (mp ++ b) ++ r := by
      intro s' d' hr hbel hd
      obtain ⟨z, _, _, _, h1, _, rfl⟩ := hdest s' d' hr (by rw [← List.append_assoc]; exact hd)
      exact hbel.not_prefix ((List.prefix_append_right_inj mp).2 h1)
    rw [← List.append_assoc] at hns ⊢
    refine ⟨fun h => ?_, fun h1 h2 => ?_⟩
    · refine hA.taken _ _ r hR hns hnod ?_
      rcases h with h | ⟨s, d, h1, h2, h3⟩
      · exact Or.inl h
      · exact Or.inr ⟨s, d, h1, h3 hb, h2⟩
    · exact hA.renamed _ _ r hR hns hnod h1 (fun s' d' hr hbel => h2 s' d' hr (fun _ => hbel))

end

/-- **C01 (partial), with renamed directories**: if every change is selected and accept succeeds, every host path seen through a mount of the sandbox is afterwards as the sandbox
saw it before (same type, content, owner, group and mode; missing if it was missing), and host paths outside the mounts are unchanged.
Missing: renamed directories whose owner or mode was changed (`C01_refuted_rename_mode`), directories moved out of one that was deleted or replaced
(`C01_refuted_moved_out`, `C13_refuted_recreated`), mount points themselves (`C01_refuted_mount_root`), deleted dangling links (`C01_refuted_dangling`), redirects the program
misreads (C15), and hosts with symbolic links in the way (`C03_refuted_symlink`). -/
theorem C01_moved_partial (env : Env) (st : State) (ho : Spec.Ordinary env st) (hp : Spec.MovedStorage env st) (hall : Spec.AllSelected env st)
    (hok : (accept env st).error = none) :
    (∀ m mp sub, Spec.Seen env st m mp (mp ++ sub) →
      (Spec.view st m mp sub = none → (accept env st).state.lower.get (mp ++ sub) = none) ∧
      (∀ n, Spec.view st m mp sub = some n → ∃ n', (accept env st).state.lower.get (mp ++ sub) = some n' ∧ Spec.SameNode n' n)) ∧
    (∀ q, (∀ m mp, [m] ∈ st.upper.keys → env.decode m = some mp → ¬ Below mp q) → (accept env st).state.lower.get q = st.lower.get q) := by
  have hw := ho.wf
  have hlinks : ∀ e ∈ selected env st, ∀ y, Below y e.dest → ∀ n, st.lower.get y = some n → Spec.ftype n.kind ≠ .symlink := fun e he => (ho.plain.dest e he).2.2
  have hnorm : ∀ e ∈ selected env st, NormalPath e.dest := fun e he => (ho.plain.dest e he).1
  refine ⟨fun m mp sub hs => ?_, fun q hq => ?_⟩
  · have hsame : ∀ {n : Node}, Spec.SameNode n n := ⟨rfl, rfl, rfl, Or.inr rfl⟩
    have hne : sub ≠ [] := by
      rintro rfl
      have := hs.below
      rw [List.append_nil] at this
      exact not_below_self _ this
    obtain ⟨b, r, rfl, hB⟩ := exists_based st m mp sub
    obtain ⟨l1, l2⟩ := hB.lookup hw hp.toRedirectStorage hs.stored hs.decode
    -- the host path behind it is seen through this mount, too
    have hsl : Spec.Seen env st m mp (Spec.named st m mp b ++ r) := by
      rcases hB.base with rfl | ⟨n, rd, hg, hrd⟩
      · exact hs
      · exact seen_lower hp.toRedirectStorage hs hg (by rw [hrd]; rfl)
    -- what is hidden by a stored path between base and path is removed or moved
    have hgone : (∀ e ∈ selected env st, Spec.IsSet e → e.dest ≠ mp ++ (b ++ r)) →
        (∃ y n, Below b y ∧ y <+: b ++ r ∧ st.upper.get (m :: y) = some n ∧ Spec.Hiding n ∧ (y = b ++ r → Spec.isWhiteout n = true)) →
        (accept env st).state.lower.get (mp ++ (b ++ r)) = none := by
      rintro hns ⟨y, n, hy1, hy2, hy3, hy4, hy5⟩
      obtain ⟨e1, e2⟩ := moved_effect ho hp hall hok hB hs hns
      by_cases ht : Spec.Removes (selected env st) (Spec.named st m mp b ++ r) ∨
          ∃ s d, Spec.Renames (selected env st) s d ∧ s <+: Spec.named st m mp b ++ r ∧ (b ≠ [] → Below (Spec.named st m mp b) s)
      · exact e1 ht
      · rw [not_or, not_exists] at ht
        have ht2 : ∀ s d, Spec.Renames (selected env st) s d → (b ≠ [] → Below (Spec.named st m mp b) s) → ¬ s <+: Spec.named st m mp b ++ r :=
          fun s d h1 h2 h3 => ht.2 s ⟨d, h1, h3, h2⟩
        rw [e2 ht.1 ht2]
        cases hk : st.lower.get (Spec.named st m mp b ++ r) with
        | none => rfl
        | some k =>
          exfalso
          obtain ⟨z, hz, rfl⟩ := hy1
          have hzr : z <+: r := (List.prefix_append_right_inj b).1 hy2
          have hnz : Spec.named st m mp (b ++ z) = Spec.named st m mp b ++ z := (hB.prefix hzr).named
          rcases hiding_removes_moved hw hp.toRedirectStorage hall hs.decode (by simp [hz]) hy3 hy4 hk (by rw [hnz]; exact (List.prefix_append_right_inj _).2 hzr)
            (fun he => hy5 (by rw [hnz] at he; rw [← List.append_cancel_left he])) with h | ⟨d, h⟩
          · exact ht.1 h
          · rw [hnz] at h
            exact ht2 _ d h (fun _ => ⟨z, hz, rfl⟩) ((List.prefix_append_right_inj _).2 hzr)
    -- what is visible is neither removed nor moved elsewhere
    have hvis : ∀ f, Spec.lookup st m mp (b ++ r) = some f → f.lower = some (Spec.named st m mp b ++ r) →
        ¬ HiddenFrom st m b.reverse r.reverse →
        ¬ Spec.Removes (selected env st) (Spec.named st m mp b ++ r) ∧
        ∀ s d, Spec.Renames (selected env st) s d → (b ≠ [] → Below (Spec.named st m mp b) s) → ¬ s <+: Spec.named st m mp b ++ r := by
      intro f hf hfl hnh
      refine ⟨fun hr => ?_, fun s d hr hbel hpre => ?_⟩
      · obtain ⟨m', mp', y, n, g1, g2, g3, g4, g5, g6⟩ := removes_moved hp.toRedirectStorage hall hr hlinks hw hnorm
        by_cases hmm : m' = m
        · subst hmm
          rw [hs.decode] at g1; cases g1
          obtain ⟨z, k, k1, k2, k3⟩ := hp.notLost m' mp _ f _ y n hs.stored hs.decode hf hfl g2 g3 g4 g5
          exact g6 z k k1 k2 k3
        · refine (seen_other_moved hp.toRedirectStorage hsl hmm g1 g2 g3 (Or.inr rfl) g5).2 (Or.inl ?_)
          rcases g4 with h | h | ⟨h, _⟩
          · exact Or.inl h
          · exact Or.inr (Or.inl h)
          · exact Or.inr (Or.inr h)
      · obtain ⟨m', mp', z, n, g1, g2, g3, g4, rfl, rfl⟩ := renames_moved hp.toRedirectStorage hr
        by_cases hmm : m' = m
        · subst hmm
          rw [hs.decode] at g1; cases g1
          obtain ⟨rd, hrd⟩ := Option.isSome_iff_exists.1 g4
          -- the moved directory is seen at its new place
          have hBz : Based st m' mp z [] := ⟨Or.inr ⟨n, rd, g3, hrd⟩, fun q k h1 h2 => absurd (by simpa using h2) h1.not_prefix⟩
          obtain ⟨u, hu1, hu2, hu3⟩ := hBz.merged hw hp.toRedirectStorage hs.stored hs.decode
          have hex := moved_exists hp.toRedirectStorage hall hok hs.decode g3 g4
          -- its old place is a prefix of the path behind ours
          have hbp : Spec.named st m' mp b <+: Spec.named st m' mp z := by
            by_cases hb0 : b = []
            · subst hb0; exact (named_below hp.toRedirectStorage hs.decode _).1
            · exact (hbel hb0).prefix
          obtain ⟨t, ht⟩ := hbp
          have htr : t <+: r := by
            rw [← ht] at hpre
            exact (List.prefix_append_right_inj _).1 hpre
          -- which is a directory
          have hdir : st.lower.isDirAt (Spec.named st m' mp z) = true := by
            obtain ⟨m0, mp0, z0, n0, k1, k2, k3, k4, k5, k6⟩ := renames_moved hp.toRedirectStorage hr
            have hget : ∃ k, st.lower.get (Spec.named st m' mp z) = some k := by
              obtain ⟨e, he, hop, _, x, hx, hxp⟩ := hr
              obtain ⟨p1, p2⟩ := ho.plain.source e he x hx
              rw [hxp] at p1 p2
              unfold FS.pexists FS.stat at hex
              cases hrp : st.lower.realpath (Spec.named st m' mp z) with
              | error e => rw [hrp] at hex; cases hex
              | ok c =>
                obtain ⟨_, k, hk⟩ := FS.realpath_ok_get hw.root p1 (noLinkAbove_of_ftype p2) hrp
                exact ⟨k, hk⟩
            obtain ⟨k, hk⟩ := hget
            have hsn := hp.attributes m' mp z n k hs.decode g3 g4 hk
            refine FS.isDirAt_iff.2 ⟨k, hk, ?_⟩
            refine isDir_of_ftype ?_
            rw [hsn.1]
            exact (hp.redirects m' mp z n rd hs.decode g3 hrd).2.1
          have hv1 : Spec.lookup st m' mp z = some ⟨some u, some (Spec.named st m' mp z)⟩ := by
            unfold Spec.lookup
            rw [hu3, presentDir_dir hdir]
          -- and that prefix of our path is seen as the same directory
          have hBt := hB.prefix htr
          obtain ⟨q1, q2⟩ := hBt.lookup hw hp.toRedirectStorage hs.stored hs.decode
          have hnh' : ¬ HiddenFrom st m' b.reverse t.reverse := by
            rintro ⟨y, k, h1, h2, h3, h4⟩
            refine hnh ⟨y, k, h1, h2.trans ?_, h3, h4⟩
            simp only [List.reverse_append, List.reverse_reverse]
            exact (List.prefix_append_right_inj b).2 htr
          have hv2 : ∃ f', Spec.lookup st m' mp (b ++ t) = some f' ∧ f'.lower = some (Spec.named st m' mp z) := by
            cases hgt : st.upper.get (m' :: (b ++ t)) with
            | some k =>
              have hwk : Spec.isWhiteout k = false := by
                cases hwk : Spec.isWhiteout k with
                | false => rfl
                | true =>
                  exfalso
                  by_cases ht0 : t = []
                  · subst ht0
                    rw [List.append_nil] at hgt
                    obtain ⟨v, hv1, hv2, _⟩ := hB.merged hw hp.toRedirectStorage hs.stored hs.decode
                    rw [hgt] at hv2; cases hv2
                    unfold Spec.isWhiteout at hwk
                    cases hb' : k.whiteout with
                    | true => exact moved_whiteout_dir hp.toRedirectStorage _ k hgt hb' hv1
                    | false => cases hk' : k.kind <;> simp_all [Spec.ftype]
                  · exact hnh' ⟨b ++ t, k, ⟨t, ht0, by simp⟩, by simp, hgt, Or.inl hwk⟩
              obtain ⟨L, hL1, _, hL2⟩ := (q1 k hgt).2 hwk
              refine ⟨_, hL1, ?_⟩
              simp only
              rw [hL2 hnh', ht, presentDir_dir hdir]
            | none =>
              refine ⟨⟨none, some (Spec.named st m' mp z)⟩, ?_, rfl⟩
              rw [(q2 hgt).2 hnh', ht]
              obtain ⟨k, hk, _⟩ := FS.isDirAt_iff.1 hdir
              unfold Spec.present
              rw [hk]; rfl
          obtain ⟨f', hf', hfl'⟩ := hv2
          have heq := hp.once m' mp _ _ _ _ _ hs.stored hs.decode hv1 rfl hf' hfl'
          -- so the new place is between base and path
          subst heq
          by_cases ht0 : t = []
          · subst ht0
            by_cases hb0 : b = []
            · subst hb0; exact g2 rfl
            · have := hbel hb0
              rw [List.append_nil] at this
              exact not_below_self _ this
          · have := hB.last (b ++ t) n ⟨t, ht0, rfl⟩ ((List.prefix_append_right_inj b).2 htr) g3
            rw [this] at hrd; cases hrd
        · exact (seen_other_moved hp.toRedirectStorage hsl hmm g1 g2 g3 (Or.inr rfl) hpre).2 (Or.inr g4)
    -- a creation at the path is stored there
    have hnsof : (∀ n, st.upper.get (m :: (b ++ r)) = some n → Spec.isWhiteout n = true ∨ n.redirect.isSome = true) →
        ∀ e ∈ selected env st, Spec.IsSet e → e.dest ≠ mp ++ (b ++ r) := by
      intro h e he hse hd
      obtain ⟨m', mp', sub', n', g1, g2, g3, g4, g5, g6⟩ := set_not_redirect he hse
      rw [g6] at hd
      by_cases hmm : m' = m
      · subst hmm
        rw [hs.decode] at g1; cases g1
        have := List.append_cancel_left hd
        subst this
        rcases h n' g3 with h | h
        · rw [← moved_removed_iff hp.toRedirectStorage g3, g4] at h; cases h
        · rw [g5] at h; cases h
      · exact (seen_other_moved hp.toRedirectStorage hs hmm g1 g2 g3 (Or.inl rfl) (by rw [hd])).1 hd
    cases hg : st.upper.get (m :: (b ++ r)) with
    | some n =>
      obtain ⟨v1, v2⟩ := l1 n hg
      cases hwn : Spec.isWhiteout n with
      | true =>
        have hv : Spec.view st m mp (b ++ r) = none := by unfold Spec.view; rw [v1 hwn]; rfl
        rw [hv]
        refine ⟨fun _ => ?_, (fun k hk => by cases hk)⟩
        refine hgone (hnsof (fun k hk => by rw [hg] at hk; cases hk; exact Or.inl hwn)) ⟨b ++ r, n, ⟨r, ?_, rfl⟩, List.prefix_refl _, hg, Or.inl hwn, fun _ => hwn⟩
        rintro rfl
        rw [List.append_nil] at hg
        obtain ⟨v, hv1, hv2, _⟩ := hB.merged hw hp.toRedirectStorage hs.stored hs.decode
        rw [hg] at hv2; cases hv2
        unfold Spec.isWhiteout at hwn
        cases hb' : n.whiteout with
        | true => exact moved_whiteout_dir hp.toRedirectStorage _ n hg hb' hv1
        | false => cases hk' : n.kind <;> simp_all [Spec.ftype]
      | false =>
        obtain ⟨L, hL, hL1, hL2⟩ := v2 hwn
        have hv : Spec.view st m mp (b ++ r) = some n := by unfold Spec.view; rw [hL]; rfl
        rw [hv]
        refine ⟨(fun h => by cases h), fun k hk => ?_⟩
        cases hk
        cases hrd : n.redirect with
        | none => exact stored_set_moved ho hp hall hok hs.decode hne hg hwn hrd
        | some rd =>
          -- the renamed directory itself
          have hr0 : r = [] := by
            by_cases hr0 : r = []
            · exact hr0
            · have := hB.last (b ++ r) n ⟨r, hr0, rfl⟩ (List.prefix_refl _) hg
              rw [hrd] at this; cases this
          subst hr0
          have hgb := hg
          rw [List.append_nil] at hgb
          have hnh : ¬ HiddenFrom st m b.reverse [].reverse := by
            rintro ⟨y, k, h1, h2, _⟩
            exact h1.not_prefix (by simpa using h2)
          have hex := moved_exists hp.toRedirectStorage hall hok hs.decode hgb (by rw [hrd]; rfl)
          obtain ⟨hR, _⟩ := moved_renames hw hp.toRedirectStorage hall hs.decode hgb (by rw [hrd]; rfl) hex
          have hget : ∃ k, st.lower.get (Spec.named st m mp b) = some k := by
            obtain ⟨e, he, hop, _, x, hx, hxp⟩ := hR
            obtain ⟨p1, p2⟩ := ho.plain.source e he x hx
            rw [hxp] at p1 p2
            unfold FS.pexists FS.stat at hex
            cases hrp : st.lower.realpath (Spec.named st m mp b) with
            | error e => rw [hrp] at hex; cases hex
            | ok c =>
              obtain ⟨_, k, hk⟩ := FS.realpath_ok_get hw.root p1 (noLinkAbove_of_ftype p2) hrp
              exact ⟨k, hk⟩
          obtain ⟨k, hk⟩ := hget
          have hsn := hp.attributes m mp b n k hs.decode hgb (by rw [hrd]; rfl) hk
          have hkd : st.lower.isDirAt (Spec.named st m mp b) = true := by
            refine FS.isDirAt_iff.2 ⟨k, hk, isDir_of_ftype ?_⟩
            rw [hsn.1]
            exact (hp.redirects m mp b n rd hs.decode hgb hrd).2.1
          obtain ⟨h1, h2⟩ := hvis _ hL (by simp only; rw [hL2 hnh, List.append_nil, presentDir_dir hkd]) hnh
          rw [(moved_effect ho hp hall hok hB hs (hnsof (fun k' hk' => by rw [hg] at hk'; cases hk'; exact Or.inr (by rw [hrd]; rfl)))).2 h1 h2, List.append_nil, hk]
          exact ⟨k, rfl, hsn⟩
    | none =>
      obtain ⟨v1, v2⟩ := l2 hg
      have hns := hnsof (fun k hk => by rw [hg] at hk; cases hk)
      by_cases hhid : HiddenFrom st m b.reverse r.reverse
      · have hv : Spec.view st m mp (b ++ r) = none := by unfold Spec.view; rw [v1 hhid]; rfl
        rw [hv]
        refine ⟨fun _ => ?_, (fun k hk => by cases hk)⟩
        obtain ⟨y, n, h1, h2, h3, h4⟩ := hhid
        simp only [List.reverse_append, List.reverse_reverse] at h1 h2
        refine hgone hns ⟨y, n, h1, h2, h3, h4, fun he => ?_⟩
        rw [he, hg] at h3; cases h3
      · obtain ⟨e1, e2⟩ := moved_effect ho hp hall hok hB hs hns
        cases hk : st.lower.get (Spec.named st m mp b ++ r) with
        | none =>
          have hv : Spec.view st m mp (b ++ r) = none := by unfold Spec.view; rw [v2 hhid, present_of.2 hk]; rfl
          rw [hv]
          refine ⟨fun _ => ?_, (fun k hk => by cases hk)⟩
          by_cases ht : Spec.Removes (selected env st) (Spec.named st m mp b ++ r) ∨
              ∃ s d, Spec.Renames (selected env st) s d ∧ s <+: Spec.named st m mp b ++ r ∧ (b ≠ [] → Below (Spec.named st m mp b) s)
          · exact e1 ht
          · rw [not_or, not_exists] at ht
            rw [e2 ht.1 (fun s d h1 h2 h3 => ht.2 s ⟨d, h1, h3, h2⟩), hk]
        | some k =>
          have hpr : Spec.present st.lower (Spec.named st m mp b ++ r) = some (Spec.named st m mp b ++ r) := by unfold Spec.present; rw [hk]; rfl
          have hl : Spec.lookup st m mp (b ++ r) = some ⟨none, some (Spec.named st m mp b ++ r)⟩ := by rw [v2 hhid, hpr]; rfl
          have hv : Spec.view st m mp (b ++ r) = some k := by unfold Spec.view; rw [hl]; exact hk
          rw [hv]
          refine ⟨(fun h => by cases h), fun k' hk' => ?_⟩
          cases hk'
          obtain ⟨h1, h2⟩ := hvis _ hl rfl hhid
          rw [e2 h1 h2, hk]
          exact ⟨k, rfl, hsame⟩
  · have hA := applied_accept ho hok
    refine hA.kept q (fun e he hse hd => ?_) (fun s d hr => ?_) (fun hr => ?_)
    · obtain ⟨m', mp', sub', n', g1, g2, g3, g4, g5, g6⟩ := set_not_redirect he hse
      exact hq m' mp' (moved_root hp.toRedirectStorage g3) g1 ⟨sub', g2, by rw [← hd, g6]⟩
    · obtain ⟨m', mp', z, n, g1, g2, g3, g4, rfl, rfl⟩ := renames_moved hp.toRedirectStorage hr
      refine ⟨fun h => hq m' mp' (moved_root hp.toRedirectStorage g3) g1 (below_of_below_prefix ⟨z, g2, rfl⟩ h), fun h => ?_⟩
      exact hq m' mp' (moved_root hp.toRedirectStorage g3) g1 (below_of_below_prefix ((named_below hp.toRedirectStorage g1 z.reverse).2 (by simpa using g2)) h)
    · obtain ⟨m', mp', y, n, g1, g2, g3, g4, g5, g6⟩ := removes_moved hp.toRedirectStorage hall hr hlinks hw hnorm
      exact hq m' mp' (moved_root hp.toRedirectStorage g3) g1 (below_of_below_prefix ((named_below hp.toRedirectStorage g1 y.reverse).2 (by simpa using g2)) g5)

/-! ### Concrete cases -/

/-- A host path seen in the sandbox is behind a path below the last redirect. -/
theorem lower_seen {env : Env} {st : State} (hw : st.lower.WF) (hp : Spec.RedirectStorage env st) {m : Name} {mp sub l : Path} {f : Spec.Found} (hm : [m] ∈ st.upper.keys)
    (hd : env.decode m = some mp) (hf : Spec.lookup st m mp sub = some f) (hl : f.lower = some l) :
    ∃ b r, sub = b ++ r ∧ Based st m mp b r ∧ l = Spec.named st m mp b ++ r ∧ (∃ k, st.lower.get l = some k) ∧ ¬ HiddenFrom st m b.reverse r.reverse := by
  obtain ⟨b, r, rfl, hB⟩ := exists_based st m mp sub
  obtain ⟨l1, l2⟩ := hB.lookup hw hp hm hd
  cases hg : st.upper.get (m :: (b ++ r)) with
  | some n =>
    cases hwn : Spec.isWhiteout n with
    | true => rw [(l1 n hg).1 hwn] at hf; cases hf
    | false =>
      obtain ⟨L, hL, hL1, hL2⟩ := (l1 n hg).2 hwn
      rw [hL] at hf; cases hf
      simp only at hl
      by_cases hh : HiddenFrom st m b.reverse r.reverse
      · rw [hL1 hh] at hl; cases hl
      · rw [hL2 hh] at hl
        obtain ⟨rfl, h2⟩ := presentDir_some hl
        obtain ⟨k, hk, _⟩ := FS.isDirAt_iff.1 h2
        exact ⟨b, r, rfl, hB, rfl, ⟨k, hk⟩, hh⟩
  | none =>
    by_cases hh : HiddenFrom st m b.reverse r.reverse
    · rw [(l2 hg).1 hh] at hf; cases hf
    · rw [(l2 hg).2 hh] at hf
      unfold Spec.present at hf
      cases hk : st.lower.get (Spec.named st m mp b ++ r) with
      | none => rw [hk] at hf; cases hf
      | some k =>
        rw [hk] at hf
        cases hf
        cases hl
        exact ⟨b, r, rfl, hB, rfl, ⟨k, hk⟩, hh⟩

/-- Without renamed directories, the conditions are those of `C01_view_partial`. -/
theorem plain_is_moved {env : Env} {st : State} (hw : st.lower.WF) (hp : Spec.PlainStorage env st) : Spec.MovedStorage env st := by
  have hnamed : ∀ m mp sub, Spec.named st m mp sub = mp ++ sub := by
    intro m mp sub
    have := namedRev_same (st := st) (m := m) (mp := mp) sub.reverse (fun y k _ _ hk => hp.noRedirects _ k hk)
    rw [List.reverse_reverse] at this
    exact this
  have hbase : Spec.RedirectStorage env st := by
    refine ⟨hp.wf, hp.whiteouts, hp.devices, hp.mounts, ?_, ?_, ?_, ?_, ?_⟩
    · intro m mp m' mp' sub n h1 h2 h3 h4 h5 h6 h7 p h8
      have hpp : p = mp' ++ sub := by
        rcases h8 with h | h
        · exact h
        · rw [h, hnamed]
      subst hpp
      obtain ⟨k1, k2⟩ := hp.nested m mp m' mp' sub n h1 h2 h3 h4 h5 h6 h7
      refine ⟨k1, fun h => ?_⟩
      rcases h with h | h
      · exact k2 h
      · rw [hp.noRedirects _ n h7] at h; cases h
    · intro m mp sub n k h1 h2 h3 h4
      rw [hnamed] at h4 ⊢
      exact hp.links m mp sub n k h1 h2 h3 h4
    · intro m mp q n rd _ h1 h2; rw [hp.noRedirects _ n h1] at h2; cases h2
    · intro m mp q n rd _ h1 h2; rw [hp.noRedirects _ n h1] at h2; cases h2
    · intro m mp q n rd _ h1 h2; rw [hp.noRedirects _ n h1] at h2; cases h2
  have hno : ∀ {m : Name} {mp b r : Path}, Based st m mp b r → b = [] := by
    intro m mp b r hB
    rcases hB.base with h | ⟨n, rd, h1, h2⟩
    · exact h
    · rw [hp.noRedirects _ n h1] at h2; cases h2
  refine ⟨hbase, ?_, ?_, ?_⟩
  · intro m mp q n k _ h1 h2; rw [hp.noRedirects _ n h1] at h2; cases h2
  · intro m mp sub sub' f f' l hm hd h1 h2 h3 h4
    obtain ⟨b, r, rfl, hB, hl, _⟩ := lower_seen hw hbase hm hd h1 h2
    obtain ⟨b', r', rfl, hB', hl', _⟩ := lower_seen hw hbase hm hd h3 h4
    have := hno hB; subst this
    have := hno hB'; subst this
    rw [hl'] at hl
    rw [List.append_cancel_left hl]
  · intro m mp sub f l y n hm hd h1 h2 hy h3 h4 h5
    obtain ⟨b, r, rfl, hB, rfl, _, hh⟩ := lower_seen hw hbase hm hd h1 h2
    have := hno hB; subst this
    refine absurd ⟨y, n, ⟨y, hy, by simp⟩, ?_, h3, ?_⟩ hh
    · rw [hnamed, hnamed, List.append_nil] at h5
      simpa using (List.prefix_append_right_inj mp).1 h5
    · rcases h4 with h | h | ⟨h, _⟩
      · exact Or.inl h
      · exact Or.inr (Or.inl h)
      · exact Or.inr (Or.inr h)

/-- `C01_view_partial` is a special case. -/
example (env : Env) (st : State) (ho : Spec.Ordinary env st) (hp : Spec.PlainStorage env st) (hall : Spec.AllSelected env st) (hok : (accept env st).error = none) (m : Name) (mp sub : Path)
    (hs : Spec.Seen env st m mp (mp ++ sub)) (h : Spec.view st m mp sub = none) : (accept env st).state.lower.get (mp ++ sub) = none :=
  ((C01_moved_partial env st ho (plain_is_moved ho.wf hp) hall hok).1 m mp sub hs).1 h

instance (st : State) (n : Node) (o : Path) : Decidable (Spec.Deletes st n o) :=
  decidable_of_iff (Spec.isWhiteout n = true ∨ n.opq = true ∨
    (Spec.ftype n.kind ≠ .directory ∧ (match st.lower.get o with | some k => decide (Spec.ftype k.kind = .directory) || decide (Spec.ftype k.kind = .symlink) | none => false) = true))
    (by
      unfold Spec.Deletes
      cases st.lower.get o with
      | none => simp
      | some k => simp)

/-- The paths of a mount at which a host path may be seen: below its root and below renamed directories. -/
def seenList (st : State) (m : Name) (mp : Path) : List Path :=
  ([] :: (st.upper.filter (fun x => x.2.redirect.isSome && x.1.head? == some m)).map (·.1.tail)).flatMap (fun b =>
    st.lower.keys.filterMap (fun k => if (Spec.named st m mp b).isPrefixOf k then some (b ++ k.drop (Spec.named st m mp b).length) else none))

theorem mem_seenList {env : Env} {st : State} (hw : st.lower.WF) (hp : Spec.RedirectStorage env st) {m : Name} {mp sub l : Path} {f : Spec.Found} (hm : [m] ∈ st.upper.keys)
    (hd : env.decode m = some mp) (hf : Spec.lookup st m mp sub = some f) (hl : f.lower = some l) : sub ∈ seenList st m mp := by
  obtain ⟨b, r, rfl, hB, rfl, ⟨k, hk⟩, _⟩ := lower_seen hw hp hm hd hf hl
  refine List.mem_flatMap.2 ⟨b, ?_, List.mem_filterMap.2 ⟨_, FS.mem_keys.2 ⟨k, hk⟩, by simp⟩⟩
  rcases hB.base with rfl | ⟨n, rd, h1, h2⟩
  · exact List.mem_cons_self
  · exact List.mem_cons_of_mem _ (List.mem_map.2 ⟨(m :: b, n), List.mem_filter.2 ⟨FS.mem_of_get h1, by simp [h2]⟩, rfl⟩)

/-- Decidable form of `Spec.RedirectStorage`, for examples. -/
theorem redirectStorage_of_check {env : Env} {st : State} (hu : st.upper.WF)
    (h1 : ∀ x ∈ st.upper, (x.2.whiteout = true → Spec.ftype x.2.kind = .file) ∧ (match x.2.kind with | .chr r => r % 65536 != 0 || r == 0 | _ => true) = true)
    (h2 : ∀ x ∈ st.upper, ∀ m ∈ x.1.head?, ∀ mp ∈ env.decode m,
      (x.1.tail = [] → st.lower.isDirAt mp = true ∧ x.2.isDir = true) ∧
      (Spec.isWhiteout x.2 = true → ∀ k ∈ st.lower.get (Spec.named st m mp x.1.tail), Spec.ftype k.kind = .symlink → st.lower.pexists (Spec.named st m mp x.1.tail) = true) ∧
      (∀ rd ∈ x.2.redirect, x.1.tail ≠ [] ∧ Spec.ftype x.2.kind = .directory ∧ x.2.opq = false ∧ components rd ≠ [] ∧ NormalPath (components rd) ∧
        (rd.head? ≠ some '/' → ∀ o ∈ st.upper, o.1.head? = some m → o.1.tail ≠ [] → o.1.tail <+: x.1.tail → o.1.tail ≠ x.1.tail → o.2.redirect = none ∧ o.2.opq = false) ∧
        (rd.head? = some '/' → findMountPoint st.lower (mp ++ x.1.tail) = mp)))
    (h3 : ∀ x ∈ st.upper, x.1.tail ≠ [] → ∀ m' ∈ x.1.head?, ∀ mp' ∈ env.decode m', ∀ o ∈ st.upper, o.1.tail = [] → ∀ m ∈ o.1.head?, m' ≠ m → ∀ mp ∈ env.decode m, mp' <+: mp →
      (¬ mp <+: mp' ++ x.1.tail ∧ ¬ mp <+: Spec.named st m' mp' x.1.tail) ∧
      (Spec.Hiding x.2 ∨ x.2.redirect.isSome = true → ¬ mp' ++ x.1.tail <+: mp ∧ ¬ Spec.named st m' mp' x.1.tail <+: mp)) :
    Spec.RedirectStorage env st := by
  refine ⟨hu, fun q n hg => (h1 _ (FS.mem_of_get hg)).1, fun q n r hg hk hr => ?_, fun m mp hm hd => ?_, fun m mp m' mp' sub n hm hd hne hd' hpre hs hg p hp => ?_,
    fun m mp sub n k hd hg => ?_, fun m mp q n rd hd hg hr => ?_, fun m mp q n rd hd hg hr ha y k hy hb hk => ?_, fun m mp q n rd hd hg hr => ?_⟩
  · have := (h1 _ (FS.mem_of_get hg)).2
    simp only [hk, hr] at this
    simpa using this
  · obtain ⟨n, hn⟩ := FS.mem_keys.1 hm
    obtain ⟨k1, k2⟩ := (h2 _ (FS.mem_of_get hn) m rfl mp hd).1 rfl
    obtain ⟨k, hk1, hk2⟩ := FS.isDirAt_iff.1 k1
    have hda : ∀ {n : Node}, n.isDir = true → Spec.ftype n.kind = .directory := by
      intro n hx; unfold Node.isDir at hx; simp at hx; rw [hx]; rfl
    exact ⟨⟨k, hk1, hda hk2⟩, ⟨n, hn, hda k2⟩⟩
  · obtain ⟨k, hk⟩ := FS.mem_keys.1 hm
    obtain ⟨k1, k2⟩ := h3 _ (FS.mem_of_get hg) hs m' rfl mp' hd' _ (FS.mem_of_get hk) rfl m rfl hne mp hd hpre
    rcases hp with rfl | rfl
    · exact ⟨k1.1, fun h => (k2 h).1⟩
    · exact ⟨k1.2, fun h => (k2 h).2⟩
  · exact fun a b c => (h2 _ (FS.mem_of_get hg) m rfl mp hd).2.1 a k b c
  · obtain ⟨a, b, c, d, e, _⟩ := (h2 _ (FS.mem_of_get hg) m rfl mp hd).2.2 rd hr
    exact ⟨a, b, c, d, e⟩
  · exact ((h2 _ (FS.mem_of_get hg) m rfl mp hd).2.2 rd hr).2.2.2.2.2.1 ha _ (FS.mem_of_get hk) rfl hy hb.prefix hb.ne
  · exact ((h2 _ (FS.mem_of_get hg) m rfl mp hd).2.2 rd hr).2.2.2.2.2.2

/-- Decidable form of `Spec.MovedStorage`, for examples. -/
theorem movedStorage_of_check {env : Env} {st : State} (hw : st.lower.WF) (hb : Spec.RedirectStorage env st)
    (h : ∀ x ∈ st.upper, ∀ m ∈ x.1.head?, ∀ mp ∈ env.decode m, x.2.redirect.isSome = true → ∀ k ∈ st.lower.get (Spec.named st m mp x.1.tail), Spec.SameNode k x.2)
    (h1 : ∀ x ∈ st.upper, x.1.tail = [] → ∀ m ∈ x.1.head?, ∀ mp ∈ env.decode m, ∀ s ∈ seenList st m mp, ∀ f ∈ Spec.lookup st m mp s, ∀ l ∈ f.lower,
        ∀ s' ∈ seenList st m mp, s' ≠ s → ∀ f' ∈ Spec.lookup st m mp s', f'.lower ≠ some l)
    (h2 : ∀ x ∈ st.upper, x.1.tail = [] → ∀ m ∈ x.1.head?, ∀ mp ∈ env.decode m, ∀ s ∈ seenList st m mp, ∀ f ∈ Spec.lookup st m mp s, ∀ l ∈ f.lower,
        ∀ o ∈ st.upper, o.1.head? = some m → o.1.tail ≠ [] → Spec.Deletes st o.2 (Spec.named st m mp o.1.tail) → Spec.named st m mp o.1.tail <+: l →
          st.upper.any (fun z => decide (z.1.head? = some m) && z.2.redirect.isSome && decide (Spec.named st m mp z.1.tail = Spec.named st m mp o.1.tail)) = true) : Spec.MovedStorage env st := by
  refine ⟨hb, fun m mp q n k hd hg hr hk => h _ (FS.mem_of_get hg) m rfl mp hd hr k hk, fun m mp sub sub' f f' l hm hd a1 a2 a3 a4 => ?_, fun m mp sub f l y n hm hd a1 a2 hy hg hdel hpre => ?_⟩
  · obtain ⟨k, hk⟩ := FS.mem_keys.1 hm
    by_contra hne
    exact h1 _ (FS.mem_of_get hk) rfl m rfl mp hd sub (mem_seenList hw hb hm hd a1 a2) f a1 l a2 sub' (mem_seenList hw hb hm hd a3 a4) (Ne.symm hne) f' a3 a4
  · obtain ⟨k, hk⟩ := FS.mem_keys.1 hm
    have hz := h2 _ (FS.mem_of_get hk) rfl m rfl mp hd sub (mem_seenList hw hb hm hd a1 a2) f a1 l a2 _ (FS.mem_of_get hg) rfl hy hdel hpre
    obtain ⟨⟨zp, zn⟩, z1, hz⟩ := List.any_eq_true.1 hz
    simp only [Bool.and_eq_true, decide_eq_true_eq] at hz
    obtain ⟨⟨z2, z3⟩, z4⟩ := hz
    cases zp with
    | nil => cases z2
    | cons a zp =>
      simp only [List.head?_cons, Option.some.injEq] at z2
      subst z2
      exact ⟨zp, zn, FS.get_of_mem hb.wf.nodup z1, z3, z4⟩

/-- In the sandbox: `mv d e; rm e/g; echo new >e/h; mv e/x o/y; rm o/p; mkdir d`; and in the other mount `rm u/v`. -/
def exMany : State := ⟨exViewHost,
  [([], { kind := .dir }), ([str "F4"], { kind := .dir }), ([str "F4", str "d"], { kind := .dir, opq := true }),
   ([str "F4", str "e"], { kind := .dir, perm := 0o755, redirect := some (str "d") }), ([str "F4", str "e", str "g"], { kind := .chr 0 }),
   ([str "F4", str "e", str "h"], { kind := .reg (str "new") }), ([str "F4", str "e", str "x"], { kind := .chr 0 }),
   ([str "F4", str "o"], { kind := .dir }), ([str "F4", str "o", str "p"], { kind := .chr 0 }), ([str "F4", str "o", str "y"], { kind := .dir, redirect := some (str "/d/x") }),
   ([str "U"], { kind := .dir }), ([str "U", str "v"], { kind := .chr 0 })]⟩

instance (a b : Node) : Decidable (Spec.SameNode a b) := by unfold Spec.SameNode; infer_instance

theorem exMany_ordinary : Spec.Ordinary exViewEnv exMany := ordinary_of_check (fun _ => rfl) (fun _ => rfl) (by decide +kernel) (by decide +kernel) (by decide +kernel)

set_option synthInstance.maxSize 1000 in
set_option synthInstance.maxHeartbeats 200000 in
theorem exMany_redirect : Spec.RedirectStorage exViewEnv exMany := redirectStorage_of_check (by decide +kernel) (by decide +kernel) (by decide +kernel) (by decide +kernel)

set_option synthInstance.maxSize 1000 in
set_option synthInstance.maxHeartbeats 200000 in
theorem exMany_moved : Spec.MovedStorage exViewEnv exMany := movedStorage_of_check exMany_ordinary.wf exMany_redirect (by decide +kernel) (by decide +kernel) (by decide +kernel)

theorem exMany_all : Spec.AllSelected exViewEnv exMany := by
  have : selected exViewEnv exMany = changes exViewEnv exMany := by decide +kernel
  intro e he
  rw [this]
  exact he

example : (accept exViewEnv exMany).error = none ∧
    [[str "d"], [str "d", str "f"], [str "e", str "f"], [str "e", str "g"], [str "e", str "h"], [str "e", str "x"], [str "o", str "p"], [str "o", str "y", str "y"], [str "u", str "v"]].map
      (fun q => ((accept exViewEnv exMany).state.lower.get q).map (·.kind)) =
    [some .dir, none, some (.reg (str "1")), none, some (.reg (str "new")), none, none, some (.reg (str "3")), none] := by decide +kernel

end SB
