import Verif.Lib.OverlayLemmas
import Verif.Props.Renames

/-!
# C15: the origin of a moved path
-/

namespace SB

open scoped List

/-- **C15 (the rule the program follows, first half)**: if neither the stored path nor a stored directory above it carries a redirect, its origin is the host path of the same
name, if it exists. -/
theorem C15_same_partial (st : State) (hu : st.upper.WF) (m : Name) (mp sub : Path) (hs : m :: sub ∈ st.upper.keys)
    (hr : ∀ q n, q ≠ [] → q <+: sub → st.upper.get (m :: q) = some n → n.redirect = none) :
    sourcePath st m mp sub = if st.lower.pexists (mp ++ sub) then some (mp ++ sub) else none := by
  obtain ⟨n, hn⟩ := FS.mem_keys.1 hs
  unfold sourcePath
  rw [sourceLoop_noRedirect]
  · simp [ifExists]
  · intro q hq hqp
    rw [List.reverse_reverse] at hqp
    have : ∃ n, st.upper.get (m :: q) = some n := by
      obtain ⟨r, rfl⟩ := hqp
      by_cases hr : r = []
      · subst hr; exact ⟨_, by simpa using hn⟩
      · obtain ⟨n, hn, _⟩ := FS.isDirAt_iff.1 (hu.ancestor (q := m :: q) hn ⟨r, hr, by simp⟩)
        exact ⟨n, hn⟩
    obtain ⟨k, hk⟩ := this
    exact ⟨k, hk, hr q k hq hqp hk⟩

theorem sourceLoop_skip {st : State} {m : Name} {mp : Path} : ∀ (r q : List Name) (comps : Path),
    (∀ y, Below q.reverse y → y <+: (r ++ q).reverse → ∃ n, st.upper.get (m :: y) = some n ∧ n.redirect = none) →
    sourceLoop st m mp (r ++ q) comps = sourceLoop st m mp q (r.reverse ++ comps) := by
  intro r
  induction r with
  | nil => intro q comps _; rfl
  | cons x r ih =>
    intro q comps h
    obtain ⟨n, hn, hr⟩ := h ((x :: r) ++ q).reverse ⟨(x :: r).reverse, by simp, by simp⟩ (List.prefix_refl _)
    rw [List.cons_append] at hn ⊢
    rw [sourceLoop, hn]
    simp only [hr]
    rw [ih]
    · simp
    · intro y hy hyp
      refine h y hy (hyp.trans ?_)
      rw [List.cons_append, List.reverse_cons]
      exact List.prefix_append _ _

/-- **C15 (the rule the program follows, second half)**: otherwise the nearest redirect upwards decides, resolved at the mount's root if it is absolute and beside the stored
directory if it is relative; the names below it are appended. -/
theorem C15_nearest_partial (st : State) (hu : st.upper.WF) (m : Name) (mp q r : Path) (n : Node) (rd : Str) (hs : m :: (q ++ r) ∈ st.upper.keys) (hq : q ≠ [])
    (hn : st.upper.get (m :: q) = some n) (hrd : n.redirect = some rd)
    (hr : ∀ y k, Below q y → y <+: q ++ r → st.upper.get (m :: y) = some k → k.redirect = none) :
    let root := if rd.head? = some '/' then findMountPoint st.lower (mp ++ q) else mp ++ q.dropLast
    sourcePath st m mp (q ++ r) = if st.lower.pexists (root ++ components rd ++ r) then some (root ++ components rd ++ r) else none := by
  obtain ⟨k, hk⟩ := FS.mem_keys.1 hs
  unfold sourcePath
  rw [List.reverse_append, sourceLoop_skip]
  · obtain ⟨x, q', rfl⟩ : ∃ x q', q = q' ++ [x] := ⟨q.getLast hq, q.dropLast, (List.dropLast_append_getLast hq).symm⟩
    rw [List.reverse_append, List.reverse_singleton, List.singleton_append, sourceLoop]
    have e1 : (x :: q'.reverse).reverse = q' ++ [x] := by simp
    rw [e1, hn]
    simp only [hrd, ifExists, List.reverse_reverse, List.append_nil]
    split
    · simp [List.append_assoc]
    · rw [← List.append_assoc mp q' [x], List.dropLast_concat, List.dropLast_concat]
      simp [List.append_assoc]
  · intro y hy hyp
    rw [List.reverse_reverse] at hy
    have hyp' : y <+: q ++ r := by simpa using hyp
    have : ∃ n, st.upper.get (m :: y) = some n := by
      obtain ⟨z, hz⟩ := hyp'
      by_cases hz0 : z = []
      · subst hz0; rw [List.append_nil] at hz; exact ⟨_, by rw [hz]; exact hk⟩
      · obtain ⟨n, hn, _⟩ := FS.isDirAt_iff.1 (hu.ancestor (q := m :: y) hk ⟨z, hz0, by rw [← hz]; simp⟩)
        exact ⟨n, hn⟩
    obtain ⟨n', hn'⟩ := this
    exact ⟨n', hn', hr y n' hy hyp' hn'⟩

/-- The stored path lies in directories that are merged with the host's, its redirects are names or paths as the kernel writes them, a relative redirect has no other
redirect above it, and absolute redirects start at the mount's root as the program finds it. -/
structure Spec.SimpleRedirects (st : State) (m : Name) (mp sub : Path) : Prop where
  merged : ∀ q n, q ≠ [] → Below q sub → st.upper.get (m :: q) = some n → n.opq = false ∧ n.whiteout = false
  text : ∀ q n rd, q ≠ [] → q <+: sub → st.upper.get (m :: q) = some n → n.redirect = some rd → components rd ≠ [] ∧ NormalPath (components rd)
  relative : ∀ q n rd, q <+: sub → st.upper.get (m :: q) = some n → n.redirect = some rd → rd.head? ≠ some '/' →
    ∀ y k, y ≠ [] → Below y q → st.upper.get (m :: y) = some k → k.redirect = none
  absolute : ∀ q n rd, q <+: sub → st.upper.get (m :: q) = some n → n.redirect = some rd → rd.head? = some '/' → findMountPoint st.lower (mp ++ q) = mp

/-- Overlay lookup of a stored directory all of whose ancestors are merged. -/
theorem merged_named {st : State} {m : Name} {mp : Path} (hw : st.lower.WF) (hu : st.upper.WF) (hmp : st.lower.isDirAt mp = true) : ∀ (r : List Name) (n : Node),
    st.upper.get (m :: r.reverse) = some n → Spec.ftype n.kind = .directory →
    (∀ q n, q ≠ [] → q <+: r.reverse → st.upper.get (m :: q) = some n → n.opq = false ∧ n.whiteout = false) →
    (∀ q n rd, q ≠ [] → q <+: r.reverse → st.upper.get (m :: q) = some n → n.redirect = some rd → components rd ≠ []) →
    MergedAt st m mp r (Spec.namedRev st m mp r) := by
  intro r
  induction r with
  | nil =>
    intro n hn hd _ _
    exact merged_root hmp (FS.isDirAt_iff.2 ⟨n, hn, isDir_of_ftype hd⟩)
  | cons x r ih =>
    intro n hn hd ho ht
    have hsub : r.reverse <+: (x :: r).reverse := by rw [List.reverse_cons]; exact List.prefix_append _ _
    obtain ⟨u, hu1, hu2⟩ := FS.isDirAt_iff.1 (hu.ancestor (q := m :: r.reverse) hn ⟨[x], by simp, by simp⟩)
    have hdu : Spec.ftype u.kind = .directory := by
      unfold Node.isDir at hu2; simp at hu2; rw [hu2]; rfl
    have hm := ih u hu1 hdu (fun q n h1 h2 => ho q n h1 (h2.trans hsub)) (fun q n rd h1 h2 => ht q n rd h1 (h2.trans hsub))
    obtain ⟨h1, h2⟩ := ho _ n (by simp) (List.prefix_refl _) hn
    rw [Spec.namedRev, hn]
    simp only [Option.bind_some]
    cases hr : n.redirect with
    | none => exact merged_step hw hm hn hd h2 h1 hr
    | some rd => exact merged_redirect hw hm hn hd h2 h1 hr (ht _ n rd (by simp) (List.prefix_refl _) hn hr)

theorem origin_named {st : State} {m : Name} {mp sub : Path} (hw : st.lower.WF) (hu : st.upper.WF) (hmp : st.lower.isDirAt mp = true) (hs : m :: sub ∈ st.upper.keys)
    (hr : Spec.SimpleRedirects st m mp sub) : Spec.origin st m mp sub = if (st.lower.get (Spec.named st m mp sub)).isSome then some (Spec.named st m mp sub) else none := by
  obtain ⟨n, hn⟩ := FS.mem_keys.1 hs
  unfold Spec.origin Spec.named
  cases hsr : sub.reverse with
  | nil =>
    obtain ⟨k, hk, _⟩ := FS.isDirAt_iff.1 hmp
    simp [Spec.namedRev, hk]
  | cons x r =>
    have hsub : sub = (x :: r).reverse := by rw [← hsr, List.reverse_reverse]
    have hb : Below r.reverse sub := ⟨[x], by simp, by rw [hsub]; simp⟩
    obtain ⟨u, hu1, hu2⟩ := FS.isDirAt_iff.1 (hu.ancestor (q := m :: r.reverse) hn ⟨[x], by simp, by rw [hsub]; simp⟩)
    have hdu : Spec.ftype u.kind = .directory := by
      unfold Node.isDir at hu2; simp at hu2; rw [hu2]; rfl
    obtain ⟨k, _, hl⟩ := merged_named (mp := mp) hw hu hmp r u hu1 hdu
      (fun q n h1 h2 => hr.merged q n h1 (below_of_prefix_below h2 hb))
      (fun q n rd h1 h2 h3 h4 => (hr.text q n rd h1 (h2.trans hb.prefix) h3 h4).1)
    simp only [hl]
    rw [Spec.namedRev, ← hsub, hn]
    simp only [Option.bind_some]
    cases hrd : n.redirect with
    | none => exact (bind_present hw _ [x] (by simp)).1
    | some rd =>
      have hc := (hr.text sub n rd (by rw [hsub]; simp) (List.prefix_refl _) hn hrd).1
      simp only [Spec.lowerName]
      split
      · rfl
      · exact (bind_present hw _ _ hc).1

theorem namedRev_same {st : State} {m : Name} {mp : Path} : ∀ (r : List Name), (∀ y k, y ≠ [] → y <+: r.reverse → st.upper.get (m :: y) = some k → k.redirect = none) →
    Spec.namedRev st m mp r = mp ++ r.reverse := by
  intro r
  induction r with
  | nil => intro _; simp [Spec.namedRev]
  | cons x r ih =>
    intro h
    have hnone : (st.upper.get (m :: (x :: r).reverse)).bind (·.redirect) = none := by
      cases hg : st.upper.get (m :: (x :: r).reverse) with
      | none => rfl
      | some k => exact h _ k (by simp) (List.prefix_refl _) hg
    rw [Spec.namedRev, hnone]
    simp only
    rw [ih (fun y k h1 h2 => h y k h1 (h2.trans (by rw [List.reverse_cons]; exact List.prefix_append _ _)))]
    simp

theorem sourceLoop_named {st : State} {m : Name} {mp : Path} : ∀ (r : List Name) (comps : Path),
    (∀ y, y ≠ [] → y <+: r.reverse → ∃ n, st.upper.get (m :: y) = some n) →
    (∀ q n rd, q ≠ [] → q <+: r.reverse → st.upper.get (m :: q) = some n → n.redirect = some rd → rd.head? ≠ some '/' →
      ∀ y k, y ≠ [] → Below y q → st.upper.get (m :: y) = some k → k.redirect = none) →
    (∀ q n rd, q ≠ [] → q <+: r.reverse → st.upper.get (m :: q) = some n → n.redirect = some rd → rd.head? = some '/' → findMountPoint st.lower (mp ++ q) = mp) →
    sourceLoop st m mp r comps = ifExists st.lower (Spec.namedRev st m mp r ++ comps) := by
  intro r
  induction r with
  | nil => intro comps _ _ _; rfl
  | cons x r ih =>
    intro comps h1 h2 h3
    obtain ⟨n, hn⟩ := h1 (x :: r).reverse (by simp) (List.prefix_refl _)
    have hsub : r.reverse <+: (x :: r).reverse := by rw [List.reverse_cons]; exact List.prefix_append _ _
    rw [sourceLoop, Spec.namedRev, hn]
    simp only [Option.bind_some]
    cases hr : n.redirect with
    | none =>
      simp only
      rw [ih _ (fun y a b => h1 y a (b.trans hsub)) (fun q n rd a b => h2 q n rd a (b.trans hsub)) (fun q n rd a b => h3 q n rd a (b.trans hsub))]
      simp
    | some rd =>
      simp only
      split
      · next ha => rw [h3 _ n rd (by simp) (List.prefix_refl _) hn hr ha, List.append_assoc]
      · next ha =>
        rw [namedRev_same r]
        · rw [List.reverse_cons, ← List.append_assoc mp, List.dropLast_concat]
          simp [List.append_assoc]
        · intro y k hy0 hy hk
          exact h2 _ n rd (by simp) (List.prefix_refl _) hn hr ha y k hy0 (below_of_prefix_below hy ⟨[x], by simp, by simp⟩) hk

/-- **C15 (partial)**: the origin the program uses for a stored path is the host path overlayfs uses.
Missing: relative redirects below another redirect (`C15_refuted_nested`), opaque directories above (`C15_refuted_opaque`), dangling links (`C15_refuted_dangling`), mounts that
do not start where the device changes (`C15_refuted_bind`). -/
theorem C15_origin_partial (st : State) (hw : st.lower.WF) (hu : st.upper.WF) (m : Name) (mp sub : Path) (hmp : ∃ n, st.lower.get mp = some n ∧ Spec.ftype n.kind = .directory)
    (hs : m :: sub ∈ st.upper.keys) (hr : Spec.SimpleRedirects st m mp sub)
    (hl : ∀ y, Below y (Spec.named st m mp sub) → ∀ n, st.lower.get y = some n → Spec.ftype n.kind ≠ .symlink)
    (hdang : ∀ n, st.lower.get (Spec.named st m mp sub) = some n → Spec.ftype n.kind = .symlink → st.lower.pexists (Spec.named st m mp sub) = true) :
    sourcePath st m mp sub = Spec.origin st m mp sub := by
  obtain ⟨nm, hnm, hnmd⟩ := hmp
  have hmpd : st.lower.isDirAt mp = true := FS.isDirAt_iff.2 ⟨nm, hnm, isDir_of_ftype hnmd⟩
  obtain ⟨n, hn⟩ := FS.mem_keys.1 hs
  have hstored : ∀ y, y ≠ [] → y <+: sub → ∃ n, st.upper.get (m :: y) = some n := by
    intro y hy hyp
    by_cases he : y = sub
    · subst he; exact ⟨n, hn⟩
    · obtain ⟨z, hz, hz'⟩ := below_iff.2 ⟨hyp, he⟩
      obtain ⟨k, hk, _⟩ := FS.isDirAt_iff.1 (hu.ancestor (q := m :: y) hn ⟨z, hz, by rw [hz']; simp⟩)
      exact ⟨k, hk⟩
  rw [origin_named hw hu hmpd hs hr]
  unfold sourcePath
  rw [sourceLoop_named]
  · rw [List.append_nil]
    show ifExists st.lower (Spec.named st m mp sub) = _
    unfold ifExists
    have hN : NormalPath (Spec.named st m mp sub) := by
      unfold Spec.named
      suffices ∀ r : List Name, r.reverse <+: sub → NormalPath (Spec.namedRev st m mp r) by exact this _ (by simp)
      intro r
      induction r with
      | nil => intro _; exact hw.normal_of_get hnm
      | cons x r ih =>
        intro hp
        have hsub : r.reverse <+: sub := List.IsPrefix.trans (by rw [List.reverse_cons]; exact List.prefix_append _ _) hp
        obtain ⟨k, hk⟩ := hstored (x :: r).reverse (by simp) hp
        rw [Spec.namedRev, hk]
        simp only [Option.bind_some]
        cases hrd : k.redirect with
        | none =>
          refine (ih hsub).append (fun y hy => ?_)
          exact hu.normal_of_get hk y (by simp at hy; simp [hy])
        | some rd =>
          have := (hr.text _ k rd (by simp) hp hk hrd).2
          simp only
          split
          · exact (hw.normal_of_get hnm).append this
          · exact (ih hsub).append this
    generalize Spec.named st m mp sub = P at *
    cases hg : st.lower.get P with
    | none =>
      have : st.lower.pexists P = false := by
        cases hx : st.lower.pexists P with
        | false => rfl
        | true =>
          have h := hx
          unfold FS.pexists FS.stat at h
          cases hrp : st.lower.realpath P with
          | error e => rw [hrp] at h; cases h
          | ok c =>
            obtain ⟨_, k, hk⟩ := FS.realpath_ok_get hw.root hN (noLinkAbove_of_ftype hl) hrp
            rw [hg] at hk; cases hk
      simp [this]
    | some k =>
      have : st.lower.pexists P = true := by
        by_cases hlk : Spec.ftype k.kind = .symlink
        · exact hdang k hg hlk
        · refine (FS.pexists_iff hw hN (fun q hq k' hk' => ?_)).2 ⟨k, hg⟩
          by_cases he : q = P
          · subst he; rw [hg] at hk'; cases hk'; exact isLnk_of_ftype hlk
          · exact isLnk_of_ftype (hl q (below_iff.2 ⟨hq, he⟩) k' hk')
      simp [this]
  · intro y hy hyp
    exact hstored y hy (by simpa using hyp)
  · intro q n rd h1 h2
    exact hr.relative q n rd (by simpa using h2)
  · intro q n rd h1 h2
    exact hr.absolute q n rd (by simpa using h2)

/-! ### Concrete cases -/

/-- Decidable form of `Spec.SimpleRedirects`, for examples. -/
theorem simpleRedirects_of_check {st : State} {m : Name} {mp sub : Path}
    (h : ∀ q ∈ sub.inits, ∀ n ∈ st.upper.get (m :: q),
      (q ≠ [] → q ≠ sub → n.opq = false ∧ n.whiteout = false) ∧
      ∀ rd ∈ n.redirect, components rd ≠ [] ∧ NormalPath (components rd) ∧
        (rd.head? ≠ some '/' → ∀ y ∈ q.inits, y ≠ [] → y ≠ q → ∀ k ∈ st.upper.get (m :: y), k.redirect = none) ∧
        (rd.head? = some '/' → findMountPoint st.lower (mp ++ q) = mp)) : Spec.SimpleRedirects st m mp sub := by
  refine ⟨fun q n h1 h2 h3 => ?_, fun q n rd h1 h2 h3 h4 => ?_, fun q n rd h2 h3 h4 h5 y k h6 h7 h8 => ?_, fun q n rd h2 h3 h4 h5 => ?_⟩
  · exact (h q ((List.mem_inits _ _).2 h2.prefix) n h3).1 h1 h2.ne
  · have := (h q ((List.mem_inits _ _).2 h2) n h3).2 rd h4
    exact ⟨this.1, this.2.1⟩
  · exact ((h q ((List.mem_inits _ _).2 h2) n h3).2 rd h4).2.2.1 h5 y ((List.mem_inits _ _).2 h7.prefix) h6 h7.ne k h8
  · exact ((h q ((List.mem_inits _ _).2 h2) n h3).2 rd h4).2.2.2 h5

/-- Host: `d` with a file `f` and a directory `x` with a file `g`, a file `k`, a link `l` that leads nowhere. -/
def exOriginHost : FS :=
  [([], { kind := .dir, dev := 1 }), ([str "d"], { kind := .dir, dev := 1 }), ([str "d", str "f"], { kind := .reg (str "1"), dev := 1 }),
   ([str "d", str "x"], { kind := .dir, dev := 1 }), ([str "d", str "x", str "g"], { kind := .reg (str "2"), dev := 1 }), ([str "k"], { kind := .reg (str "k"), dev := 1 }),
   ([str "l"], { kind := .lnk (str "nowhere"), dev := 1 })]

/-- In the sandbox: `mv d e; echo >e/f; mkdir n; mv e/x n/y; echo >n/y/g`. -/
def exOrigin : State := ⟨exOriginHost,
  [([], { kind := .dir }), ([str "F4"], { kind := .dir }), ([str "F4", str "d"], { kind := .chr 0 }), ([str "F4", str "e"], { kind := .dir, redirect := some (str "d") }),
   ([str "F4", str "e", str "f"], { kind := .reg (str "new") }), ([str "F4", str "e", str "x"], { kind := .chr 0 }),
   ([str "F4", str "n"], { kind := .dir, opq := true }), ([str "F4", str "n", str "y"], { kind := .dir, redirect := some (str "/d/x") }),
   ([str "F4", str "n", str "y", str "g"], { kind := .reg (str "new2") })]⟩

-- relative redirect of a directory above; a whiteout below it
example : sourcePath exOrigin (str "F4") [] [str "e", str "f"] = some [str "d", str "f"] ∧ sourcePath exOrigin (str "F4") [] [str "e", str "x"] = some [str "d", str "x"] := by
  decide +kernel
example : Spec.origin exOrigin (str "F4") [] [str "e", str "f"] = some [str "d", str "f"] ∧ Spec.origin exOrigin (str "F4") [] [str "e", str "x"] = some [str "d", str "x"] := by
  decide +kernel
-- the conditions of `C15_origin_partial` hold for it
set_option synthInstance.maxSize 1000 in
set_option synthInstance.maxHeartbeats 200000 in
example : sourcePath exOrigin (str "F4") [] [str "e", str "f"] = Spec.origin exOrigin (str "F4") [] [str "e", str "f"] := by
  have hnamed : Spec.named exOrigin (str "F4") [] [str "e", str "f"] = [str "d", str "f"] := by decide +kernel
  refine C15_origin_partial exOrigin (by decide +kernel) (by decide +kernel) _ _ _ ⟨_, rfl, rfl⟩ (by decide +kernel) (simpleRedirects_of_check (by decide +kernel)) ?_ ?_
  · rw [hnamed]
    intro y hy n hn
    have h1 : ∀ y ∈ [str "d", str "f"].inits, ∀ n ∈ exOrigin.lower.get y, Spec.ftype n.kind ≠ .symlink := by decide +kernel
    exact h1 y ((List.mem_inits _ _).2 hy.prefix) n hn
  · rw [hnamed]
    decide +kernel
-- the conditions of `C15_same_partial` and `C15_nearest_partial` hold
example : sourcePath exOrigin (str "F4") [] [str "d"] = some [str "d"] := by
  rw [C15_same_partial exOrigin (by decide +kernel) (str "F4") [] [str "d"] (by decide +kernel)]
  · decide +kernel
  · intro q n h1 h2 h3
    have h4 : ∀ q ∈ [str "d"].inits, ∀ n ∈ exOrigin.upper.get (str "F4" :: q), n.redirect = none := by decide +kernel
    exact h4 q ((List.mem_inits _ _).2 h2) n h3
example : sourcePath exOrigin (str "F4") [] ([str "n", str "y"] ++ [str "g"]) = some [str "d", str "x", str "g"] := by
  rw [C15_nearest_partial exOrigin (by decide +kernel) (str "F4") [] [str "n", str "y"] [str "g"] { kind := .dir, redirect := some (str "/d/x") } (str "/d/x") (by decide +kernel)
    (by decide) (by decide +kernel) rfl]
  · decide +kernel
  · intro y k h1 h2 h3
    have h4 : ∀ q ∈ [str "n", str "y", str "g"].inits, q ≠ [str "n"] → q ≠ [str "n", str "y"] → ∀ n ∈ exOrigin.upper.get (str "F4" :: q), n.redirect = none := by decide +kernel
    refine h4 y ((List.mem_inits _ _).2 h2) ?_ ?_ k h3
    · rintro rfl; revert h1; decide
    · rintro rfl; revert h1; decide

/-- In the sandbox: `mv d e; mv e/x e/y`. -/
def exOriginNested : State := ⟨exOriginHost,
  [([], { kind := .dir }), ([str "F4"], { kind := .dir }), ([str "F4", str "d"], { kind := .chr 0 }), ([str "F4", str "e"], { kind := .dir, redirect := some (str "d") }),
   ([str "F4", str "e", str "x"], { kind := .chr 0 }), ([str "F4", str "e", str "y"], { kind := .dir, redirect := some (str "x") })]⟩

/-- **C15 refuted**: after `mv d e; mv e/x e/y` the sandbox sees `d/x` of the host as `e/y`; the program looks for `e/x` on the host, finds nothing, and reports an error. -/
theorem C15_refuted_nested :
    exOriginNested.lower.WF ∧ exOriginNested.upper.WF ∧
    Spec.origin exOriginNested (str "F4") [] [str "e", str "y"] = some [str "d", str "x"] ∧
    Spec.view exOriginNested (str "F4") [] [str "e", str "y", str "g"] = exOriginHost.get [str "d", str "x", str "g"] ∧
    sourcePath exOriginNested (str "F4") [] [str "e", str "y"] = none ∧
    ∃ e ∈ changes exEnv exOriginNested, e.op = .error .redirectPathNotFound := by decide +kernel

/-- In the sandbox: `rm -r d; mkdir d; echo >d/f`. -/
def exOriginOpaque : State := ⟨exOriginHost,
  [([], { kind := .dir }), ([str "F4"], { kind := .dir }), ([str "F4", str "d"], { kind := .dir, opq := true }), ([str "F4", str "d", str "f"], { kind := .reg (str "new") })]⟩

/-- **C15 refuted**: a file created in a re-created directory has nothing to do with the old file of that name, but the program takes the old file as its origin. -/
theorem C15_refuted_opaque :
    exOriginOpaque.lower.WF ∧ exOriginOpaque.upper.WF ∧ Spec.origin exOriginOpaque (str "F4") [] [str "d", str "f"] = none ∧
    sourcePath exOriginOpaque (str "F4") [] [str "d", str "f"] = some [str "d", str "f"] := by decide +kernel

/-- In the sandbox: `rm l`, a link that leads nowhere. -/
def exOriginDangling : State := ⟨exOriginHost, [([], { kind := .dir }), ([str "F4"], { kind := .dir }), ([str "F4", str "l"], { kind := .chr 0 })]⟩

/-- **C15 refuted**: the origin of a deleted link that leads nowhere is not found, and its deletion is not reported. -/
theorem C15_refuted_dangling :
    exOriginDangling.lower.WF ∧ exOriginDangling.upper.WF ∧ Spec.origin exOriginDangling (str "F4") [] [str "l"] = some [str "l"] ∧
    sourcePath exOriginDangling (str "F4") [] [str "l"] = none ∧ Spec.view exOriginDangling (str "F4") [] [str "l"] = none ∧ changes exEnv exOriginDangling = [] := by decide +kernel

/-- A bind mount: `/d` is a mount point of the sandbox, but on the same device as `/`; in the sandbox: `mkdir d/n; mv d/x d/n/y`. -/
def exOriginBind : State := ⟨exOriginHost,
  [([], { kind := .dir }), ([str "D"], { kind := .dir }), ([str "D", str "x"], { kind := .chr 0 }), ([str "D", str "n"], { kind := .dir }),
   ([str "D", str "n", str "y"], { kind := .dir, redirect := some (str "/x") })]⟩

/-- **C15 refuted**: an absolute redirect is resolved from the directory where the device changes, not from the mount's root. -/
theorem C15_refuted_bind :
    exOriginBind.lower.WF ∧ exOriginBind.upper.WF ∧ Spec.origin exOriginBind (str "D") [str "d"] [str "n", str "y"] = some [str "d", str "x"] ∧
    sourcePath exOriginBind (str "D") [str "d"] [str "n", str "y"] = none := by decide +kernel

end SB
