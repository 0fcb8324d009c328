import Verif.Lib.FSOps
import Verif.Model.RmdirRec
import Mathlib.Data.List.Perm.Subperm

/-!
# C53: recursive removal stays inside its tree and device
-/

namespace SB

/-- The effect of a recursive removal of `p` (device `dev`) so far: a well-formed tree in which only nodes at or below `p` and on
device `dev` are missing. -/
structure RmInv (p : Path) (dev : Nat) (fs fs' : FS) : Prop where
  wf : fs'.WF
  out : ∀ q, ¬ p <+: q → fs'.get q = fs.get q
  sub : ∀ q, fs'.get q = fs.get q ∨ (fs'.get q = none)
  dev : ∀ q n, fs.get q = some n → n.dev ≠ dev → fs'.get q = fs.get q

theorem RmInv.refl {p : Path} {dev : Nat} {fs : FS} (h : fs.WF) : RmInv p dev fs fs :=
  ⟨h, fun _ _ => rfl, fun _ => Or.inl rfl, fun _ _ _ _ => rfl⟩

theorem RmInv.trans {p q : Path} {dev : Nat} {a b c : FS} (hqp : p <+: q) (h1 : RmInv p dev a b) (h2 : RmInv q dev b c) :
    RmInv p dev a c := by
  refine ⟨h2.wf, fun r hr => ?_, fun r => ?_, fun r n hn hd => ?_⟩
  · rw [h2.out r (fun h => hr (hqp.trans h)), h1.out r hr]
  · rcases h2.sub r with h | h
    · rw [h]; exact h1.sub r
    · right; exact h
  · have := h1.dev r n hn hd
    rw [h2.dev r n (by rw [this, hn]) hd, this]

theorem RmInv.del {p : Path} {dev : Nat} {fs : FS} {n : Node} (h : fs.WF) (hg : fs.get p = some n) (hd : n.dev = dev)
    (hp : p ≠ []) (hc : ∀ q, Below p q → fs.get q = none) : RmInv p dev fs (fs.del p) := by
  refine ⟨h.del hp hc, fun q hq => ?_, fun q => ?_, fun q m hm hmd => ?_⟩
  · rw [FS.get_del, if_neg]; rintro rfl; exact hq (List.prefix_refl _)
  · rw [FS.get_del]; split
    · right; rfl
    · left; rfl
  · rw [FS.get_del, if_neg]; rintro rfl; rw [hg] at hm; cases hm; exact hmd hd

theorem faulty_ok {fault : Fault} {q : Path} {r : Except Errno FS} {x : FS} (h : faulty fault q r = .ok x) : r = .ok x := by
  unfold faulty at h; cases hf : fault q <;> rw [hf] at h <;> simp at h; exact h

theorem mem_children {fs : FS} {p q : Path} : q ∈ fs.children p ↔ q ∈ fs.keys ∧ q ≠ [] ∧ q.dropLast = p := by
  simp [FS.children]

theorem child_below {p q : Path} (h : q ≠ []) (hd : q.dropLast = p) : Below p q := by
  rw [← hd]; exact dropLast_below h

/-- Loop invariant. -/
theorem rmEntries_inv {fault : Fault} {rec : FS → Path → FS × Option RmErr} {dev : Nat} {p : Path}
    (hrec : ∀ fs q n, fs.WF → fs.get q = some n → n.dev = dev → n.isDir = true → q ≠ [] → RmInv q dev fs (rec fs q).1 ∧
      ((rec fs q).2 = none → ∀ r, q <+: r → (rec fs q).1.get r = none)) :
    ∀ (qs : List Path) (fs : FS), fs.WF → (∀ q ∈ qs, q ≠ [] ∧ q.dropLast = p) →
      RmInv p dev fs (rmEntries fault rec dev qs fs).1 ∧
      ((rmEntries fault rec dev qs fs).2 = none → ∀ q ∈ qs, ∀ r, q <+: r → (rmEntries fault rec dev qs fs).1.get r = none) := by
  intro qs
  induction qs with
  | nil => intro fs hw _; exact ⟨RmInv.refl hw, fun _ q hq => by cases hq⟩
  | cons q qs ih =>
    intro fs hw hch
    obtain ⟨hq0, hqd⟩ := hch q (by simp)
    have hch' : ∀ q ∈ qs, q ≠ [] ∧ q.dropLast = p := fun q h => hch q (List.mem_cons_of_mem _ h)
    have hpq : p <+: q := (child_below hq0 hqd).prefix
    -- what follows from finishing the rest after `q` has been removed completely
    have finish : ∀ fs1, RmInv q dev fs fs1 → (∀ r, q <+: r → fs1.get r = none) →
        RmInv p dev fs (rmEntries fault rec dev qs fs1).1 ∧
        ((rmEntries fault rec dev qs fs1).2 = none → ∀ q' ∈ q :: qs, ∀ r, q' <+: r → (rmEntries fault rec dev qs fs1).1.get r = none) := by
      intro fs1 hinv hgone
      obtain ⟨h1, h2⟩ := ih fs1 hinv.wf hch'
      refine ⟨?_, fun hok q' hq' r hr => ?_⟩
      · refine ⟨h1.wf, fun r hr => ?_, fun r => ?_, fun r n hn hd => ?_⟩
        · rw [h1.out r hr, hinv.out r (fun h => hr (hpq.trans h))]
        · rcases h1.sub r with h | h
          · rw [h]; exact hinv.sub r
          · right; exact h
        · have := hinv.dev r n hn hd
          rw [h1.dev r n (by rw [this, hn]) hd, this]
      · rcases List.mem_cons.1 hq' with rfl | hq'
        · rcases h1.sub r with h | h
          · rw [h, hgone r hr]
          · exact h
        · exact h2 hok q' hq' r hr
    simp only [rmEntries]
    cases hg : fs.get q with
    | none => exact ⟨RmInv.refl hw, fun h => by cases h⟩
    | some n =>
      simp only
      split
      · exact ⟨RmInv.refl hw, fun h => by cases h⟩
      · rename_i hdev
        have hdev : n.dev = dev := by simpa using hdev
        split
        · rename_i hdir
          obtain ⟨hi, hgone⟩ := hrec fs q n hw hg hdev hdir hq0
          cases hr : rec fs q with
          | mk fs1 err =>
            rw [hr] at hi hgone
            cases err with
            | none => exact finish fs1 hi (hgone rfl)
            | some e =>
              refine ⟨?_, fun h => by cases h⟩
              exact RmInv.trans hpq (RmInv.refl hw) hi
        · rename_i hdir
          have hdir : n.isDir = false := by simpa using hdir
          cases hr : faulty fault q (fs.unlink q) with
          | error e => exact ⟨RmInv.refl hw, fun h => by cases h⟩
          | ok fs1 =>
            have hu := faulty_ok hr
            rw [hw.unlink_eq hg hdir] at hu
            cases hu
            have hi := RmInv.del hw hg hdev hq0 (fun r hr => hw.no_child hg hdir hr)
            refine finish _ hi (fun r hr => ?_)
            rw [FS.get_del]
            split
            · rfl
            · rename_i hne
              exact hw.no_child hg hdir (below_iff.2 ⟨hr, hne⟩)

theorem rmdirRecN_inv (fault : Fault) : ∀ (k : Nat) (fs : FS) (p : Path) (d : Node), fs.WF → fs.get p = some d → p ≠ [] →
    RmInv p d.dev fs (rmdirRecN fault k fs p).1 ∧
    ((rmdirRecN fault k fs p).2 = none → ∀ r, p <+: r → (rmdirRecN fault k fs p).1.get r = none) := by
  intro k
  induction k with
  | zero => intro fs p d hw _ _; exact ⟨RmInv.refl hw, fun h => by cases h⟩
  | succ k ih =>
    intro fs p d hw hg hp
    simp only [rmdirRecN, hg]
    split
    · exact ⟨RmInv.refl hw, fun h => by cases h⟩
    · have hloop := rmEntries_inv (fault := fault) (rec := rmdirRecN fault k) (dev := d.dev) (p := p) (by
        intro fs q n hw hq hd _ hq0
        have := ih fs q n hw hq hq0
        rw [hd] at this
        exact this) (fs.children p) fs hw (fun q hq => (mem_children.1 hq).2)
      cases hr : rmEntries fault (rmdirRecN fault k) d.dev (fs.children p) fs with
      | mk fs1 err =>
        rw [hr] at hloop
        obtain ⟨h1, h2⟩ := hloop
        simp only at h1 h2
        cases err with
        | some e => exact ⟨h1, fun h => by cases h⟩
        | none =>
          simp only
          cases hrm : faulty fault p (fs1.rmdir p) with
          | error e => exact ⟨h1, fun h => by cases h⟩
          | ok fs2 =>
            simp only
            obtain ⟨c, n, hc, hgc, hd, hc0, hh, rfl⟩ := FS.rmdir_ok (faulty_ok hrm)
            have hcp : c = p := by
              have hsome : ∃ m, fs1.get p = some m := by
                rcases h1.sub p with h | h
                · exact ⟨d, by rw [h, hg]⟩
                · exfalso
                  -- the parent of `p` is still there, so resolving `p` gives `p` itself, which would be missing
                  have hch : fs1.Chain p := by
                    intro r hr
                    have := hw.ancestor hg hr
                    rw [FS.isDirAt_congr (gs := fs) (h1.out r hr.not_prefix)]
                    exact this
                  rw [FS.canon_chain (hw.normal_of_get hg) hch] at hc
                  cases hc
                  rw [h] at hgc; cases hgc
              obtain ⟨m, hm⟩ := hsome
              rw [h1.wf.canon_get hm] at hc
              cases hc; rfl
            subst hcp
            have hdev : n.dev = d.dev := by
              rcases h1.sub c with h | h
              · rw [hgc, hg] at h; cases h; rfl
              · rw [h] at hgc; cases hgc
            have hnone := FS.del_hasChild_none hh
            refine ⟨RmInv.trans (List.prefix_refl _) h1 (RmInv.del h1.wf hgc hdev hp hnone), fun _ r hr => ?_⟩
            rw [FS.get_del]
            split
            · rfl
            · rename_i hne; exact hnone r (below_iff.2 ⟨hr, hne⟩)

/-- **C53**, containment: whatever fails, at every failure point, paths outside the removed directory are untouched, nothing is modified
(paths inside keep their node or are gone) and everything on another device is still there. Symbolic links are not followed: what a link
inside the directory points to is either outside (untouched) or removed as part of the directory itself. -/
theorem C53_stays_inside (fault : Fault) (fs : FS) (p : Path) (d : Node) (hw : fs.WF) (hg : fs.get p = some d) (hp : p ≠ []) :
    let fs' := (rmdirRecursiveF fault fs p).1
    (∀ q, ¬ p <+: q → fs'.get q = fs.get q) ∧
    (∀ q, fs'.get q = fs.get q ∨ fs'.get q = none) ∧
    (∀ q n, fs.get q = some n → n.dev ≠ d.dev → fs'.get q = some n) ∧ fs'.WF := by
  have h := (rmdirRecN_inv fault (fs.length + 1) fs p d hw hg hp).1
  exact ⟨h.out, h.sub, fun q n hq hd => by rw [← hq]; exact h.dev q n hq hd, h.wf⟩

/-- **C53**, completeness: after success nothing is left of the directory. -/
theorem C53_success_removes_all (fault : Fault) (fs : FS) (p : Path) (d : Node) (hw : fs.WF) (hg : fs.get p = some d) (hp : p ≠ [])
    (hok : (rmdirRecursiveF fault fs p).2 = none) : ∀ q, p <+: q → (rmdirRecursiveF fault fs p).1.get q = none :=
  (rmdirRecN_inv fault (fs.length + 1) fs p d hw hg hp).2 hok

/-- **C53**: consequently a removal that meets another device reports an error. -/
theorem C53_other_device_fails (fault : Fault) (fs : FS) (p q : Path) (d n : Node) (hw : fs.WF) (hg : fs.get p = some d) (hp : p ≠ [])
    (hq : fs.get q = some n) (hpq : p <+: q) (hdev : n.dev ≠ d.dev) : (rmdirRecursiveF fault fs p).2 ≠ none := by
  intro hok
  have h1 := C53_success_removes_all fault fs p d hw hg hp hok q hpq
  have h2 := (C53_stays_inside fault fs p d hw hg hp).2.2.1 q n hq hdev
  rw [h1] at h2; cases h2

/-! ### success -/

/-- All nodes at or below `p` are on device `dev` and at most `k` levels deeper. -/
def Shallow (fs : FS) (p : Path) (dev k : Nat) : Prop :=
  ∀ q n, p <+: q → fs.get q = some n → n.dev = dev ∧ q.length < p.length + k

theorem rmEntries_succeeds {rec : FS → Path → FS × Option RmErr} {dev : Nat} {p : Path} {k : Nat}
    (hrec : ∀ fs q n, fs.WF → fs.get q = some n → n.dev = dev → n.isDir = true → q ≠ [] → Shallow fs q dev k → fs.devOf q.dropLast = dev →
      (rec fs q).2 = none ∧ RmInv q dev fs (rec fs q).1) :
    ∀ (qs : List Path) (fs : FS), fs.WF → fs.devOf p = dev → qs.Nodup → (∀ q ∈ qs, q ≠ [] ∧ q.dropLast = p ∧ fs.get q ≠ none) →
      (∀ q ∈ qs, Shallow fs q dev k) →
      (rmEntries (fun _ => none) rec dev qs fs).2 = none := by
  intro qs
  induction qs with
  | nil => intro fs _ _ _ _ _; rfl
  | cons q qs ih =>
    intro fs hw hpd hnd hch hsh
    rw [List.nodup_cons] at hnd
    obtain ⟨hq0, hqd, hqg⟩ := hch q (by simp)
    have next : ∀ fs1, RmInv q dev fs fs1 → (rmEntries (fun _ => none) rec dev qs fs1).2 = none := by
      intro fs1 hi
      refine ih fs1 hi.wf (by rw [← hpd, FS.devOf, hi.out p (child_below hq0 hqd).not_prefix, FS.devOf]) hnd.2 (fun q' hq' => ?_) (fun q' hq' => ?_)
      · obtain ⟨h0, hd, hg⟩ := hch q' (List.mem_cons_of_mem _ hq')
        refine ⟨h0, hd, ?_⟩
        rw [hi.out q']
        · exact hg
        · intro hpre
          apply hnd.1
          have : q = q' := by
            apply hpre.eq_of_length
            have h1 : q.length - 1 = p.length := by rw [← hqd]; simp
            have h2 : q'.length - 1 = p.length := by rw [← hd]; simp
            have := List.length_pos_of_ne_nil hq0
            have := List.length_pos_of_ne_nil h0
            omega
          rw [this]; exact hq'
      · intro r n hr hn
        rcases hi.sub r with h | h
        · exact hsh q' (List.mem_cons_of_mem _ hq') r n hr (by rw [← h, hn])
        · rw [h] at hn; cases hn
    simp only [rmEntries]
    cases hg : fs.get q with
    | none => exact absurd hg hqg
    | some n =>
      have hdev := (hsh q (by simp) q n (List.prefix_refl _) hg).1
      simp only [hdev, ne_eq, not_true_eq_false, if_false]
      split
      · rename_i hdir
        obtain ⟨h1, h2⟩ := hrec fs q n hw hg hdev hdir hq0 (hsh q (by simp)) (by rw [hqd, hpd])
        cases hr : rec fs q with
        | mk fs1 err =>
          rw [hr] at h1 h2
          simp only at h1 h2
          subst h1
          exact next fs1 h2
      · rename_i hdir
        have hdir : n.isDir = false := by simpa using hdir
        simp only [faulty]
        rw [hw.unlink_eq hg hdir]
        exact next _ (RmInv.del hw hg hdev hq0 (fun r hr => hw.no_child hg hdir hr))

theorem rmdirRecN_succeeds : ∀ (k : Nat) (fs : FS) (p : Path) (d : Node), fs.WF → fs.get p = some d → d.isDir = true → p ≠ [] →
    Shallow fs p d.dev k → fs.devOf p.dropLast = d.dev → (rmdirRecN (fun _ => none) k fs p).2 = none := by
  intro k
  induction k with
  | zero =>
    intro fs p d _ hg _ _ hs _
    have := (hs p d (List.prefix_refl _) hg).2
    omega
  | succ k ih =>
    intro fs p d hw hg hd hp hs hpar
    simp only [rmdirRecN, hg, hd, Bool.not_true, Bool.false_eq_true, if_false]
    have hchild : ∀ q ∈ fs.children p, Shallow fs q d.dev k := by
      intro q hq r n hr hn
      obtain ⟨_, hq0, hqd⟩ := mem_children.1 hq
      have hpq := (child_below hq0 hqd).prefix
      have := hs r n (hpq.trans hr) hn
      have h1 : q.length - 1 = p.length := by rw [← hqd]; simp
      have := List.length_pos_of_ne_nil hq0
      exact ⟨‹_ ∧ _›.1, by omega⟩
    have hloop := rmEntries_inv (fault := fun _ => none) (rec := rmdirRecN (fun _ => none) k) (dev := d.dev) (p := p) (by
        intro fs q n hw hq hd _ hq0
        have := rmdirRecN_inv (fun _ => none) k fs q n hw hq hq0
        rw [hd] at this
        exact this) (fs.children p) fs hw (fun q hq => (mem_children.1 hq).2)
    have hok := rmEntries_succeeds (rec := rmdirRecN (fun _ => none) k) (dev := d.dev) (p := p) (k := k) (by
        intro fs q n hw hq hdv hdir hq0 hsh hqp
        have h1 := rmdirRecN_inv (fun _ => none) k fs q n hw hq hq0
        have h2 := ih fs q n hw hq hdir hq0 (by rw [hdv]; exact hsh) (by rw [hqp, hdv])
        rw [hdv] at h1
        exact ⟨h2, h1.1⟩) (fs.children p) fs hw (by simp [FS.devOf, hg]) (hw.nodup.filter _) (by
        intro q hq
        obtain ⟨h1, h2, h3⟩ := mem_children.1 hq
        obtain ⟨n, hn⟩ := FS.mem_keys.1 h1
        exact ⟨h2, h3, by rw [hn]; simp⟩) hchild
    cases hr : rmEntries (fun _ => none) (rmdirRecN (fun _ => none) k) d.dev (fs.children p) fs with
    | mk fs1 err =>
      rw [hr] at hloop hok
      obtain ⟨h1, h2⟩ := hloop
      simp only at h1 h2 hok
      subst hok
      have h2 := h2 rfl
      have hbelow : ∀ q, Below p q → fs1.get q = none := by
        intro q hq
        obtain ⟨r, hr0, rfl⟩ := hq
        cases r with
        | nil => exact absurd rfl hr0
        | cons x r =>
          cases hx : fs.get (p ++ [x]) with
          | none =>
            rcases h1.sub (p ++ x :: r) with h | h
            · rw [h]
              cases r with
              | nil => exact hx
              | cons y r => exact hw.none_below hx ⟨y :: r, by simp, by simp⟩
            · exact h
          | some n =>
            exact h2 (p ++ [x]) (mem_children.2 ⟨FS.mem_keys.2 ⟨n, hx⟩, by simp, by simp⟩) _ ⟨r, by simp⟩
      -- `p` itself is still a directory: removing its children did not touch it
      have hpg : fs1.get p = some d := by
        have key : ∀ (qs : List Path) (gs : FS), gs.WF → (∀ q ∈ qs, q ≠ [] ∧ q.dropLast = p) →
            (rmEntries (fun _ => none) (rmdirRecN (fun _ => none) k) d.dev qs gs).1.get p = gs.get p := by
          intro qs
          induction qs with
          | nil => intro gs _ _; rfl
          | cons q qs ihq =>
            intro gs hgw hqs
            obtain ⟨hq0, hqd⟩ := hqs q (by simp)
            have hb := child_below hq0 hqd
            have hnp : ¬ q <+: p := hb.not_prefix
            simp only [rmEntries]
            cases hgq : gs.get q with
            | none => rfl
            | some n =>
              simp only
              split
              · rfl
              · split
                · have hi := (rmdirRecN_inv (fun _ => none) k gs q n hgw hgq hq0).1
                  cases hrr : rmdirRecN (fun _ => none) k gs q with
                  | mk gs1 e1 =>
                    rw [hrr] at hi
                    cases e1 with
                    | none =>
                      simp only
                      rw [ihq gs1 hi.wf (fun q h => hqs q (List.mem_cons_of_mem _ h)), hi.out p hnp]
                    | some e => exact hi.out p hnp
                · rename_i hdir
                  have hdir : n.isDir = false := by simpa using hdir
                  simp only [faulty]
                  rw [hgw.unlink_eq hgq hdir]
                  simp only
                  rw [ihq _ (hgw.del_nondir hgq hdir) (fun q h => hqs q (List.mem_cons_of_mem _ h)), FS.get_del, if_neg]
                  rintro rfl; exact hnp (List.prefix_refl _)
        have := key (fs.children p) fs hw (fun q hq => (mem_children.1 hq).2)
        rw [hr] at this
        simpa [hg] using this
      simp only [faulty]
      have hmp : fs1.mountPoint p = false := by
        have h3 : fs1.devOf p.dropLast = d.dev := by
          rw [← hpar, FS.devOf, h1.out _ (dropLast_below hp).not_prefix, FS.devOf]
        have h4 : fs1.devOf p = d.dev := by simp [FS.devOf, hpg]
        simp [FS.mountPoint, h3, h4]
      rw [h1.wf.rmdir_eq hpg hd hp hmp hbelow]

/-- In a well-formed tree every path is shorter than the number of nodes. -/
theorem depth_lt_length {fs : FS} (hw : fs.WF) {q : Path} {n : Node} (hq : fs.get q = some n) : q.length < fs.length := by
  have hsub : q.inits ⊆ fs.keys := by
    intro r hr
    rw [List.mem_inits] at hr
    by_cases h : r = q
    · rw [h]; exact FS.mem_keys.2 ⟨n, hq⟩
    · obtain ⟨m, hm, _⟩ := FS.isDirAt_iff.1 (hw.ancestor hq (below_iff.2 ⟨hr, h⟩))
      exact FS.mem_keys.2 ⟨m, hm⟩
  have hnd : q.inits.Nodup := by
    clear hsub hq
    induction q with
    | nil => simp
    | cons a t ih =>
      rw [List.inits_cons, List.nodup_cons]
      refine ⟨by simp, ih.map (fun a b h => by simpa using h)⟩
  have := (List.subperm_of_subset hnd hsub).length_le
  simp [FS.keys, List.length_inits] at this
  omega

/-- **C53**: removing a directory tree that is on one device, and not itself a mount point, succeeds (no failure injected) and leaves exactly
everything else. -/
theorem C53_succeeds (fs : FS) (p : Path) (d : Node) (hw : fs.WF) (hg : fs.get p = some d) (hd : d.isDir = true) (hp : p ≠ [])
    (hdev : ∀ q n, p <+: q → fs.get q = some n → n.dev = d.dev) (hpar : ∀ n, fs.get p.dropLast = some n → n.dev = d.dev) :
    (rmdirRecursive fs p).2 = none ∧ ∀ q, (rmdirRecursive fs p).1.get q = if p <+: q then none else fs.get q := by
  have hok : (rmdirRecursive fs p).2 = none := by
    refine rmdirRecN_succeeds (fs.length + 1) fs p d hw hg hd hp (fun q n hq hn => ⟨hdev q n hq hn, ?_⟩) (by
      obtain ⟨m, hm, _⟩ := FS.isDirAt_iff.1 (hw.ancestor hg (dropLast_below hp))
      simp [FS.devOf, hm, hpar m hm])
    have := depth_lt_length hw hn
    omega
  refine ⟨hok, fun q => ?_⟩
  split
  · exact C53_success_removes_all (fun _ => none) fs p d hw hg hp hok q ‹_›
  · exact (C53_stays_inside (fun _ => none) fs p d hw hg hp).1 q ‹_›

namespace RmEx

/-- `/a` holds a link to `/b`, a file and a directory; `/m/x` is on another device. -/
def fs : FS :=
  [ ([], { kind := .dir }), ([str "a"], { kind := .dir }), ([str "a", str "l"], { kind := .lnk (str "/b") }),
    ([str "a", str "s"], { kind := .dir }), ([str "a", str "s", str "f"], { kind := .reg (str "f") }),
    ([str "b"], { kind := .dir }), ([str "b", str "g"], { kind := .reg (str "g") }),
    ([str "m"], { kind := .dir }), ([str "m", str "x"], { kind := .dir, dev := 1 }) ]

example : fs.WF ∧ (rmdirRecursive fs [str "a"]).2 = none ∧
    (rmdirRecursive fs [str "a"]).1.keys = [[], [str "b"], [str "b", str "g"], [str "m"], [str "m", str "x"]] := by decide
example : (rmdirRecursive fs [str "m"]).2 = some (.otherDevice [str "m", str "x"]) ∧ (rmdirRecursive fs [str "m"]).1 = fs := by decide
/-- An injected failure stops it half-way. -/
example : (rmdirRecursiveF (fun q => if q = [str "a", str "s"] then some .EBUSY else none) fs [str "a"]).2 = some (.os .EBUSY) ∧
    (rmdirRecursiveF (fun q => if q = [str "a", str "s"] then some .EBUSY else none) fs [str "a"]).1.length = 7 := by decide

end RmEx

end SB
