import Verif.Lib.FSOps
import Verif.Lib.AcceptLemmas

/-! Effects of successful system calls on paths none of whose ancestors is a symbolic link (proof machinery). -/

namespace SB
namespace FS

/-- No proper ancestor of `x` is a symbolic link. -/
def NoLinkAbove (fs : FS) (x : Path) : Prop := ∀ y, Below y x → ∀ n, fs.get y = some n → n.isLnk = false

/-- All paths of `T` are free of symbolic links above them. -/
def Clear (T : Path → Prop) (fs : FS) : Prop := ∀ x, T x → fs.NoLinkAbove x

theorem Clear.mono {T U : Path → Prop} {fs : FS} (h : fs.Clear T) (hu : ∀ x, U x → T x) : fs.Clear U :=
  fun x hx => h x (hu x hx)

theorem noLinkAbove_of_chain {fs : FS} {x : Path} (h : fs.Chain x) : fs.NoLinkAbove x := by
  intro y hy n hn
  obtain ⟨m, hm, hd⟩ := isDirAt_iff.1 (h y hy)
  rw [hn] at hm; cases hm
  have : n.kind = .dir := by simpa [Node.isDir] using hd
  simp [Node.isLnk, this, Kind.isLnk]

theorem canon_ok_chain {fs : FS} (hw : fs.WF) {p : Path} (hN : NormalPath p) (hl : fs.NoLinkAbove p) {c : Path}
    (h : fs.canon p = .ok c) : c = p ∧ fs.Chain p := by
  have hc := canon_nolink hN hl h
  refine ⟨hc, ?_⟩
  rcases canon_ok_normal_last h with ⟨rfl, _⟩ | ⟨d, l, hdl, hd, _⟩
  · intro q hq; obtain ⟨r, hr, h⟩ := hq; simp at h; exact absurd h.2 hr
  · rw [hc] at hdl
    intro q hq
    have := prefix_dropLast_of_below hq
    rw [hdl, List.dropLast_concat] at this
    obtain ⟨n, hn, hnd⟩ := isDirAt_iff.1 hd
    by_cases hqd : q = d
    · rw [hqd]; exact hd
    · exact hw.ancestor hn (below_iff.2 ⟨this, hqd⟩)

/-- `set` changes one path. -/
theorem clear_set {T : Path → Prop} {fs : FS} (h : fs.Clear T) {p : Path} {n : Node}
    (hn : n.isLnk = true → (∃ m, fs.get p = some m ∧ m.isLnk = true) ∨ ∀ x, T x → ¬ Below p x) : (fs.set p n).Clear T := by
  intro x hx y hy m hm
  rw [get_set] at hm
  split at hm
  · rename_i hpy
    cases hm
    subst hpy
    by_contra hl
    have hl : n.isLnk = true := by simpa using hl
    rcases hn hl with ⟨m', hm', hl'⟩ | hno
    · have := h x hx p hy m' hm'; rw [this] at hl'; cases hl'
    · exact hno x hx hy
  · exact h x hx y hy m hm

theorem clear_del {T : Path → Prop} {fs : FS} (h : fs.Clear T) (p : Path) : (fs.del p).Clear T := by
  intro x hx y hy m hm
  rw [get_del] at hm
  split at hm
  · cases hm
  · exact h x hx y hy m hm

/-! Successful calls. `hN`, `hl`: the path is a plain path without links above it. -/

theorem unlink_plain {fs gs : FS} {p : Path} (hw : fs.WF) (hN : NormalPath p) (hl : fs.NoLinkAbove p)
    (h : fs.unlink p = .ok gs) : gs = fs.del p ∧ gs.WF ∧ ∃ n, fs.get p = some n ∧ n.isDir = false := by
  obtain ⟨c, n, hc, hg, hd, rfl⟩ := unlink_ok h
  obtain ⟨rfl, _⟩ := canon_ok_chain hw hN hl hc
  exact ⟨rfl, hw.del_nondir hg hd, n, hg, hd⟩

theorem rmdir_plain {fs gs : FS} {p : Path} (hw : fs.WF) (hN : NormalPath p) (hl : fs.NoLinkAbove p)
    (h : fs.rmdir p = .ok gs) : gs = fs.del p ∧ gs.WF ∧ (∃ n, fs.get p = some n ∧ n.isDir = true) ∧
      ∀ q, Below p q → fs.get q = none := by
  obtain ⟨c, n, hc, hg, hd, hc0, hh, rfl⟩ := rmdir_ok h
  obtain ⟨rfl, _⟩ := canon_ok_chain hw hN hl hc
  exact ⟨rfl, hw.del hc0 (del_hasChild_none hh), ⟨n, hg, hd⟩, del_hasChild_none hh⟩

theorem mkdir_plain {fs gs : FS} {p : Path} (hw : fs.WF) (hN : NormalPath p) (hl : fs.NoLinkAbove p)
    (h : fs.mkdir p = .ok gs) : gs = fs.set p { kind := .dir, perm := 0o755, dev := fs.devOf p.dropLast } ∧ gs.WF ∧ fs.get p = none := by
  unfold mkdir at h
  cases hc : fs.canon p with
  | error e => rw [hc] at h; cases h
  | ok c =>
    rw [hc] at h
    obtain ⟨rfl, hch⟩ := canon_ok_chain hw hN hl hc
    cases hg : fs.get c with
    | some n => simp [hg] at h
    | none =>
      simp only [hg, Except.ok.injEq] at h
      subst h
      exact ⟨rfl, hw.set hN hch (fun h => by simp [Node.isDir] at h), rfl⟩

theorem symlink_plain {fs gs : FS} {p : Path} {t : Str} (hw : fs.WF) (hN : NormalPath p) (hl : fs.NoLinkAbove p)
    (h : fs.symlink t p = .ok gs) :
    gs = fs.set p { kind := .lnk t, perm := 0o777, dev := fs.devOf p.dropLast } ∧ gs.WF ∧ fs.get p = none := by
  unfold symlink at h
  cases hc : fs.canon p with
  | error e => rw [hc] at h; cases h
  | ok c =>
    rw [hc] at h
    obtain ⟨rfl, hch⟩ := canon_ok_chain hw hN hl hc
    cases hg : fs.get c with
    | some n => simp [hg] at h
    | none =>
      simp only [hg, Except.ok.injEq] at h
      subst h
      refine ⟨rfl, hw.set hN hch (fun _ => ⟨?_, fun q hq => hw.none_below hg hq⟩), rfl⟩
      rintro rfl
      obtain ⟨m, hm, _⟩ := isDirAt_iff.1 hw.root
      rw [hm] at hg; cases hg

theorem writeFile_plain {fs gs : FS} {p : Path} {d : Str} {m : Nat} (hw : fs.WF) (hN : NormalPath p) (hl : fs.NoLinkAbove p)
    (h : fs.writeFile p d m = .ok gs) :
    ∃ n, gs = fs.set p n ∧ n.kind = .reg d ∧ n.perm = m ∧ gs.WF ∧ ∀ o, fs.get p = some o → o.isReg = true := by
  unfold writeFile at h
  cases hc : fs.canon p with
  | error e => rw [hc] at h; cases h
  | ok c =>
    rw [hc] at h
    obtain ⟨rfl, hch⟩ := canon_ok_chain hw hN hl hc
    cases hg : fs.get c with
    | none =>
      simp only [hg, Except.ok.injEq] at h
      subst h
      refine ⟨_, rfl, rfl, rfl, hw.set hN hch (fun _ => ⟨?_, fun q hq => hw.none_below hg hq⟩), by simp⟩
      rintro rfl
      obtain ⟨m, hm, _⟩ := isDirAt_iff.1 hw.root
      rw [hm] at hg; cases hg
    | some n =>
      simp only [hg] at h
      cases hk : n.kind <;> simp [hk] at h
      subst h
      have hd : n.isDir = false := by simp [Node.isDir, hk]
      refine ⟨_, rfl, rfl, rfl, hw.set hN hch (fun _ => ⟨hw.ne_nil hg hd, fun q hq => hw.no_child hg hd hq⟩), ?_⟩
      rintro o ho; cases ho; simp [Node.isReg, hk, Kind.isReg]

theorem chown_plain {fs gs : FS} {p : Path} {u g : Nat} (hw : fs.WF) (hN : NormalPath p) (hl : fs.NoLinkAbove p)
    (h : fs.chown p u g = .ok gs) : ∃ n, fs.get p = some n ∧ gs.WF ∧
      gs = fs.set p { n with uid := u, gid := g, perm := if n.isDir then n.perm else killSuid n.perm } := by
  unfold chown at h
  cases hc : fs.canon p with
  | error e => rw [hc] at h; cases h
  | ok c =>
    rw [hc] at h
    obtain ⟨rfl, hch⟩ := canon_ok_chain hw hN hl hc
    cases hg : fs.get c with
    | none => simp [hg] at h
    | some n =>
      simp only [hg, Except.ok.injEq] at h
      subst h
      exact ⟨n, rfl, hw.set hN hch (fun hd => ⟨hw.ne_nil hg hd, fun q hq => hw.no_child hg hd hq⟩), rfl⟩

theorem chmod_plain {fs gs : FS} {p : Path} {m : Nat} (hw : fs.WF) (hN : NormalPath p) (hl : fs.NoLinkAbove p)
    (h : fs.chmod p m = .ok gs) : ∃ n, fs.get p = some n ∧ n.isLnk = false ∧ gs.WF ∧ gs = fs.set p { n with perm := m } := by
  unfold chmod at h
  cases hc : fs.canon p with
  | error e => rw [hc] at h; cases h
  | ok c =>
    rw [hc] at h
    obtain ⟨rfl, hch⟩ := canon_ok_chain hw hN hl hc
    cases hg : fs.get c with
    | none => simp [hg] at h
    | some n =>
      simp only [hg] at h
      split at h
      · cases h
      · rename_i hnl
        simp only [Except.ok.injEq] at h
        subst h
        exact ⟨n, rfl, by simpa using hnl, hw.set hN hch (fun hd => ⟨hw.ne_nil hg hd, fun q hq => hw.no_child hg hd hq⟩), rfl⟩

/-- What a successful rename of `a` to `b` requires and does. -/
structure Renamed (fs gs : FS) (a b : Path) : Prop where
  ex : ∃ n, fs.get a = some n ∧
    (n.isDir = true → ∀ q, Below b q → fs.get q = none) ∧ (∀ m, fs.get b = some m → m.isDir = n.isDir)
  notab : ¬ a <+: b
  notba : ¬ b <+: a
  get : ∀ q, gs.get q = if b <+: q then fs.get (a ++ q.drop b.length) else if a <+: q then none else fs.get q

theorem WF.moveTree {fs : FS} (hw : fs.WF) {a b : Path} {n : Node} (hga : fs.get a = some n) (hab : ¬ a <+: b) (hba : ¬ b <+: a)
    (hN : NormalPath b) (hch : fs.Chain b) : (fs.moveTree a b).WF := by
  have hb0 : b ≠ [] := by rintro rfl; exact hba List.nil_prefix
  have ha0 : a ≠ [] := by rintro rfl; exact hab List.nil_prefix
  have hget := get_moveTree fs hab hba
  have dirkeep : ∀ p, fs.isDirAt p = true → ¬ a <+: p → ¬ b <+: p → (fs.moveTree a b).isDirAt p = true := by
    intro p hp h1 h2
    rw [isDirAt_congr (gs := fs) (by rw [hget, if_neg h2, if_neg h1])]; exact hp
  refine WF.mk' (keys_moveTree_nodup hw.nodup a b) ?_ ?_ ?_
  · exact dirkeep [] hw.root (by simpa using ha0) (by simpa using hb0)
  · intro p m hg hp
    rw [hget] at hg
    split at hg
    · rename_i hbp
      obtain ⟨r, rfl⟩ := hbp
      rw [List.drop_left] at hg
      rcases List.eq_nil_or_concat r with rfl | ⟨r', l, rfl⟩
      · rw [List.append_nil]
        refine dirkeep _ (hch _ (dropLast_below hb0)) (fun h => hab (h.trans (List.dropLast_prefix b)))
          (dropLast_below hb0).not_prefix
      · rw [List.concat_eq_append] at *
        have hpar := hw.parent (a ++ (r' ++ [l])) (mem_keys.2 ⟨m, hg⟩) (by simp)
        rw [← List.append_assoc, List.dropLast_concat] at hpar ⊢
        obtain ⟨k, hk, hkd⟩ := isDirAt_iff.1 hpar
        refine isDirAt_iff.2 ⟨k, ?_, hkd⟩
        rw [hget, if_pos ⟨r', rfl⟩, List.drop_left]
        exact hk
    · rename_i hbp
      split at hg
      · cases hg
      · rename_i hap
        refine dirkeep _ (hw.parent p (mem_keys.2 ⟨m, hg⟩) hp) (fun h => hap (h.trans (List.dropLast_prefix p)))
          (fun h => hbp (h.trans (List.dropLast_prefix p)))
  · intro p m hg
    rw [hget] at hg
    split at hg
    · rename_i hbp
      obtain ⟨r, rfl⟩ := hbp
      rw [List.drop_left] at hg
      exact hN.append (hw.normal_of_get hg).of_append_right
    · split at hg
      · cases hg
      · exact hw.normal_of_get hg

theorem rename_plain {fs gs : FS} {a b : Path} (hw : fs.WF) (hNa : NormalPath a) (hla : fs.NoLinkAbove a) (hNb : NormalPath b)
    (hlb : fs.NoLinkAbove b) (hne : a ≠ b) (h : fs.rename a b = .ok gs) : Renamed fs gs a b ∧ gs.WF := by
  unfold rename at h
  cases hca : fs.canon a with
  | error e => rw [hca] at h; cases h
  | ok c =>
    rw [hca] at h
    simp only at h
    obtain ⟨rfl, hcha⟩ := canon_ok_chain hw hNa hla hca
    cases hcb : fs.canon b with
    | error e => rw [hcb] at h; cases h
    | ok d =>
      rw [hcb] at h
      obtain ⟨rfl, hchb⟩ := canon_ok_chain hw hNb hlb hcb
      simp only at h
      cases hga : fs.get c with
      | none => rw [hga] at h; cases h
      | some n =>
        rw [hga] at h
        simp only [if_neg hne] at h
        split at h
        · cases h
        · split at h
          · cases h
          · split at h
            · cases h
            · split at h
              · cases h
              · rename_i hab hba
                split at h
                · cases h
                rename_i hmpa
                have hab' : ¬ c <+: d := by rwa [List.isPrefixOf_iff_prefix] at hab
                have hba' : ¬ d <+: c := by rwa [List.isPrefixOf_iff_prefix] at hba
                have mk : gs = fs.moveTree c d → (n.isDir = true → ∀ q, Below d q → fs.get q = none) →
                    (∀ m, fs.get d = some m → m.isDir = n.isDir) → Renamed fs gs c d ∧ gs.WF := by
                  rintro rfl h1 h2
                  exact ⟨⟨⟨n, hga, h1, h2⟩, hab', hba', get_moveTree fs hab' hba'⟩, hw.moveTree hga hab' hba' hNb hchb⟩
                cases hgb : fs.get d with
                | none =>
                  rw [hgb] at h
                  simp only [Except.ok.injEq] at h
                  exact mk h.symm (fun _ q hq => hw.none_below hgb hq) (by simp [hgb])
                | some m =>
                  rw [hgb] at h
                  simp only at h
                  split at h
                  · rename_i hnd
                    split at h
                    · rename_i hmd
                      split at h
                      · cases h
                      split at h
                      · cases h
                      · rename_i hh
                        simp only [Except.ok.injEq] at h
                        refine mk h.symm (fun _ => del_hasChild_none (by simpa using hh)) ?_
                        rintro m' hm'; rw [hgb] at hm'; cases hm'; rw [hmd, hnd]
                    · cases h
                  · rename_i hnd
                    split at h
                    · cases h
                    · rename_i hmd
                      simp only [Except.ok.injEq] at h
                      refine mk h.symm (fun hd => absurd hd hnd) ?_
                      rintro m' hm'; rw [hgb] at hm'; cases hm'
                      simp at hnd hmd; rw [hmd, hnd]

theorem clear_renamed {T : Path → Prop} {fs gs : FS} {a b : Path} (h : fs.Clear T) (hr : Renamed fs gs a b)
    (hm : ∀ r n, fs.get (a ++ r) = some n → n.isLnk = true → ∀ x, T x → ¬ Below (b ++ r) x) : gs.Clear T := by
  intro x hx y hy n hn
  rw [hr.get] at hn
  split at hn
  · rename_i hby
    obtain ⟨r, rfl⟩ := hby
    rw [List.drop_left] at hn
    by_contra hl
    exact hm r n hn (by simpa using hl) x hx hy
  · split at hn
    · cases hn
    · exact h x hx y hy n hn

end FS
end SB
