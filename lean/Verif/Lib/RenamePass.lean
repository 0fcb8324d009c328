import Verif.Lib.RemovePass
import Verif.Props.FindMount

/-! The rename passes of accept succeed on independent renames (proof machinery). -/

namespace SB

open scoped List

namespace FS

/-- Without links on the way a path exists exactly when there is a node at it. -/
theorem pexists_iff {fs : FS} (hw : fs.WF) {p : Path} (hN : NormalPath p) (hl : ∀ q, q <+: p → ∀ n, fs.get q = some n → n.isLnk = false) :
    fs.pexists p = true ↔ ∃ n, fs.get p = some n := by
  constructor
  · intro h
    unfold pexists stat at h
    cases hr : fs.realpath p with
    | error x => rw [hr] at h; simp at h
    | ok c => exact (realpath_ok_get hw.root hN (fun y hy n hn => hl y hy.prefix n hn) hr).2
  · rintro ⟨n, hn⟩
    unfold pexists
    rw [stat_chain hN hw.root (hw.chain hn) (hl p (List.prefix_refl _)), hn]

theorem lstatDev_get {fs : FS} (hw : fs.WF) {p : Path} {n : Node} (h : fs.get p = some n) : lstatDev fs p = n.dev := by
  unfold lstatDev
  rw [lstat_chain (hw.normal_of_get h) (hw.chain h), h]

/-- The mount point of a path below mount `M`, with no other mount point on the way. -/
theorem findMountPoint_eq {fs : FS} (hw : fs.WF) {M p : Path} {dev : Nat} (hN : NormalPath p)
    (hl : ∀ q, q <+: p → ∀ n, fs.get q = some n → n.isLnk = false) (hM : ∃ m, fs.get M = some m)
    (hMt : M = [] ∨ ∀ m, fs.get M.dropLast = some m → m.dev ≠ dev) (hMp : M <+: p)
    (hdev : ∀ q n, M <+: q → q <+: p → fs.get q = some n → n.dev = dev) : findMountPoint fs p = M := by
  obtain ⟨q, hqp, hqe, hqm, hf, hfd, hft⟩ := C33_spec fs hw.root p
  have hex : ∀ r, r <+: p → (fs.pexists r = true ↔ ∃ n, fs.get r = some n) := fun r hr =>
    pexists_iff hw (hN.of_prefix hr) (fun q hq => hl q (hq.trans hr))
  obtain ⟨nq, hnq⟩ := (hex q hqp).1 hqe
  have hMq : M <+: q := by
    rcases prefix_total hqp hMp with h | h
    · by_cases he : q = M
      · rw [he]
      · have := hqm M hMp (below_iff.2 ⟨h, he⟩)
        rw [(hex M hMp).2 hM] at this; cases this
    · exact h
  have hdq : lstatDev fs q = dev := by rw [lstatDev_get hw hnq]; exact hdev q nq hMq hqp hnq
  have hget : ∀ r, r <+: q → ∃ n, fs.get r = some n := by
    intro r hr
    by_cases he : r = q
    · exact ⟨nq, by rw [he]; exact hnq⟩
    · obtain ⟨n, hn, _⟩ := isDirAt_iff.1 (hw.ancestor hnq (below_iff.2 ⟨hr, he⟩))
      exact ⟨n, hn⟩
  rw [hdq] at hfd hft
  rcases prefix_total hf hMq with h | h
  · by_cases he : findMountPoint fs p = M
    · exact he
    · have hb : Below (findMountPoint fs p) M := below_iff.2 ⟨h, he⟩
      have hM0 : M ≠ [] := by
        rintro rfl
        exact hb.not_prefix (List.nil_prefix)
      have h1 := prefix_dropLast_of_below hb
      have h2 : M.dropLast <+: q := (List.dropLast_prefix M).trans hMq
      obtain ⟨m, hm⟩ := hget _ h2
      have h3 := hfd _ h1 h2
      rw [lstatDev_get hw hm] at h3
      rcases hMt with h | h
      · exact absurd h hM0
      · exact absurd h3 (h m hm)
  · by_cases he : findMountPoint fs p = M
    · exact he
    · have hb : Below M (findMountPoint fs p) := below_iff.2 ⟨h, fun h => he h.symm⟩
      have h0 : findMountPoint fs p ≠ [] := by
        intro h0
        rw [h0] at hb
        exact hb.not_prefix List.nil_prefix
      rcases hft with h | h
      · exact absurd h h0
      · have h1 := prefix_dropLast_of_below hb
        have h2 : (findMountPoint fs p).dropLast <+: q := (List.dropLast_prefix _).trans hf
        obtain ⟨m, hm⟩ := hget _ h2
        rw [lstatDev_get hw hm] at h
        exact absurd (hdev _ m h1 (h2.trans hqp) hm) h

/-- `rename(2)` onto a free name succeeds. -/
theorem WF.rename_eq {fs : FS} (hw : fs.WF) {a b : Path} {n : Node} (hga : fs.get a = some n) (ha : a ≠ []) (hNb : NormalPath b) (hcb : fs.Chain b)
    (hgb : fs.get b = none) (hdev : fs.devOf a.dropLast = fs.devOf b.dropLast) (hm : n.isDir = true → fs.mountPoint a = false)
    (hab : ¬ a <+: b) : fs.rename a b = .ok (fs.moveTree a b) := by
  have hb : b ≠ [] := by
    rintro rfl
    obtain ⟨r, hr, _⟩ := isDirAt_iff.1 hw.root
    rw [hgb] at hr; cases hr
  have hba : ¬ b <+: a := by
    intro h
    by_cases he : b = a
    · subst he; rw [hgb] at hga; cases hga
    · obtain ⟨m, hm', _⟩ := isDirAt_iff.1 (hw.ancestor hga (below_iff.2 ⟨h, he⟩))
      rw [hgb] at hm'; cases hm'
  have hne : a ≠ b := fun h => hab (by rw [h])
  unfold rename
  rw [hw.canon_get hga, canon_chain hNb hcb]
  simp only [hga, hgb]
  rw [if_neg hne, if_neg (by simp [ha, hb]), if_neg (by simpa using hdev), if_neg (by simpa [List.isPrefixOf_iff_prefix] using hab),
    if_neg (by simpa [List.isPrefixOf_iff_prefix] using hba)]
  by_cases hd : n.isDir = true
  · rw [hm hd]; simp
  · simp [hd]

end FS

/-- A list of moves to free places, none of which disturbs another. -/
structure Moves (fs : FS) (L : List (Path × Path)) : Prop where
  src : ∀ p ∈ L, p.1 ≠ [] ∧ ∃ n, fs.get p.1 = some n ∧ (n.isDir = true → fs.mountPoint p.1 = false)
  dst : ∀ p ∈ L, NormalPath p.2 ∧ fs.Chain p.2 ∧ fs.get p.2 = none
  dev : ∀ p ∈ L, fs.devOf p.1.dropLast = fs.devOf p.2.dropLast
  cross : ∀ p ∈ L, ∀ p' ∈ L, ¬ p.1 <+: p'.2 ∧ ¬ p'.2 <+: p.1
  sep : L.Pairwise (fun p p' => ¬ p.1 <+: p'.1 ∧ ¬ p'.1 <+: p.1 ∧ ¬ p.2 <+: p'.2 ∧ ¬ p'.2 <+: p.2)

theorem moves_run : ∀ (L : List (Path × Path)) (st : State), st.lower.WF → Moves st.lower L →
    ∃ st', run (L.map (fun p => .mv p.1 p.2)) st = (st', none) ∧ st'.lower.WF ∧ st'.upper = st.upper ∧
      (∀ p ∈ L, ∀ r, st'.lower.get (p.2 ++ r) = st.lower.get (p.1 ++ r)) ∧
      (∀ p ∈ L, ∀ q, p.1 <+: q → st'.lower.get q = none) ∧
      (∀ q, (∀ p ∈ L, ¬ p.1 <+: q ∧ ¬ p.2 <+: q) → st'.lower.get q = st.lower.get q) := by
  intro L
  induction L with
  | nil => intro st hw _; exact ⟨st, rfl, hw, rfl, by simp, by simp, fun _ _ => rfl⟩
  | cons p L ih =>
    intro st hw hm
    obtain ⟨hp0, n, hn, hmp⟩ := hm.src p (by simp)
    obtain ⟨hN, hch, hfree⟩ := hm.dst p (by simp)
    have hcr := hm.cross p (by simp) p (by simp)
    have hren := hw.rename_eq hn hp0 hN hch hfree (hm.dev p (by simp)) hmp hcr.1
    have hw1 : (st.lower.moveTree p.1 p.2).WF := hw.moveTree hn hcr.1 hcr.2 hN hch
    have hget := FS.get_moveTree st.lower hcr.1 hcr.2
    have hsep := List.pairwise_cons.1 hm.sep
    -- paths unrelated to the move
    have hsame : ∀ q, ¬ p.1 <+: q → ¬ p.2 <+: q → (st.lower.moveTree p.1 p.2).get q = st.lower.get q := by
      intro q h1 h2
      rw [hget, if_neg h2, if_neg h1]
    have hup : ∀ {x q : Path}, ¬ x <+: q → ∀ {y}, y <+: q → ¬ x <+: y := fun h _ hy hx => h (hx.trans hy)
    have hm1 : Moves (st.lower.moveTree p.1 p.2) L := by
      have hS : ∀ p' ∈ L, ∀ y, y <+: p'.1 → (st.lower.moveTree p.1 p.2).get y = st.lower.get y := by
        intro p' hp' y hy
        exact hsame y (hup (hsep.1 p' hp').1 hy) (hup (hm.cross p' (by simp [hp']) p (by simp)).2 hy)
      have hD : ∀ p' ∈ L, ∀ y, y <+: p'.2 → (st.lower.moveTree p.1 p.2).get y = st.lower.get y := by
        intro p' hp' y hy
        exact hsame y (hup (hm.cross p (by simp) p' (by simp [hp'])).1 hy) (hup (hsep.1 p' hp').2.2.1 hy)
      have hdv : ∀ {y : Path}, (st.lower.moveTree p.1 p.2).get y = st.lower.get y → (st.lower.moveTree p.1 p.2).devOf y = st.lower.devOf y := by
        intro y hy
        unfold FS.devOf; rw [hy]
      refine ⟨fun p' hp' => ?_, fun p' hp' => ?_, fun p' hp' => ?_, fun p' hp' p'' hp'' => hm.cross p' (by simp [hp']) p'' (by simp [hp'']), hsep.2⟩
      · obtain ⟨h0, n', hn', hmp'⟩ := hm.src p' (by simp [hp'])
        refine ⟨h0, n', by rw [hS p' hp' _ (List.prefix_refl _), hn'], fun hd => ?_⟩
        have := hmp' hd
        unfold FS.mountPoint at this ⊢
        rw [hdv (hS p' hp' _ (List.prefix_refl _)), hdv (hS p' hp' _ (List.dropLast_prefix _))]
        exact this
      · obtain ⟨h1, h2, h3⟩ := hm.dst p' (by simp [hp'])
        refine ⟨h1, fun y hy => ?_, by rw [hD p' hp' _ (List.prefix_refl _), h3]⟩
        rw [FS.isDirAt_congr (hD p' hp' y hy.prefix)]
        exact h2 y hy
      · rw [hdv (hS p' hp' _ (List.dropLast_prefix _)), hdv (hD p' hp' _ (List.dropLast_prefix _))]
        exact hm.dev p' (by simp [hp'])
    obtain ⟨st', hrun, hw', hu', g1, g2, g3⟩ := ih { st with lower := st.lower.moveTree p.1 p.2 } hw1 hm1
    refine ⟨st', ?_, hw', hu', ?_, ?_, ?_⟩
    · rw [List.map_cons]
      unfold run
      have : exec (.mv p.1 p.2) st = ({ st with lower := st.lower.moveTree p.1 p.2 }, none) := by
        simp only [exec, hren, liftLower]
      rw [this]
      exact hrun
    · intro p' hp' r
      rcases List.mem_cons.1 hp' with rfl | hp'
      · rw [g3 _ (fun p'' hp'' => ⟨?_, ?_⟩)]
        · simp only
          rw [hget, if_pos (List.prefix_append _ _)]
          simp
        · intro h
          rcases prefix_total h (List.prefix_append p'.2 r) with h | h
          · exact (hm.cross p'' (by simp [hp'']) p' (by simp)).1 h
          · exact (hm.cross p'' (by simp [hp'']) p' (by simp)).2 h
        · intro h
          rcases prefix_total h (List.prefix_append p'.2 r) with h | h
          · exact (hsep.1 p'' hp'').2.2.2 h
          · exact (hsep.1 p'' hp'').2.2.1 h
      · rw [g1 p' hp' r]
        simp only
        refine hsame _ ?_ ?_
        · intro h
          rcases prefix_total h (List.prefix_append p'.1 r) with h | h
          · exact (hsep.1 p' hp').1 h
          · exact (hsep.1 p' hp').2.1 h
        · intro h
          rcases prefix_total h (List.prefix_append p'.1 r) with h | h
          · exact (hm.cross p' (by simp [hp']) p (by simp)).2 h
          · exact (hm.cross p' (by simp [hp']) p (by simp)).1 h
    · intro p' hp' q hq
      rcases List.mem_cons.1 hp' with rfl | hp'
      · by_cases hx : ∃ p'' ∈ L, p''.1 <+: q
        · obtain ⟨p'', h1, h2⟩ := hx
          exact g2 p'' h1 q h2
        · rw [g3 q (fun p'' hp'' => ⟨fun h => hx ⟨p'', hp'', h⟩, fun h => ?_⟩)]
          · simp only
            rw [hget, if_neg, if_pos hq]
            intro h
            rcases prefix_total h hq with h | h
            · exact hcr.2 h
            · exact hcr.1 h
          · rcases prefix_total h hq with h | h
            · exact (hm.cross p' (by simp) p'' (by simp [hp''])).2 h
            · exact (hm.cross p' (by simp) p'' (by simp [hp''])).1 h
      · exact g2 p' hp' q hq
    · intro q hq
      rw [g3 q (fun p' hp' => hq p' (by simp [hp']))]
      exact hsame q (hq p (by simp)).1 (hq p (by simp)).2

end SB
