import Verif.Lib.RenamePass
import Verif.Lib.SetDev

/-! The first rename pass succeeds, also for sources inside other sources (proof machinery). -/

namespace SB

/-- Moves to free places, inner sources before the outer ones. -/
structure Descends (fs : FS) (L : List (Path × Path)) : Prop where
  src : ∀ p ∈ L, p.1 ≠ [] ∧ ∃ n, fs.get p.1 = some n ∧ (n.isDir = true → fs.mountPoint p.1 = false)
  dst : ∀ p ∈ L, NormalPath p.2 ∧ fs.Chain p.2 ∧ fs.get p.2 = none
  dev : ∀ p ∈ L, fs.devOf p.1.dropLast = fs.devOf p.2.dropLast
  cross : ∀ p ∈ L, ∀ p' ∈ L, ¬ p.1 <+: p'.2 ∧ ¬ p'.2 <+: p.1
  sep : L.Pairwise (fun p p' => ¬ p.1 <+: p'.1 ∧ ¬ p.2 <+: p'.2)

theorem descends_run : ∀ (L : List (Path × Path)) (st : State), st.lower.WF → Descends st.lower L → (run (L.map (fun p => .mv p.1 p.2)) st).2 = none := by
  intro L
  induction L with
  | nil => intro st _ _; rfl
  | cons p L ih =>
    intro st hw hm
    obtain ⟨hp0, n, hn, hmp⟩ := hm.src p (by simp)
    obtain ⟨hN, hch, hfree⟩ := hm.dst p (by simp)
    have hcr := hm.cross p (by simp) p (by simp)
    have hren := hw.rename_eq hn hp0 hN hch hfree (hm.dev p (by simp)) hmp hcr.1
    have hw1 : (st.lower.moveTree p.1 p.2).WF := hw.moveTree hn hcr.1 hcr.2 hN hch
    have hget := FS.get_moveTree st.lower hcr.1 hcr.2
    have hsep := List.pairwise_cons.1 hm.sep
    have hsame : ∀ q, ¬ p.1 <+: q → ¬ p.2 <+: q → (st.lower.moveTree p.1 p.2).get q = st.lower.get q := by
      intro q h1 h2
      rw [hget, if_neg h2, if_neg h1]
    have hup : ∀ {x q : Path}, ¬ x <+: q → ∀ {y}, y <+: q → ¬ x <+: y := fun h _ hy hx => h (hx.trans hy)
    have hS : ∀ p' ∈ L, ∀ y, y <+: p'.1 → (st.lower.moveTree p.1 p.2).get y = st.lower.get y := by
      intro p' hp' y hy
      exact hsame y (hup (hsep.1 p' hp').1 hy) (hup (hm.cross p' (by simp [hp']) p (by simp)).2 hy)
    have hD : ∀ p' ∈ L, ∀ y, y <+: p'.2 → (st.lower.moveTree p.1 p.2).get y = st.lower.get y := by
      intro p' hp' y hy
      exact hsame y (hup (hm.cross p (by simp) p' (by simp [hp'])).1 hy) (hup (hsep.1 p' hp').2 hy)
    have hdv : ∀ {y : Path}, (st.lower.moveTree p.1 p.2).get y = st.lower.get y → (st.lower.moveTree p.1 p.2).devOf y = st.lower.devOf y := by
      intro y hy
      unfold FS.devOf; rw [hy]
    have hm1 : Descends (st.lower.moveTree p.1 p.2) L := by
      refine ⟨fun p' hp' => ?_, fun p' hp' => ?_, fun p' hp' => ?_, fun p' hp' p'' hp'' => hm.cross p' (by simp [hp']) p'' (by simp [hp'']), hsep.2⟩
      · obtain ⟨h0, n', hn', hmp'⟩ := hm.src p' (by simp [hp'])
        refine ⟨h0, n', by rw [hS p' hp' _ (List.prefix_refl _), hn'], fun hd => ?_⟩
        have := hmp' hd
        unfold FS.mountPoint at this ⊢
        rw [hdv (hS p' hp' _ (List.prefix_refl _)), hdv (hS p' hp' _ (List.dropLast_prefix _))]
        exact this
      · obtain ⟨h1, h2, h3⟩ := hm.dst p' (by simp [hp'])
        refine ⟨h1, fun y hy => ?_, by rw [hD p' hp' _ (List.prefix_refl _), h3]⟩
        rw [FS.isDirAt_congr (hD p' hp' y hy.prefix)]
        exact h2 y hy
      · rw [hdv (hS p' hp' _ (List.dropLast_prefix _)), hdv (hD p' hp' _ (List.dropLast_prefix _))]
        exact hm.dev p' (by simp [hp'])
    rw [List.map_cons, run_none_cons (st1 := { st with lower := st.lower.moveTree p.1 p.2 }) (by simp only [exec, hren, liftLower])]
    exact ih _ hw1 hm1

end SB
