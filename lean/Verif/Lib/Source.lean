import Verif.Lib.ChangesLemmas
import Verif.Lib.FSLemmas

/-! Origins of stored paths (proof machinery). -/

namespace SB

theorem mem_walkDir_prefix {fs : FS} {root q : Path} (h : q ∈ fs.walkDir root) : root <+: q := by
  unfold FS.walkDir at h
  split at h
  · cases h
  · obtain ⟨e, _, he⟩ := List.mem_filterMap.1 h
    split at he
    · cases he; exact List.prefix_append _ _
    · cases he

theorem sourceLoop_noRedirect {st : State} {m : Name} {mp : Path} : ∀ (r : List Name) (comps : Path),
    (∀ q, q ≠ [] → q <+: r.reverse → ∃ n, st.upper.get (m :: q) = some n ∧ n.redirect = none) →
    sourceLoop st m mp r comps = ifExists st.lower (mp ++ (r.reverse ++ comps)) := by
  intro r
  induction r with
  | nil => intro comps _; simp [sourceLoop]
  | cons x r ih =>
    intro comps h
    obtain ⟨n, hn, hr⟩ := h (x :: r).reverse (by simp) (List.prefix_refl _)
    simp only [sourceLoop, hn, hr]
    rw [ih]
    · simp
    · intro q hq hp
      exact h q hq (by rw [List.reverse_cons]; exact hp.trans (List.prefix_append _ _))

/-- Without redirects the origin of a stored path is the host path of the same name, if it exists. -/
theorem sourcePath_plain {st : State} (hw : st.upper.WF) {m : Name} {mp sub : Path} {n : Node} (hg : st.upper.get (m :: sub) = some n)
    (hr : ∀ q n, q <+: m :: sub → st.upper.get q = some n → n.redirect = none) :
    sourcePath st m mp sub = ifExists st.lower (mp ++ sub) := by
  unfold sourcePath
  rw [sourceLoop_noRedirect]
  · simp
  · intro q hq hqp
    rw [List.reverse_reverse] at hqp
    have : ∃ n, st.upper.get (m :: q) = some n := by
      obtain ⟨r, rfl⟩ := hqp
      by_cases hr : r = []
      · subst hr; exact ⟨_, by simpa using hg⟩
      · obtain ⟨n, hn, _⟩ := FS.isDirAt_iff.1 (hw.ancestor (q := m :: q) hg ⟨r, hr, by simp⟩)
        exact ⟨n, hn⟩
    obtain ⟨n, hn⟩ := this
    exact ⟨n, hn, hr _ n (List.cons_prefix_cons.2 ⟨rfl, hqp⟩) hn⟩

end SB
