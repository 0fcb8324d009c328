import Verif.Lib.FSOps
import Verif.Lib.ChangesLemmas
import Verif.Model.Actions
import Verif.Spec.Core

/-!
# C17 and C18: reject
-/

namespace SB

theorem byStaged_total (a b : Entry) : byStagedDescending a b = true ∨ byStagedDescending b a = true := by
  unfold byStagedDescending
  cases a.staged <;> cases b.staged <;> simp [le_total]

theorem byStaged_trans (a b c : Entry) (h1 : byStagedDescending a b = true) (h2 : byStagedDescending b c = true) :
    byStagedDescending a c = true := by
  unfold byStagedDescending at *
  cases ha : a.staged <;> cases hb : b.staged <;> cases hc : c.staged <;> simp_all
  · exact le_trans h2 h1
  · exact le_trans h2 h1

theorem reject_sorted (l : List Entry) : (stableSort byStagedDescending l).Pairwise (fun a b => byStagedDescending a b = true) :=
  pairwise_stableSort byStaged_total byStaged_trans l

/-- One deletion of the loop: it removes exactly one path and keeps the tree well-formed. -/
theorem reject_step {up up' : FS} {s : Details} (hw : up.WF) (hp : s.path ≠ []) (hN : NormalPath s.path)
    (hl : ∀ q, Below q s.path → ∀ n, up.get q = some n → n.isLnk = false)
    (h : (if s.node.isDir then up.rmdir s.path else up.unlink s.path) = .ok up') :
    up' = up.del s.path ∧ up'.WF := by
  split at h
  · obtain ⟨c, n, hc, hg, hd, _, hh, rfl⟩ := FS.rmdir_ok h
    have := FS.canon_nolink hN hl hc
    subst this
    exact ⟨rfl, hw.del hp (FS.del_hasChild_none hh)⟩
  · obtain ⟨c, n, hc, hg, hd, rfl⟩ := FS.unlink_ok h
    have := FS.canon_nolink hN hl hc
    subst this
    exact ⟨rfl, hw.del_nondir hg hd⟩

/-- The staged storage path of a change, if it has one. -/
def Entry.stagedPath (e : Entry) : Option Path := e.staged.map (·.path)

/-- Whatever the loop does, storage paths keep their node or are staged paths of handled changes that are gone. -/
theorem rejectLoop_only {orig : FS} (ho : orig.WF) : ∀ (l : List Entry) (last : Option Path) (up : FS),
    up.WF → (∀ q, up.get q = orig.get q ∨ up.get q = none) →
    (∀ e ∈ l, ∀ s, e.staged = some s → s.path ≠ [] ∧ ∃ n, orig.get s.path = some n) →
    ∀ q, (rejectLoop l last up).1.get q = up.get q ∨
      ((rejectLoop l last up).1.get q = none ∧ ∃ e ∈ l, e.stagedPath = some q) := by
  intro l
  induction l with
  | nil => intro last up _ _ _ q; left; rfl
  | cons e r ih =>
    intro last up hw hsub hst q
    have hst' : ∀ e ∈ r, ∀ s, e.staged = some s → s.path ≠ [] ∧ ∃ n, orig.get s.path = some n :=
      fun e he => hst e (List.mem_cons_of_mem _ he)
    simp only [rejectLoop]
    cases hs : e.staged with
    | none =>
      simp only
      rcases ih last up hw hsub hst' q with h | ⟨h, e', he', h'⟩
      · left; exact h
      · right; exact ⟨h, e', List.mem_cons_of_mem _ he', h'⟩
    | some s =>
      simp only
      split
      · rcases ih last up hw hsub hst' q with h | ⟨h, e', he', h'⟩
        · left; exact h
        · right; exact ⟨h, e', List.mem_cons_of_mem _ he', h'⟩
      · obtain ⟨hp, n, hn⟩ := hst e (by simp) s hs
        cases hstep : (if s.node.isDir then up.rmdir s.path else up.unlink s.path) with
        | error x => left; rfl
        | ok up' =>
          simp only
          have hnl : ∀ q, Below q s.path → ∀ n, up.get q = some n → n.isLnk = false := by
            intro q hq m hm
            have hd := ho.ancestor hn hq
            rcases hsub q with h | h
            · rw [hm] at h
              obtain ⟨m', hm', hd'⟩ := FS.isDirAt_iff.1 hd
              rw [← h] at hm'; cases hm'
              unfold Node.isDir at hd'
              have : m.kind = .dir := by simpa using hd'
              simp [Node.isLnk, this, Kind.isLnk]
            · rw [hm] at h; cases h
          obtain ⟨rfl, hw'⟩ := reject_step hw hp (ho.normal_of_get hn) hnl hstep
          have hsub' : ∀ q, (up.del s.path).get q = orig.get q ∨ (up.del s.path).get q = none := by
            intro q
            rw [FS.get_del]
            split
            · right; rfl
            · exact hsub q
          rcases ih (some s.path) _ hw' hsub' hst' q with h | ⟨h, e', he', h'⟩
          · rw [h, FS.get_del]
            split
            · rename_i hq
              right
              exact ⟨rfl, e, by simp, by simp [Entry.stagedPath, hs, hq]⟩
            · left; rfl
          · right; exact ⟨h, e', List.mem_cons_of_mem _ he', h'⟩

/-- **C17**: at every point of a reject (after any number of handled changes, hence also when it fails or is killed), each storage path
is unchanged, or it is gone and was the staged path of a selected change. -/
theorem C17_only_selected_storage (env : Env) (st : State) (hw : st.upper.WF) (k : Nat) (q : Path) :
    let up := (rejectLoop ((stableSort byStagedDescending (selected env st)).take k) none st.upper).1
    up.get q = st.upper.get q ∨
      (up.get q = none ∧ ∃ e ∈ selected env st, ∃ s, e.staged = some s ∧ s.path = q) := by
  intro up
  rcases rejectLoop_only hw ((stableSort byStagedDescending (selected env st)).take k) none st.upper hw (fun q => Or.inl rfl) (by
    intro e he s hs
    have he' := mem_stableSort.1 (List.mem_of_mem_take he)
    obtain ⟨h1, h2⟩ := changes_staged (mem_selected he') hs
    exact ⟨h2, _, h1⟩) q with h | ⟨h, e, he, h'⟩
  · left; exact h
  · right
    refine ⟨h, e, mem_stableSort.1 (List.mem_of_mem_take he), ?_⟩
    unfold Entry.stagedPath at h'
    cases hs : e.staged with
    | none => rw [hs] at h'; cases h'
    | some s => rw [hs] at h'; exact ⟨s, rfl, by simpa using h'⟩

/-- **C17**: reject leaves the host alone, and its final storage differs from the old one only by missing staged paths of selected changes. -/
theorem C17_reject_keeps_host (env : Env) (st : State) :
    (reject env st).1.lower = st.lower ∧
    (st.upper.WF → ∀ q, (reject env st).1.upper.get q = st.upper.get q ∨
      ((reject env st).1.upper.get q = none ∧ ∃ e ∈ selected env st, ∃ s, e.staged = some s ∧ s.path = q)) := by
  refine ⟨rfl, fun hw q => ?_⟩
  have := C17_only_selected_storage env st hw (stableSort byStagedDescending (selected env st)).length q
  rw [List.take_length] at this
  exact this

/-! ### C18 -/

theorem rejectLoop_all {orig : FS} (hdev : Spec.OneDevice orig) : ∀ (l : List Entry) (done : List Path) (up : FS),
    up.WF → (∀ q, up.get q = if q ∈ done then none else orig.get q) →
    l.Pairwise (fun a b => byStagedDescending a b = true) →
    (∀ e ∈ l, ∀ s, e.staged = some s → s.path ≠ [] ∧ orig.get s.path = some s.node) →
    (∀ d ∈ done, ∀ e ∈ l, ∀ s, e.staged = some s → s.path ≤ d) →
    (∀ d ∈ done, ∀ x, done.head? = some x → x ≤ d) →
    (∀ e ∈ l, ∀ s, e.staged = some s → s.node.isDir = true → ∀ q, Below s.path q → orig.get q ≠ none →
      q ∈ done ∨ ∃ e' ∈ l, e'.stagedPath = some q) →
    (rejectLoop l done.head? up).2 = none ∧
    ∀ q, (rejectLoop l done.head? up).1.get q = if q ∈ done ∨ ∃ e ∈ l, e.stagedPath = some q then none else orig.get q := by
  intro l
  induction l with
  | nil =>
    intro done up _ hup _ _ _ _ _
    refine ⟨rfl, fun q => ?_⟩
    simp only [rejectLoop, hup q, List.not_mem_nil, false_and, exists_false, or_false]
  | cons e r ih =>
    intro done up hw hup hpw hst hle hmin hcl
    rw [List.pairwise_cons] at hpw
    simp only [rejectLoop]
    cases hs : e.staged with
    | none =>
      simp only
      have := ih done up hw hup hpw.2 (fun e he => hst e (List.mem_cons_of_mem _ he))
        (fun d hd e he => hle d hd e (List.mem_cons_of_mem _ he)) hmin (by
          intro e1 he1 s hs1 hd q hq hne
          rcases hcl e1 (List.mem_cons_of_mem _ he1) s hs1 hd q hq hne with h | ⟨e', he', h'⟩
          · left; exact h
          · rcases List.mem_cons.1 he' with rfl | he'
            · simp [Entry.stagedPath, hs] at h'
            · right; exact ⟨e', he', h'⟩)
      refine ⟨this.1, fun q => ?_⟩
      rw [this.2 q]
      have : (∃ e' ∈ e :: r, e'.stagedPath = some q) ↔ ∃ e' ∈ r, e'.stagedPath = some q := by
        simp [Entry.stagedPath, hs]
      simp only [this]
    | some s =>
      simp only
      have hle_r : ∀ e' ∈ r, ∀ s', e'.staged = some s' → s'.path ≤ s.path := by
        intro e' he' s' hs'
        have := hpw.1 e' he'
        unfold byStagedDescending at this
        rw [hs, hs'] at this
        simpa using this
      split
      · rename_i hlast
        have hin : s.path ∈ done := by
          cases done with
          | nil => simp at hlast
          | cons d ds => simp at hlast; simp [hlast]
        have := ih done up hw hup hpw.2 (fun e he => hst e (List.mem_cons_of_mem _ he))
          (fun d hd e he => hle d hd e (List.mem_cons_of_mem _ he)) hmin (by
            intro e1 he1 s1 hs1 hd q hq hne
            rcases hcl e1 (List.mem_cons_of_mem _ he1) s1 hs1 hd q hq hne with h | ⟨e', he', h'⟩
            · left; exact h
            · rcases List.mem_cons.1 he' with rfl | he'
              · simp [Entry.stagedPath, hs] at h'; left; rw [← h']; exact hin
              · right; exact ⟨e', he', h'⟩)
        refine ⟨this.1, fun q => ?_⟩
        rw [this.2 q]
        have : (q ∈ done ∨ ∃ e' ∈ e :: r, e'.stagedPath = some q) ↔ (q ∈ done ∨ ∃ e' ∈ r, e'.stagedPath = some q) := by
          simp only [List.mem_cons, exists_eq_or_imp, Entry.stagedPath, hs, Option.map_some, Option.some.injEq]
          constructor
          · rintro (h | h | h)
            · left; exact h
            · left; rw [← h]; exact hin
            · right; exact h
          · rintro (h | h)
            · left; exact h
            · right; right; exact h
        simp only [this]
      · rename_i hlast
        obtain ⟨hp, hn⟩ := hst e (by simp) s hs
        have hnot : s.path ∉ done := by
          intro hin
          apply hlast
          cases done with
          | nil => cases hin
          | cons d ds =>
            have h1 := hmin _ hin d rfl
            have h2 := hle d (by simp) e (by simp) s hs
            simp [le_antisymm h1 h2]
        have hcur : up.get s.path = some s.node := by rw [hup, if_neg hnot, hn]
        have hchild : s.node.isDir = true → ∀ q, Below s.path q → up.get q = none := by
          intro hd q hq
          rw [hup]
          split
          · rfl
          · rename_i hqd
            by_contra hne
            rcases hcl e (by simp) s hs hd q hq hne with h | ⟨e', he', h'⟩
            · exact hqd h
            · have hlt := path_lt_of_below hq
              rcases List.mem_cons.1 he' with rfl | he'
              · simp [Entry.stagedPath, hs] at h'; exact hq.ne h'
              · unfold Entry.stagedPath at h'
                cases hs' : e'.staged with
                | none => rw [hs'] at h'; cases h'
                | some s' =>
                  rw [hs'] at h'
                  simp at h'
                  have := hle_r e' he' s' hs'
                  rw [h'] at this
                  exact absurd hlt (not_lt_of_ge this)
        have hstep : (if s.node.isDir then up.rmdir s.path else up.unlink s.path) = .ok (up.del s.path) := by
          split
          · rename_i hd
            obtain ⟨dev, hdev⟩ := hdev
            have horig : ∀ q m, up.get q = some m → orig.get q = some m := by
              intro q m h
              rw [hup] at h
              split at h
              · cases h
              · exact h
            exact hw.rmdir_eq hcur hd hp (hw.mountPoint_false hcur hp fun m hm => (hdev _ m (horig _ _ hm)).trans (hdev _ _ hn).symm) (hchild hd)
          · rename_i hd; exact hw.unlink_eq hcur (by simpa using hd)
        have hw' : (up.del s.path).WF := by
          by_cases hd : s.node.isDir = true
          · exact hw.del hp (hchild hd)
          · exact hw.del_nondir hcur (by simpa using hd)
        rw [hstep]
        simp only
        have := ih (s.path :: done) (up.del s.path) hw' (by
            intro q
            rw [FS.get_del, hup]
            simp only [List.mem_cons]
            by_cases hq : s.path = q
            · simp [hq]
            · simp [hq, eq_comm (a := q)]) hpw.2 (fun e he => hst e (List.mem_cons_of_mem _ he)) (by
            intro d hd e' he' s' hs'
            rcases List.mem_cons.1 hd with rfl | hd
            · exact hle_r e' he' s' hs'
            · exact hle d hd e' (List.mem_cons_of_mem _ he') s' hs') (by
            intro d hd x hx
            simp at hx
            subst hx
            rcases List.mem_cons.1 hd with rfl | hd
            · exact le_refl _
            · exact hle d hd e (by simp) s hs) (by
            intro e1 he1 s1 hs1 hd q hq hne
            rcases hcl e1 (List.mem_cons_of_mem _ he1) s1 hs1 hd q hq hne with h | ⟨e', he', h'⟩
            · left; exact List.mem_cons_of_mem _ h
            · rcases List.mem_cons.1 he' with rfl | he'
              · simp [Entry.stagedPath, hs] at h'; left; simp [h']
              · right; exact ⟨e', he', h'⟩)
        refine ⟨this.1, fun q => ?_⟩
        have h2 := this.2 q
        simp only [List.head?_cons] at h2
        rw [h2]
        have : (q ∈ s.path :: done ∨ ∃ e ∈ r, e.stagedPath = some q) ↔ (q ∈ done ∨ ∃ e' ∈ e :: r, e'.stagedPath = some q) := by
          simp only [List.mem_cons, exists_eq_or_imp, Entry.stagedPath, hs, Option.map_some, Option.some.injEq]
          constructor
          · rintro ((h | h) | h)
            · right; left; exact h.symm
            · left; exact h
            · right; right; exact h
          · rintro (h | h | h)
            · left; right; exact h
            · left; left; exact h.symm
            · right; exact h
        simp only [this]

/-- Specification: with every selected staged directory, everything stored below it is selected too. -/
def Spec.ClosedBelow (up : FS) (sel : List Entry) : Prop :=
  ∀ e ∈ sel, ∀ s, e.staged = some s → s.node.isDir = true → ∀ q n, Below s.path q → up.get q = some n →
    ∃ e' ∈ sel, ∃ s', e'.staged = some s' ∧ s'.path = q

/-- **C18**: a selection that contains, with each staged directory, everything stored below it is rejected without error; afterwards
the staged paths of the selection are gone and every other storage path is as before, whatever order the storage was enumerated in.  (The storage
is a tree on one file system.) -/
theorem C18_complete_rejection (env : Env) (st : State) (hw : st.upper.WF) (hdev : Spec.OneDevice st.upper) (hcl : Spec.ClosedBelow st.upper (selected env st)) :
    (reject env st).2 = none ∧
    (∀ e ∈ selected env st, ∀ s, e.staged = some s → (reject env st).1.upper.get s.path = none) ∧
    (∀ q, (∀ e ∈ selected env st, ∀ s, e.staged = some s → s.path ≠ q) → (reject env st).1.upper.get q = st.upper.get q) := by
  have h := rejectLoop_all (orig := st.upper) hdev (stableSort byStagedDescending (selected env st)) [] st.upper hw (by simp)
    (reject_sorted _) (by
      intro e he s hs
      obtain ⟨h1, h2⟩ := changes_staged (mem_selected (mem_stableSort.1 he)) hs
      exact ⟨h2, h1⟩) (by simp) (by simp) (by
      intro e he s hs hd q hq hne
      cases hg : st.upper.get q with
      | none => exact absurd hg hne
      | some n =>
        obtain ⟨e', he', s', hs', hp⟩ := hcl e (mem_stableSort.1 he) s hs hd q n hq hg
        right
        exact ⟨e', mem_stableSort.2 he', by simp [Entry.stagedPath, hs', hp]⟩)
  simp only [List.head?_nil, List.not_mem_nil, false_or] at h
  refine ⟨h.1, fun e he s hs => ?_, fun q hq => ?_⟩
  · show (rejectLoop _ none _).1.get _ = _
    rw [h.2, if_pos ⟨e, mem_stableSort.2 he, by simp [Entry.stagedPath, hs]⟩]
  · show (rejectLoop _ none _).1.get _ = _
    rw [h.2, if_neg]
    rintro ⟨e, he, h'⟩
    unfold Entry.stagedPath at h'
    cases hs : e.staged with
    | none => rw [hs] at h'; cases h'
    | some s =>
      rw [hs] at h'
      exact hq e (mem_stableSort.1 he) s hs (by simpa using h')

/-! ### examples -/

namespace RejectEx

/-- `/d` was deleted and re-created (opaque) with a file and a subdirectory in it; `/e` was deleted. -/
def host : FS :=
  [ ([], { kind := .dir }), ([str "d"], { kind := .dir }), ([str "d", str "x"], { kind := .reg (str "x") }), ([str "e"], { kind := .reg (str "e") }) ]
def upper : FS :=
  [ ([], { kind := .dir }), ([str "M"], { kind := .dir }), ([str "M", str "d"], { kind := .dir, opq := true }),
    ([str "M", str "e"], { kind := .chr 0 }),
    ([str "M", str "d", str "s"], { kind := .dir }), ([str "M", str "d", str "s", str "f"], { kind := .reg (str "f") }),
    ([str "M", str "d", str "g"], { kind := .reg (str "g") }) ]
def env (g : Str → Str → Bool) (pats : List Str) : Env :=
  { decode := fun m => if m = str "M" then some [] else none, glob := g, cwd := [str "w"], patterns := pats, includeIgnored := true,
    uuidR := fun _ => [], uuidC := fun _ => [] }
def st : State := ⟨host, upper⟩
def all : Env := env (fun _ _ => true) [str "/"]
def onlyDir : Env := env (fun _ s => s == str "/d") [str "/d"]

example : upper.WF := by decide
example : Spec.OneDevice upper := by
  have : ∀ e ∈ upper, e.2.dev = 0 := by decide
  exact ⟨0, fun q n h => this (q, n) (FS.mem_of_get h)⟩

/-- Everything selected: the hypothesis of C18 holds and only mount directories are left. -/
example : Spec.ClosedBelow upper (selected all st) := by
  intro e he s hs hd q n hq hg
  have hq' : q ∈ upper.keys := FS.mem_keys.2 ⟨n, hg⟩
  have key : ∀ e ∈ selected all st, ∀ q ∈ upper.keys, ∀ s, e.staged = some s → Below s.path q →
      ∃ e' ∈ selected all st, (e'.staged.map (·.path)) = some q := by decide
  obtain ⟨e', he', h'⟩ := key e he q hq' s hs hq
  cases hs' : e'.staged with
  | none => rw [hs'] at h'; cases h'
  | some s' => rw [hs'] at h'; exact ⟨e', he', s', hs', by simpa using h'⟩

example : (reject all st).2 = none ∧ (reject all st).1.upper.keys = [[], [str "M"]] ∧ (selected all st).length = 7 := by decide

/-- Selecting only the directory fails (it is not empty) and changes nothing. -/
example : (reject onlyDir st).2 = some .ENOTEMPTY ∧ (reject onlyDir st).1.upper = upper := by decide

end RejectEx

end SB
