import Verif.Lib.Clean
import Verif.Props.AcceptScope
import Verif.Model.Glob

/-!
# C06: accept never discards changes that were not selected
-/

namespace SB

/-- The staged path belongs to a selected change. -/
def Spec.StagedBySelected (sel : List Entry) (p : Path) : Prop := ∃ e ∈ sel, ∃ s, e.staged = some s ∧ s.path = p

theorem no_error_selected {env : Env} {st : State} (hok : (accept env st).error = none) {e : Entry} (he : e ∈ selected env st) (x : ChangeError) :
    e.op ≠ .error x := by
  intro ho
  have := C02_checks_before_effects env st e he (.errorEntry x ho)
  rw [hok] at this
  simp at this

open Classical in
/-- What a successful accept leaves in the storage, exactly: everything that is not at or below the staged path of a selected change. -/
theorem C06_storage_after (env : Env) (st : State) (hw : st.upper.WF) (hok : (accept env st).error = none) (q : Path) :
    (accept env st).state.upper.get q =
      if ∃ p, Spec.StagedBySelected (selected env st) p ∧ p <+: q then none else st.upper.get q := by
  by_cases hne : selected env st = []
  · have h1 : (accept env st).state = st := by
      have hne' : matching env.glob env.cwd env.patterns (changes env st) = [] := hne
      simp [accept, hne']
    rw [h1, if_neg]
    rintro ⟨p, ⟨e, he, _⟩, _⟩
    rw [hne] at he; cases he
  · obtain ⟨_, st1, h1, _, h3⟩ := accept_ok hok hne
    have hu : st1.upper = st.upper := by
      have := crash_of_run (ops := applyPlan env (selected env st)) (st := st)
      rw [h1] at this
      exact crash_upper (applyPlan_noClean env _) this
    have hcr := (clean_run (cleanPaths (realOrders env (selected env st)).2.2) st1 (by rw [hu]; exact hw) (cleanPaths_strict _)
      (fun p hp => by
        obtain ⟨e, he, _, s, hs, rfl⟩ := mem_cleanPaths_c5.1 hp
        exact (changes_staged (mem_selected he) hs).2)).1 _ h3
    rw [hcr.2.2 q, hu]
    have : (∃ p ∈ cleanPaths (realOrders env (selected env st)).2.2, p <+: q) ↔ ∃ p, Spec.StagedBySelected (selected env st) p ∧ p <+: q := by
      constructor
      · rintro ⟨p, hp, hpq⟩
        obtain ⟨e, he, _, s, hs, rfl⟩ := mem_cleanPaths_c5.1 hp
        exact ⟨_, ⟨e, he, s, hs, rfl⟩, hpq⟩
      · rintro ⟨p, ⟨e, he, s, hs, rfl⟩, hpq⟩
        exact ⟨_, mem_cleanPaths_c5.2 ⟨e, he, fun x => no_error_selected hok he x, s, hs, rfl⟩, hpq⟩
    simp only [this]

/-- **C06 (partial)**: after a successful accept everything staged for a change of the sandbox (including the ignored ones) is still in the storage as it
was, unless it is itself staged for a selected change or lies below a directory staged for a selected change.
Missing: unselected changes below a selected staged directory, which are lost (`C06_refuted`). -/
theorem C06_unselected_kept_partial (env : Env) (st : State) (hw : st.upper.WF) (hok : (accept env st).error = none)
    (e : Entry) (s : Details) (_he : e ∈ changes { env with includeIgnored := true } st) (hs : e.staged = some s)
    (hsel : ∀ p, Spec.StagedBySelected (selected env st) p → ¬ p <+: s.path) :
    (accept env st).state.upper.get s.path = some s.node := by
  rw [C06_storage_after env st hw hok, if_neg (by rintro ⟨p, h1, h2⟩; exact hsel p h1 h2)]
  exact (changes_staged _he hs).1

/-- Accepting a selection that contains, with every directory, everything staged below it loses nothing that is not selected. -/
theorem C06_closed_selection (env : Env) (st : State) (hw : st.upper.WF) (hok : (accept env st).error = none)
    (hcl : ∀ p, Spec.StagedBySelected (selected env st) p → ∀ q, q ∈ st.upper.keys → p <+: q → Spec.StagedBySelected (selected env st) q)
    (q : Path) (hq : ¬ Spec.StagedBySelected (selected env st) q) : (accept env st).state.upper.get q = st.upper.get q := by
  rw [C06_storage_after env st hw hok]
  split
  · next h =>
    obtain ⟨p, h1, h2⟩ := h
    cases hg : st.upper.get q with
    | none => rfl
    | some n => exact absurd (hcl p h1 q (FS.mem_keys.2 ⟨n, hg⟩) h2) hq
  · rfl

/-- The sandbox created a repository: directory `d` with `d/x` and `d/.git/HEAD`; nothing on the host. -/
def exGitUpper : FS :=
  [ ([], { kind := .dir }), ([str "F4"], { kind := .dir }), ([str "F4", str "d"], { kind := .dir }),
    ([str "F4", str "d", str "x"], { kind := .reg (str "x") }),
    ([str "F4", str "d", str ".git"], { kind := .dir }), ([str "F4", str "d", str ".git", str "HEAD"], { kind := .reg (str "ref") }) ]
def exGitState : State := ⟨[ ([], { kind := .dir }) ], exGitUpper⟩
/-- Without `--ignored`, everything selected, with the glob matcher of Verif/Model/Glob.lean. -/
def exGitEnv : Env := { exEnv with cwd := [], patterns := [str "/**"], glob := globRef, includeIgnored := false }

/-- **C06 refuted** in general: accept (everything, without `--ignored`) succeeds; the ignored file `/d/.git/HEAD` is not a selected change, is not on the
host afterwards, and is gone from the storage. -/
theorem C06_refuted : exGitState.upper.WF ∧ (accept exGitEnv exGitState).error = none ∧
    (∃ e ∈ changes { exGitEnv with includeIgnored := true } exGitState, e.dest = [str "d", str ".git", str "HEAD"] ∧ e ∉ selected exGitEnv exGitState) ∧
    (accept exGitEnv exGitState).state.lower.get [str "d", str ".git", str "HEAD"] = none ∧
    (accept exGitEnv exGitState).state.upper.get [str "F4", str "d", str ".git", str "HEAD"] = none := by decide

/-- Non-vacuity: accepting only `/d/f` keeps the staged directory `d` and another staged file. -/
def exKeepState : State := ⟨exHost, exState4.upper ++ [([str "F4", str "d", str "h"], { kind := .reg (str "other") })]⟩
def exKeepEnv : Env := { exEnv with patterns := [str "/d/f"], glob := fun p s => p == s }
example : exKeepState.upper.WF ∧ (accept exKeepEnv exKeepState).error = none ∧ (selected exKeepEnv exKeepState).length = 1 ∧
    (accept exKeepEnv exKeepState).state.upper.get [str "F4", str "d", str "h"] = some { kind := .reg (str "other") } ∧
    (accept exKeepEnv exKeepState).state.upper.get [str "F4", str "d", str "f"] = none := by decide
example : (∀ p, Spec.StagedBySelected (selected exKeepEnv exKeepState) p → p = [str "F4", str "d", str "f"]) := by
  have h : ∀ e ∈ selected exKeepEnv exKeepState, ∀ s ∈ e.staged, s.path = [str "F4", str "d", str "f"] := by decide
  rintro p ⟨e, he, s, hs, rfl⟩
  exact h e he s (by simp [hs])

/-- The crash states include those in which only a part of a staged directory has been removed from the storage: here `d/f` is gone, `d` and `d/h` are not. -/
example : ∃ st', CrashState [.clean [str "F4", str "d"]] exKeepState st' ∧ exKeepState.upper.get [str "F4", str "d", str "f"] ≠ none ∧ st'.upper.get [str "F4", str "d", str "f"] = none ∧
    st'.upper.get [str "F4", str "d", str "h"] ≠ none ∧ st'.upper.get [str "F4", str "d"] ≠ none :=
  ⟨_, .mid (.clean (keep := fun q => decide (q ≠ [str "F4", str "d", str "f"])) (fun q hq => by
    refine decide_eq_true (fun h => hq ?_)
    rw [h]
    exact ⟨[str "f"], rfl⟩)), by decide +kernel⟩

end SB
