import Verif.Model.Json

/-! # C60: JSON status reflects success -/

namespace SB

theorem jsonSets_get (l : List (Str × Json)) (m : Str → Option Json) (k : Str) (h : ∀ p ∈ l, p.1 ≠ k) : jsonSets m l k = m k := by
  induction l generalizing m with
  | nil => rfl
  | cons p r ih =>
    have : jsonSets m (p :: r) = jsonSets (jsonSet m p.1 p.2) r := rfl
    rw [this, ih _ (fun q hq => h q (by simp [hq]))]
    simp [jsonSet, (h p (by simp)).symm]

/-- **C60**, once the action is started: standard output is exactly one object, whatever the action records and prints (an action may even record a status of its own); its
status says whether the action returned an error, an error carries its message, and the exit code is 0 exactly on success. -/
theorem C60_object_partial (a : ActionRun) : ∃ m : Str → Option Json,
    (mainAction true .ready a).stdout = [.object m] ∧
    (a.result = .ok () → m (str "status") = some (.str (str "success")) ∧ (mainAction true .ready a).exit = 0) ∧
    (∀ e, a.result = .error e → m (str "status") = some (.str (str "error")) ∧ m (str "error") = some (.str e) ∧ (mainAction true .ready a).exit = 1) := by
  cases hr : a.result with
  | ok u =>
    refine ⟨jsonSet (jsonSets (fun _ => none) a.sets) (str "status") (.str (str "success")), by simp [mainAction, hr], fun _ => ⟨by simp [jsonSet], by simp [mainAction, hr]⟩, ?_⟩
    intro e h; cases h
  | error e =>
    refine ⟨jsonSet (jsonSet (jsonSets (fun _ => none) a.sets) (str "status") (.str (str "error"))) (str "error") (.str e), by simp [mainAction, hr], ?_, ?_⟩
    · intro h; cases h
    · intro e' h; cases h
      exact ⟨by simp [jsonSet, str], by simp [jsonSet], by simp [mainAction, hr]⟩

/-- A success carries no error, for actions that record none; and every value an action records under a name of its own is in the object. -/
theorem C60_values (a : ActionRun) : ∃ m : Str → Option Json,
    (mainAction true .ready a).stdout = [.object m] ∧
    (a.result = .ok () → (∀ p ∈ a.sets, p.1 ≠ str "error") → m (str "error") = none) ∧
    (∀ k, k ≠ str "status" → k ≠ str "error" → m k = jsonSets (fun _ => none) a.sets k) := by
  cases hr : a.result with
  | ok u =>
    refine ⟨jsonSet (jsonSets (fun _ => none) a.sets) (str "status") (.str (str "success")), by simp [mainAction, hr], fun _ h => ?_, fun k h1 _ => by simp [jsonSet, h1]⟩
    have : str "error" ≠ str "status" := by decide
    simp [jsonSet, this, jsonSets_get _ _ _ h]
  | error e =>
    refine ⟨jsonSet (jsonSet (jsonSets (fun _ => none) a.sets) (str "status") (.str (str "error"))) (str "error") (.str e), by simp [mainAction, hr], ?_,
      fun k h1 h2 => by simp [jsonSet, h1, h2]⟩
    intro h; cases h

/-- Without --json no object is printed, and the exit code is the same. -/
theorem C60_plain (a : ActionRun) (early : Early) : (∀ m, StdOut.object m ∉ (mainAction false early a).stdout) ∧ (mainAction false early a).exit = (mainAction true early a).exit := by
  cases early <;> simp [mainAction]

/-- **C60 refuted** for failures before the action starts (a bad configuration, a bad identity, missing permissions): nothing is printed to standard output. -/
theorem C60_refuted_early (a : ActionRun) (early : Early) (h : early ≠ .ready) : (mainAction true early a).stdout = [] ∧ (mainAction true early a).exit = 1 := by
  cases early <;> simp_all [mainAction]

/-- **C60 refuted** for `delete`: if no sandbox at all could be deleted the status is still success and the exit code 0. -/
theorem C60_refuted_delete (outcomes : List (Str × Option Str)) : ∃ m : Str → Option Json, (mainAction true .ready (deleteRun outcomes)).stdout = [.object m] ∧
    m (str "status") = some (.str (str "success")) ∧ (mainAction true .ready (deleteRun outcomes)).exit = 0 := by
  obtain ⟨m, h1, h2, _⟩ := C60_object_partial (deleteRun outcomes)
  exact ⟨m, h1, h2 rfl⟩

/-- But the errors are listed. -/
theorem C60_delete_errors (outcomes : List (Str × Option Str)) : ∃ m : Str → Option Json, (mainAction true .ready (deleteRun outcomes)).stdout = [.object m] ∧
    m (str "errors") = some (.arr (outcomes.filterMap fun o => o.2.map .str)) := by
  obtain ⟨m, h1, _, h3⟩ := C60_values (deleteRun outcomes)
  refine ⟨m, h1, ?_⟩
  rw [h3 _ (by decide) (by decide)]
  simp [deleteRun, jsonSets, jsonSet, str]

end SB
