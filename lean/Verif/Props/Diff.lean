import Verif.Lib.ChangesLemmas
import Verif.Model.Actions

/-!
# C19: diff
-/

namespace SB

/-- Facts about the changes that diff relies on. -/
theorem changes_rename_source {env : Env} {st : State} {e : Entry} (h : e ∈ changes env st) (ho : e.op = .rename) :
    ∃ s, e.source = some s := by
  obtain ⟨ue, _, h⟩ := mem_changes.1 h
  rcases h with h | h
  · obtain ⟨_, _, _, _, hop, _⟩ := mem_removesOf h; rw [ho] at hop; cases hop
  · obtain ⟨_, _, _, hs, _, h⟩ := mem_setsOf h
    rcases h with h | h | h | h
    · rw [ho] at h; cases h.2.2
    · rw [hs]; exact Option.isSome_iff_exists.1 h.2.1
    · rw [ho] at h; cases h.2.2
    · obtain ⟨_, _, hh⟩ := h
      rw [ho] at hh; cases hh

theorem diffEntry_panic {env : Env} {st : State} {e : Entry} (h : e ∈ changes env st) :
    diffEntry st e = .panic ↔ e.op = .remove ∧ e.staged = none ∧ st.lower.pisFile e.dest = false := by
  unfold diffEntry
  cases ho : e.op with
  | rename => obtain ⟨s, hs⟩ := changes_rename_source h ho; simp [hs]
  | error x => simp
  | set t =>
    obtain ⟨s, hs, _⟩ := changes_set_staged h ho
    simp only [hs]
    cases st.lower.pisFile e.dest <;> simp <;> split <;> simp
  | remove =>
    cases hs : e.staged with
    | none => cases st.lower.pisFile e.dest <;> simp
    | some s => cases st.lower.pisFile e.dest <;> simp ; split <;> simp

theorem mem_diffRun_panic {st : State} {l : List Entry} : DiffOut.panic ∈ diffRun st l ↔ ∃ e ∈ l, diffEntry st e = .panic := by
  induction l with
  | nil => simp [diffRun]
  | cons e r ih =>
    simp only [diffRun]
    cases h : diffEntry st e <;> simp [h, ih]

/-- **C19**, exact condition: diff crashes if and only if the selection contains a removal that lies below the deleted directory itself
(it has no storage file of its own) and is not (a link to) a regular file on the host. -/
theorem C19_crash_condition (env : Env) (st : State) :
    DiffOut.panic ∈ diff env st ↔
      ∃ e ∈ selected env st, e.op = .remove ∧ e.staged = none ∧ st.lower.pisFile e.dest = false := by
  unfold diff
  rw [mem_diffRun_panic]
  constructor
  · rintro ⟨e, he, h⟩; exact ⟨e, he, (diffEntry_panic (mem_selected he)).1 h⟩
  · rintro ⟨e, he, h⟩; exact ⟨e, he, (diffEntry_panic (mem_selected he)).2 h⟩

theorem diffRun_length {st : State} {l : List Entry} (h : ∀ e ∈ l, diffEntry st e ≠ .panic) :
    diffRun st l = l.map (diffEntry st) := by
  induction l with
  | nil => rfl
  | cons e r ih =>
    simp only [diffRun, List.map_cons]
    have := ih (fun e he => h e (List.mem_cons_of_mem _ he))
    cases hd : diffEntry st e with
    | panic => exact absurd hd (h e (by simp))
    | _ => simp [this]

/-- **C19** (part): diff does not crash, and handles every selected change, provided that no deleted directory contains anything but
regular files. Missing: directories with subdirectories or links, where the code does crash (`C19_refuted`). -/
theorem C19_no_crash_partial (env : Env) (st : State)
    (h : ∀ e ∈ selected env st, e.op = .remove → e.staged = none → st.lower.pisFile e.dest = true) :
    DiffOut.panic ∉ diff env st ∧ (diff env st).length = (selected env st).length := by
  have hp : ∀ e ∈ selected env st, diffEntry st e ≠ .panic := by
    intro e he hpan
    obtain ⟨h1, h2, h3⟩ := (diffEntry_panic (mem_selected he)).1 hpan
    rw [h e he h1 h2] at h3; cases h3
  unfold diff
  refine ⟨fun hm => ?_, by rw [diffRun_length hp]; simp⟩
  obtain ⟨e, he, h⟩ := mem_diffRun_panic.1 hm
  exact hp e he h

namespace DiffEx

/-- The host has `/d/s/f`; in the sandbox `rm -r /d`. -/
def host : FS :=
  [ ([], { kind := .dir }), ([str "d"], { kind := .dir }), ([str "d", str "s"], { kind := .dir }),
    ([str "d", str "s", str "f"], { kind := .reg (str "f") }) ]
def upper : FS := [ ([], { kind := .dir }), ([str "M"], { kind := .dir }), ([str "M", str "d"], { kind := .chr 0 }) ]
def env : Env :=
  { decode := fun m => if m = str "M" then some [] else none, glob := fun _ _ => true, cwd := [], patterns := [str "/"], includeIgnored := true,
    uuidR := fun _ => [], uuidC := fun _ => [] }
def st : State := ⟨host, upper⟩

/-- A state that meets the hypothesis of the partial theorem: the deleted directory holds only a file. -/
def st1 : State := ⟨[ ([], { kind := .dir }), ([str "d"], { kind := .dir }), ([str "d", str "f"], { kind := .reg (str "f") }) ], upper⟩

example : (∀ e ∈ selected env st1, e.op = .remove → e.staged = none → st1.lower.pisFile e.dest = true) ∧
    diff env st1 = [.skip, .diff (some [str "d", str "f"]) none] := by decide

end DiffEx

/-- **C19 is false of the code**: after deleting a directory that has a subdirectory, status lists the removals but diff panics. -/
theorem C19_refuted : ¬ ∀ (env : Env) (st : State), st.lower.WF → st.upper.WF → DiffOut.panic ∉ diff env st := by
  intro h
  exact h DiffEx.env DiffEx.st (by decide) (by decide) (by decide)

end SB
