import Verif.Model.StartName
import Verif.Props.Limits
import Verif.Props.Names
import Verif.Props.Config

/-!
# C99: a sandbox can have any name that is accepted
-/

namespace SB

theorem nameCalls_spec {storage : Path} {name : Name} (hs : Spec.Short storage) (hn : NormalName name) :
    (nameCallOk storage name .lock = true ↔ byteLen name ≤ 250) ∧ (nameCallOk storage name .dir = true ↔ byteLen name ≤ 255) ∧
    (nameCallOk storage name .pid = true ↔ byteLen name ≤ 251) ∧ (nameCallOk storage name .hostname = true ↔ byteLen name ≤ 64) := by
  have h5 : byteLen (str ".lock") = 5 := by decide
  have h4 : byteLen (str ".pid") = 4 := by decide
  refine ⟨?_, ?_, ?_, by simp [nameCallOk]⟩
  · rw [nameCallOk, shortPath_iff, lockFile, short_append, short_single, byteLen_append, h5]
    exact ⟨fun h => by have := h.2; omega, fun h => ⟨hs, by omega⟩⟩
  · rw [nameCallOk, shortPath_iff, sandboxDir_normal hn, short_append, short_single]
    exact ⟨fun h => h.2, fun h => ⟨hs, h⟩⟩
  · rw [nameCallOk, shortPath_iff, pidFile, short_append, short_single, byteLen_append, h4]
    exact ⟨fun h => by have := h.2; omega, fun h => ⟨hs, by omega⟩⟩

/-- **C99 (partial)**: a start with a proper name in a storage directory that exists succeeds exactly if the name (in UTF-8) has at most 64 bytes. -/
theorem C99_exact_partial (storage : Path) (name : Name) (hs : Spec.Short storage) (hn : NormalName name) :
    (startNamed storage name).1 = true ↔ (utf8 name).length ≤ 64 := by
  obtain ⟨h1, h2, h3, h4⟩ := nameCalls_spec hs hn
  change _ ↔ byteLen name ≤ 64
  by_cases h : byteLen name ≤ 64
  · have e1 := h1.2 (by omega)
    have e2 := h2.2 (by omega)
    have e3 := h3.2 (by omega)
    have e4 := h4.2 h
    simp [startNamed, runCalls, nameCalls, e1, e2, e3, e4, h, startSucceeds, childSends]
  · have e4 : nameCallOk storage name .hostname = false := by rw [Bool.eq_false_iff, ne_eq, h4]; exact h
    simp only [h, iff_false]
    cases e1 : nameCallOk storage name .lock <;> cases e2 : nameCallOk storage name .dir <;> cases e3 : nameCallOk storage name .pid <;>
      simp [startNamed, runCalls, nameCalls, e1, e2, e3, e4, startSucceeds, childSends]

/-- **C99 (partial)**, what is left: a start that succeeds has made the lock file, the directory and the pid file; one that fails because of a name of at most 250 bytes has made the same; with a
longer name nothing is made. -/
theorem C99_left_partial (storage : Path) (name : Name) (hs : Spec.Short storage) (hn : NormalName name) :
    ((utf8 name).length ≤ 250 → (startNamed storage name).2 = [storage ++ [name ++ str ".lock"], storage ++ [name], storage ++ [name ++ str ".pid"]]) ∧
    (250 < (utf8 name).length → (startNamed storage name).2 = []) := by
  obtain ⟨h1, h2, h3, h4⟩ := nameCalls_spec hs hn
  change (byteLen name ≤ 250 → _) ∧ (250 < byteLen name → _)
  constructor
  · intro h
    have e1 := h1.2 h
    have e2 := h2.2 (by omega)
    have e3 := h3.2 (by omega)
    cases e4 : nameCallOk storage name .hostname <;>
      simp [startNamed, runCalls, nameCalls, e1, e2, e3, e4, callLeaves, lockFile, pidFile, sandboxDir_normal hn]
  · intro h
    have e1 : nameCallOk storage name .lock = false := by rw [Bool.eq_false_iff, ne_eq, h1]; omega
    simp [startNamed, runCalls, nameCalls, e1]

/-- Non-vacuity: a name of 64 letters, one with fewer letters but more bytes, and one too long for a file. -/
example : Spec.Short [str "home", str "u", str ".sandboxes"] ∧ NormalName (List.replicate 64 'a') ∧ (startNamed [str "s"] (List.replicate 64 'a')).1 = true ∧
    NormalName (List.replicate 33 'é') ∧ (startNamed [str "s"] (List.replicate 33 'é')).1 = false ∧
    (startNamed [str "s"] (List.replicate 251 'a')) = (false, []) :=
  ⟨shortPath_iff.1 (by decide +kernel), by decide +kernel⟩

/-- **C99 refuted**: a name of 65 letters is accepted as a setting, as any name without a slash; files have names of up to 255 bytes.  The start fails nevertheless, in the last step of the set-up,
when the lock file, the directory of the sandbox and the pid file have been made and its overlays mounted.  The name cannot be used at all, and what is left has to be deleted. -/
theorem C99_refuted_long : ∃ c, resolveConfig exCfgWorld { name := some (List.replicate 65 'a') } = .ok c ∧ c.name = List.replicate 65 'a' ∧ NormalName c.name ∧
    startNamed c.storageDir c.name = (false, [c.storageDir ++ [c.name ++ str ".lock"], c.storageDir ++ [c.name], c.storageDir ++ [c.name ++ str ".pid"]]) := by
  have h : ∃ c, resolveConfig exCfgWorld { name := some (List.replicate 65 'a') } = .ok c ∧ c.name = List.replicate 65 'a' ∧ c.storageDir = [str "home", str "u", str ".sandboxes"] := by
    cases hr : resolveConfig exCfgWorld { name := some (List.replicate 65 'a') } with
    | error e =>
      exfalso
      have : (match resolveConfig exCfgWorld { name := some (List.replicate 65 'a') } with | .ok _ => true | .error _ => false) = true := by decide +kernel
      rw [hr] at this
      cases this
    | ok c =>
      have : (match resolveConfig exCfgWorld { name := some (List.replicate 65 'a') } with
        | .ok c => decide (c.name = List.replicate 65 'a' ∧ c.storageDir = [str "home", str "u", str ".sandboxes"]) | .error _ => false) = true := by decide +kernel
      rw [hr] at this
      exact ⟨c, rfl, of_decide_eq_true this⟩
  obtain ⟨c, h1, h2, h3⟩ := h
  refine ⟨c, h1, h2, by rw [h2]; decide +kernel, ?_⟩
  rw [h2, h3]
  decide +kernel

end SB
