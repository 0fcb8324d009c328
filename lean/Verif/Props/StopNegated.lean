import Verif.Props.StopAll
import Verif.Props.SelectScope

/-! # C61: negated patterns mean nothing to `stop` -/

namespace SB

/-- A consequence of the surrounding stars worth knowing: the arguments of `list` and `stop` look the same, but `list '!x'` names every sandbox that is not `x` (here the running sandbox `b`), and `stop '!x'` stops none of
them: it looks for an exclamation mark in the name (src/actions/stop.rs:78-82). -/
theorem C61_negated : Spec.GlobNegates globRef ∧ exSys.fs.WF ∧ (∃ st, getSandboxes exSys globRef exSb [str "!x"] = .ok ([str "b"], st)) ∧
    (stopAll noFault globRef exSb [str "!x"] exSys).procs = exSys.procs ∧ (stopAll noFault globRef exSb [str "b"] exSys).procs ≠ exSys.procs :=
  ⟨globRef_negates, by decide +kernel, ⟨[str "a"], by decide +kernel⟩, by decide +kernel, by decide +kernel⟩

end SB
