import Verif.Props.Ignore
import Verif.Spec.Overlay

/-! # C26: ignore files of directories that were moved or replaced in the sandbox -/

namespace SB

/-- `mv d e; echo 1 > e/x` in a sandbox; on the host there is `d/.gitignore` with the line `x`. -/
def exIgnMoved : State := ⟨exIgnHost,
  [([], { kind := .dir }), ([str "F4"], { kind := .dir }), ([str "F4", str "d"], { kind := .chr 0 }), ([str "F4", str "e"], { kind := .dir, redirect := some (str "/d") }),
   ([str "F4", str "e", str "x"], { kind := .reg (str "1") })]⟩

/-- **C26 refuted** for a directory that was moved: in the sandbox `e/.gitignore` is the file with the line `x`, but it is looked for in the storage and on the host at `e` only, so there are no rules for
`e`, and `e/x`, which was hidden before the move and is hidden to every tool in the sandbox that reads the file, is listed. -/
theorem C26_refuted_moved : exIgnMoved.upper.WF ∧ (Spec.view exIgnMoved (str "F4") [] [str "e", str ".gitignore"]).map (·.kind) = some (.reg (str "x\n")) ∧
    resolveIgnores exIgnMoved [str "F4", str "e"] [str "e"] = [] ∧ (changes exIgnEnv exIgnMoved).map (fun e => (e.op, e.dest)) = [(.rename, [str "e"]), (.set .create, [str "e", str "x"])] := by
  refine ⟨by decide +kernel, by decide +kernel, by decide +kernel, by decide +kernel⟩

/-- `rm -r d; mkdir d; echo 1 > d/x` in a sandbox; on the host there is `d/.gitignore` with the line `x`. -/
def exIgnReplaced : State := ⟨exIgnHost,
  [([], { kind := .dir }), ([str "F4"], { kind := .dir }), ([str "F4", str "d"], { kind := .dir, opq := true }), ([str "F4", str "d", str "x"], { kind := .reg (str "1") })]⟩

/-- **C26 refuted** for a directory that was replaced: in the sandbox there is no `d/.gitignore` any more, but the host's still hides the new file `d/x`; listed are the removal of the ignore file
and not `d/x`. -/
theorem C26_refuted_replaced : exIgnReplaced.upper.WF ∧ Spec.view exIgnReplaced (str "F4") [] [str "d", str ".gitignore"] = none ∧
    (Spec.view exIgnReplaced (str "F4") [] [str "d", str "x"]).isSome = true ∧
    resolveIgnores exIgnReplaced [str "F4", str "d"] [str "d"] = [⟨false, str "**/x/**"⟩, ⟨false, str "**/x"⟩] ∧
    (∀ e ∈ changes exIgnEnv exIgnReplaced, e.dest ≠ [str "d", str "x"]) ∧ (∃ e ∈ changes exIgnEnv exIgnReplaced, e.op = .remove ∧ e.dest = [str "d", str ".gitignore"]) := by
  refine ⟨by decide +kernel, by decide +kernel, by decide +kernel, by decide +kernel, by decide +kernel, by decide +kernel⟩

end SB
