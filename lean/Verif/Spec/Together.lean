import Verif.Spec.Host
import Verif.Model.Together

/-!
# Specification vocabulary for several accepts at once
-/

namespace SB

/-- Who accepts what. -/
def Accepting.job (w : Accepting) : Env × List Entry := (w.env, w.sel)

namespace Spec

/-- The same change, seen at two moments: the same stored file for the same place, or the removal of the same host path (what is on the host may look different meanwhile). -/
def SameChange (e e0 : Entry) : Prop :=
  (IsSet e ∧ IsSet e0 ∧ e.dest = e0.dest ∧ e.staged = e0.staged) ∨ (e.op = .remove ∧ e0.op = .remove ∧ e.source.map (·.path) = e0.source.map (·.path))

/-- All that was selected by anyone. -/
def allSelected (jobs : List (Env × List Entry)) : List Entry := jobs.flatMap (·.2)

/-- Several accepts at once, from the state `st` on, in ordinary circumstances: host and storage are trees; everybody selected changes that `status` (with `env0`) showed at the beginning, none of them a move; no symbolic link
is in the way, and none gets in the way of a change, also of a removal; the names of temporary files are new, and different for different accepts. -/
structure AtOnce (env0 : Env) (st : State) (jobs : List (Env × List Entry)) : Prop where
  host : st.lower.WF
  storage : st.upper.WF
  same : ∀ j ∈ jobs, ∀ e ∈ j.2, ∃ e0 ∈ changes env0 st, SameChange e e0
  plain : ∀ j ∈ jobs, PlainHost j.1 st.lower (allSelected jobs)
  fresh : ∀ j ∈ jobs, FreshTemps j.1 st.lower (allSelected jobs)
  apart : jobs.Pairwise (fun j j' => ∀ e ∈ allSelected jobs, ∀ e' ∈ allSelected jobs, ∀ x y, copyName e.dest (j.1.uuidC x) ≠ copyName e'.dest (j'.1.uuidC y))
  links : ∀ e ∈ allSelected jobs, IsSet e → ∀ s, e.staged = some s → ftype s.node.kind = .symlink → ∀ q, Removes (allSelected jobs) q → ¬ Below e.dest q

end Spec

end SB
