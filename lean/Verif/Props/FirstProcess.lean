import Verif.Model.FirstProcess
import Verif.Props.Process
import Verif.Props.Creds

/-! # C105: what ends a running sandbox -/

namespace SB

/-- kill(2): a process with credentials `s` may send signals to one with credentials `p`. -/
def Spec.MaySignal (s p : Creds) : Prop := s.euid = 0 ∨ s.ruid ∈ [p.ruid, p.suid] ∨ s.euid ∈ [p.ruid, p.suid]

theorem maySignal_iff (s p : Creds) : maySignal s p = true ↔ Spec.MaySignal s p := by
  simp only [maySignal, Creds.privileged, Spec.MaySignal, Bool.or_eq_true, beq_iff_eq, List.mem_cons, List.not_mem_nil, or_false]
  tauto

instance (s p : Creds) : Decidable (Spec.MaySignal s p) := decidable_of_iff _ (maySignal_iff s p)

/-- The signals that a process may be sent to its end: SIGTERM, or SIGKILL from outside. -/
def Spec.Deadly (e : Sent) : Prop := e.sig = 15 ∨ e.sig = 9 ∧ e.inside = false

instance (e : Sent) : Decidable (Spec.Deadly e) := by unfold Spec.Deadly; infer_instance

theorem firstSignal_none {d : Disps} (hd : d 15 = .handled) (i : Bool) (s : Nat) : firstSignal d i s = none ↔ s = 15 ∨ s = 9 ∧ i = false := by
  unfold firstSignal
  by_cases h9 : s = 9
  · subst h9
    cases i <;> simp
  · rw [if_neg h9]
    by_cases h15 : s = 15
    · subst h15
      rw [hd]
      simp
    · cases hs : d s <;> simp [h9, h15]

theorem firstSignal_some {d d' : Disps} (hd : d 15 = .handled) {i : Bool} {s : Nat} (h : firstSignal d i s = some d') : d' 15 = .handled := by
  unfold firstSignal at h
  split at h
  · split at h
    · cases h; exact hd
    · cases h
  · split at h
    · cases h; exact hd
    · cases h; exact hd
    · split at h
      · cases h
      · cases h
        rename_i h15
        have : (15 : Nat) ≠ s := fun e => h15 e.symm
        simp only [this, if_false]
        exact hd

theorem firstRun_none {p : Creds} {d : Disps} (hd : d 15 = .handled) (l : List Sent) : firstRun p d l = none ↔ ∃ e ∈ l, Spec.MaySignal e.sender p ∧ Spec.Deadly e := by
  induction l generalizing d with
  | nil => simp [firstRun]
  | cons e l ih =>
    rw [firstRun]
    by_cases hm : maySignal e.sender p = true
    · rw [if_pos hm]
      cases hs : firstSignal d e.inside e.sig with
      | none => simp only [true_iff]; exact ⟨e, by simp, (maySignal_iff _ _).1 hm, (firstSignal_none hd _ _).1 hs⟩
      | some d' =>
        dsimp only
        rw [ih (firstSignal_some hd hs)]
        have hn : ¬ Spec.Deadly e := fun h => by
          rw [(firstSignal_none hd _ _).2 h] at hs
          cases hs
        constructor
        · rintro ⟨x, hx, h⟩; exact ⟨x, by simp [hx], h⟩
        · rintro ⟨x, hx, h⟩
          rcases List.mem_cons.1 hx with rfl | hx
          · exact absurd h.2 hn
          · exact ⟨x, hx, h⟩
    · rw [if_neg hm, ih hd]
      constructor
      · rintro ⟨x, hx, h⟩; exact ⟨x, by simp [hx], h⟩
      · rintro ⟨x, hx, h⟩
        rcases List.mem_cons.1 hx with rfl | hx
        · exact absurd ((maySignal_iff _ _).2 h.1) hm
        · exact ⟨x, hx, h⟩

/-- **C105**: exactly what ends a running sandbox, whatever dispositions the caller had: SIGTERM, or SIGKILL from outside, by a process that may send it signals.  No
other signal does - not the terminal's SIGINT, SIGHUP or SIGQUIT, not SIGKILL from inside. -/
theorem C105_ends (caller : Inherited) (k : Numbers) (sid : Nat) (program : Creds) (l : List Sent) :
    firstRun (firstCreds program) (firstProcess caller k sid).sigs l = none ↔ ∃ e ∈ l, Spec.MaySignal e.sender program ∧ Spec.Deadly e :=
  firstRun_none rfl l

/-- **C105**: other users - neither root nor the one who has started the sandbox - cannot end it. -/
theorem C105_others (caller : Inherited) (k : Numbers) (sid : Nat) (program : Creds) (hp : program.suid = 0) (l : List Sent)
    (hl : ∀ e ∈ l, e.sender.euid ∉ [0, program.ruid] ∧ e.sender.ruid ∉ [0, program.ruid]) :
    (firstRun (firstCreds program) (firstProcess caller k sid).sigs l).isSome = true := by
  rw [Option.isSome_iff_ne_none]
  intro h
  obtain ⟨e, he, hm, -⟩ := (C105_ends caller k sid program l).1 h
  obtain ⟨h1, h2⟩ := hl e he
  simp only [List.mem_cons, List.not_mem_nil, or_false, not_or] at h1 h2
  simp only [Spec.MaySignal, hp, List.mem_cons, List.not_mem_nil, or_false] at hm
  tauto

/-- **C105**, if the sandbox was started by root (sudo): no command in it ends it, whatever it sends and whatever identities it can still take
(set-user-ID programs aside, C82). -/
theorem C105_command_partial (caller : Inherited) (k : Numbers) (sid : Nat) (program : Creds) (hp : program.ruid = 0 ∧ program.euid = 0 ∧ program.suid = 0) (c : Creds)
    (hc : c.euid = 0) (uid gid : Nat) (hu : uid ≠ 0) (l : List Sent) (hl : ∀ e ∈ l, Spec.CanBecome (dropPrivileges c uid gid).1 e.sender) :
    (firstRun (firstCreds program) (firstProcess caller k sid).sigs l).isSome = true := by
  refine C105_others caller k sid program hp.2.2 l fun e he => ?_
  have := C50_for_good_partial c uid gid hc hu e.sender (hl e he)
  rw [this.1, this.2.1, hp.1]
  simpa using hu

/-- **C105 refuted** for the set-user-ID installation: the first process keeps the real user id of the caller, so that every command in the sandbox can end it, and with
it all other processes in it, by `kill 1`. -/
theorem C105_refuted_command (caller : Inherited) (k : Numbers) (sid : Nat) (program : Creds) (hp : program.ruid ≠ 0 ∧ program.euid = 0) (env : IdEnv) (pexists : Str → Bool)
    (i : Identity) (hi : resolveIdentity program env pexists = .ok i) (c : Creds) (hc : c.euid = 0) :
    firstRun (firstCreds program) (firstProcess caller k sid).sigs [⟨(dropPrivileges c i.uid i.gid).1, true, 15⟩] = none := by
  rw [C105_ends]
  refine ⟨_, List.mem_singleton.2 rfl, .inr (.inl ?_), .inl rfl⟩
  rw [(C50_dropped c i.uid i.gid hc).2.1, (C49_setuid program env pexists i hp hi).1]
  simp

/-- A caller that ignores SIGHUP; the sandbox was started by a set-user-ID program. -/
def exFirst (l : List Sent) : Option Disps := firstRun (firstCreds exSetuid) (firstProcess exInherited exNumbers 77).sigs l

/-- Non-vacuity: SIGINT, SIGHUP, SIGSEGV (twice) and SIGKILL from inside do not end it, nor does SIGTERM of another user; `kill 1` does, and so does SIGKILL of root
from outside. -/
example : (exFirst [⟨exSetuid, false, 2⟩, ⟨exSetuid, false, 1⟩, ⟨exSetuid, true, 11⟩, ⟨exSetuid, true, 11⟩, ⟨exRoot, true, 9⟩, ⟨⟨7, 7, 7, 7, 7, 7, []⟩, false, 15⟩]).isSome = true ∧
    exFirst [⟨exSetuid, false, 2⟩, ⟨(dropPrivileges exSetuid 1000 100).1, true, 15⟩] = none ∧ exFirst [⟨exRoot, false, 9⟩] = none := by
  refine ⟨by decide +kernel, ?_, ?_⟩
  · exact (C105_ends _ _ _ _ _).2 (by decide +kernel)
  · exact (C105_ends _ _ _ _ _).2 (by decide +kernel)

example : ∃ i, resolveIdentity exSetuid { home := some (str "/home/u") } (fun _ => true) = .ok i := ⟨⟨1000, 100, str "/home/u"⟩, by decide⟩

end SB
