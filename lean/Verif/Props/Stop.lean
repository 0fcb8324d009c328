import Verif.Lib.White
import Verif.Model.Stop
import Verif.Lib.Words
import Verif.Props.Delete

/-! # C47: stop kills exactly the sandbox's processes -/

namespace SB
namespace Scan

/-- Invariant of a scan. -/
structure Inv (n : Nat) (i : P) (m : M) : Prop where
  pids : ∀ p ∈ m.procs, ∀ q ∈ m.procs, p.pid = q.pid → p = q
  used : ∀ p ∈ m.procs, p.pid ∈ m.used
  nss : ∀ p ∈ m.procs, ∀ x, p.isIn x → x ∈ m.usedNs
  nUsed : n ∈ m.usedNs
  iUsed : i.pid ∈ m.used
  ini : ∀ q ∈ m.procs, q.isIn n → i ∈ m.procs
  nested : ∀ q ∈ m.procs, q.isIn n → ∀ x, i.isIn x → q.isIn x
  vis : ∀ v ∈ m.visited, v ∈ m.used
  visited : ∀ q ∈ m.procs, q.pid ∈ m.visited → q.ns ≠ n
  found : ∀ v, m.phase = .found v → v ∈ m.used
  same : ∀ v, (m.phase = .same v ∨ m.phase = .named v) → v ∈ m.used ∧ ∀ q ∈ m.procs, q.pid = v → q.ns = n
  slain : ∀ q ∈ m.slain, q.isIn n
  done : m.phase = .done → i ∉ m.procs

theorem mem_die {ps : List P} {p q : P} : q ∈ die ps p ↔ q ∈ ps ∧ ¬ takes p q := by simp [die]

theorem Inv.of_start {n : Nat} {i : P} {m : M} (h : Start n i m) : Inv n i m := by
  refine ⟨h.pids, h.used, h.nss, h.nss i h.init.1 n (.inl h.init.2.2.symm), h.used i h.init.1, fun q _ _ => h.init.1, h.nested, ?_, ?_, ?_, ?_, ?_, ?_⟩
  · rw [h.fresh.1]; simp
  · rw [h.fresh.1]; simp
  · intro v hv; rw [h.idle] at hv; cases hv
  · intro v hv; rw [h.idle] at hv; rcases hv with hv | hv <;> cases hv
  · rw [h.fresh.2]; simp
  · intro hv; rw [h.idle] at hv; cases hv

/-- A death keeps everything that is only about living processes. -/
theorem die_ini {n : Nat} {i p : P} {ps : List P} (hns : i.ns = n) (hini : ∀ q ∈ ps, q.isIn n → i ∈ ps) (hi : i.init = true)
    (hnest : ∀ q ∈ ps, q.isIn n → ∀ x, i.isIn x → q.isIn x) : ∀ q ∈ die ps p, q.isIn n → i ∈ die ps p := by
  intro q hq hqn
  rw [mem_die] at hq ⊢
  refine ⟨hini q hq.1 hqn, fun ht => hq.2 ?_⟩
  rcases ht with rfl | ⟨hp, hin⟩
  · exact .inr ⟨hi, hns ▸ hqn⟩
  · exact .inr ⟨hp, hnest q hq.1 hqn _ hin⟩

theorem Inv.step {n : Nat} {i : P} {m m' : M} {start : List P} (hi : i ∈ start ∧ i.init = true ∧ i.ns = n) (h : Inv n i m) (hs : Step n start m m') : Inv n i m' := by
  obtain ⟨pids, used, nss, nUsed, iUsed, ini, nested, vis, visited, found, same, slain, done⟩ := h
  cases hs with
  | fork p pid hp hpid =>
    have hin : ∀ x, P.isIn ⟨pid, p.ns, p.outer, false⟩ x ↔ p.isIn x := fun x => Iff.rfl
    refine ⟨?_, ?_, ?_, nUsed, List.mem_cons_of_mem _ iUsed, ?_, ?_, fun v hv => List.mem_cons_of_mem _ (vis v hv), ?_, fun v hv => List.mem_cons_of_mem _ (found v hv), ?_, slain, ?_⟩
    · intro a ha b hb hab
      rcases List.mem_cons.1 ha with rfl | ha <;> rcases List.mem_cons.1 hb with rfl | hb
      · rfl
      · exact absurd (by rw [show pid = b.pid from hab]; exact used b hb) hpid
      · exact absurd (by rw [show pid = a.pid from hab.symm]; exact used a ha) hpid
      · exact pids a ha b hb hab
    · intro a ha
      rcases List.mem_cons.1 ha with rfl | ha
      · exact List.mem_cons_self
      · exact List.mem_cons_of_mem _ (used a ha)
    · intro a ha x hx
      rcases List.mem_cons.1 ha with rfl | ha
      · exact nss p hp x ((hin x).1 hx)
      · exact nss a ha x hx
    · intro a ha hn
      rcases List.mem_cons.1 ha with rfl | ha
      · exact List.mem_cons_of_mem _ (ini p hp ((hin n).1 hn))
      · exact List.mem_cons_of_mem _ (ini a ha hn)
    · intro a ha hn x hx
      rcases List.mem_cons.1 ha with rfl | ha
      · exact (hin x).2 (nested p hp ((hin n).1 hn) x hx)
      · exact nested a ha hn x hx
    · intro a ha hv
      rcases List.mem_cons.1 ha with rfl | ha
      · exact absurd (vis _ hv) hpid
      · exact visited a ha hv
    · intro v hv
      obtain ⟨h1, h2⟩ := same v hv
      refine ⟨List.mem_cons_of_mem _ h1, fun a ha hav => ?_⟩
      rcases List.mem_cons.1 ha with rfl | ha
      · exact absurd (by rw [show pid = v from hav]; exact h1) hpid
      · exact h2 a ha hav
    · intro hd hmem
      rcases List.mem_cons.1 hmem with he | hmem
      · have hii := hi.2.1; rw [he] at hii; cases hii
      · exact done hd hmem
  | unshare p pid ns hp hpid hns =>
    have hin : ∀ x, P.isIn ⟨pid, ns, p.ns :: p.outer, true⟩ x ↔ x = ns ∨ p.isIn x := fun x => by simp [P.isIn]
    have hnn : n ≠ ns := fun he => hns (he ▸ nUsed)
    refine ⟨?_, ?_, ?_, List.mem_cons_of_mem _ nUsed, List.mem_cons_of_mem _ iUsed, ?_, ?_, fun v hv => List.mem_cons_of_mem _ (vis v hv), ?_, fun v hv => List.mem_cons_of_mem _ (found v hv), ?_, slain, ?_⟩
    · intro a ha b hb hab
      rcases List.mem_cons.1 ha with rfl | ha <;> rcases List.mem_cons.1 hb with rfl | hb
      · rfl
      · exact absurd (by rw [show pid = b.pid from hab]; exact used b hb) hpid
      · exact absurd (by rw [show pid = a.pid from hab.symm]; exact used a ha) hpid
      · exact pids a ha b hb hab
    · intro a ha
      rcases List.mem_cons.1 ha with rfl | ha
      · exact List.mem_cons_self
      · exact List.mem_cons_of_mem _ (used a ha)
    · intro a ha x hx
      rcases List.mem_cons.1 ha with rfl | ha
      · rcases (hin x).1 hx with rfl | h
        · exact List.mem_cons_self
        · exact List.mem_cons_of_mem _ (nss p hp x h)
      · exact List.mem_cons_of_mem _ (nss a ha x hx)
    · intro a ha hn
      rcases List.mem_cons.1 ha with rfl | ha
      · exact List.mem_cons_of_mem _ (ini p hp (((hin n).1 hn).resolve_left hnn))
      · exact List.mem_cons_of_mem _ (ini a ha hn)
    · intro a ha hn x hx
      rcases List.mem_cons.1 ha with rfl | ha
      · exact (hin x).2 (.inr (nested p hp (((hin n).1 hn).resolve_left hnn) x hx))
      · exact nested a ha hn x hx
    · intro a ha hv
      rcases List.mem_cons.1 ha with rfl | ha
      · exact absurd (vis _ hv) hpid
      · exact visited a ha hv
    · intro v hv
      obtain ⟨h1, h2⟩ := same v hv
      refine ⟨List.mem_cons_of_mem _ h1, fun a ha hav => ?_⟩
      rcases List.mem_cons.1 ha with rfl | ha
      · exact absurd (by rw [show pid = v from hav]; exact h1) hpid
      · exact h2 a ha hav
    · intro hd hmem
      rcases List.mem_cons.1 hmem with he | hmem
      · have : i.ns = ns := by rw [he]
        exact hnn (hi.2.2.symm.trans this)
      · exact done hd hmem
  | exit p hp =>
    exact ⟨fun a ha b hb => pids a (mem_die.1 ha).1 b (mem_die.1 hb).1, fun a ha => used a (mem_die.1 ha).1, fun a ha => nss a (mem_die.1 ha).1, nUsed, iUsed,
      die_ini hi.2.2 ini hi.2.1 nested, fun a ha => nested a (mem_die.1 ha).1, vis, fun a ha => visited a (mem_die.1 ha).1, found,
      fun v hv => ⟨(same v hv).1, fun a ha => (same v hv).2 a (mem_die.1 ha).1⟩, slain, fun hd hm => done hd (mem_die.1 hm).1⟩
  | skip pid hph hu hno =>
    refine ⟨pids, used, nss, nUsed, iUsed, ini, nested, ?_, ?_, found, same, slain, done⟩
    · intro v hv
      rcases List.mem_cons.1 hv with rfl | hv
      · exact hu
      · exact vis v hv
    · intro q hq hv
      rcases List.mem_cons.1 hv with he | hv
      · exact absurd he (hno q hq)
      · exact visited q hq hv
  | look p hph hp =>
    exact ⟨pids, used, nss, nUsed, iUsed, ini, nested, vis, visited, (fun v hv => by cases hv; exact used p hp),
      (fun v hv => by rcases hv with hv | hv <;> cases hv), slain, (fun hd => by cases hd)⟩
  | noLink pid hph hno =>
    exact ⟨pids, used, nss, nUsed, iUsed, ini, nested, vis, visited, (fun v hv => by cases hv), (fun v hv => by rcases hv with hv | hv <;> cases hv), slain,
      (fun hd => by cases hd)⟩
  | other p hph hp hne =>
    refine ⟨pids, used, nss, nUsed, iUsed, ini, nested, ?_, ?_, (fun v hv => by cases hv), (fun v hv => by rcases hv with hv | hv <;> cases hv), slain, (fun hd => by cases hd)⟩
    · intro v hv
      rcases List.mem_cons.1 hv with rfl | hv
      · exact used p hp
      · exact vis v hv
    · intro q hq hv
      rcases List.mem_cons.1 hv with he | hv
      · rw [pids q hq p hp he]; exact hne
      · exact visited q hq hv
  | member p hph hp hns =>
    refine ⟨pids, used, nss, nUsed, iUsed, ini, nested, vis, visited, (fun v hv => by cases hv), ?_, slain, (fun hd => by cases hd)⟩
    intro v hv
    rcases hv with hv | hv
    · cases hv; exact ⟨used p hp, fun q hq he => by rw [pids q hq p hp he]; exact hns⟩
    · cases hv
  | noCmdline pid hph hno =>
    exact ⟨pids, used, nss, nUsed, iUsed, ini, nested, vis, visited, (fun v hv => by cases hv), (fun v hv => by rcases hv with hv | hv <;> cases hv), slain,
      (fun hd => by cases hd)⟩
  | cmdline p hph hp =>
    refine ⟨pids, used, nss, nUsed, iUsed, ini, nested, vis, visited, (fun v hv => by cases hv), ?_, slain, (fun hd => by cases hd)⟩
    intro v hv
    rcases hv with hv | hv
    · cases hv
    · cases hv; exact same p.pid (.inl hph)
  | killGone pid hph hno =>
    refine ⟨pids, used, nss, nUsed, iUsed, ini, nested, ?_, ?_, (fun v hv => by cases hv), (fun v hv => by rcases hv with hv | hv <;> cases hv), slain, (fun hd => by cases hd)⟩
    · intro v hv
      rcases List.mem_cons.1 hv with rfl | hv
      · exact (same _ (.inr hph)).1
      · exact vis v hv
    · intro q hq hv
      rcases List.mem_cons.1 hv with he | hv
      · exact absurd he (hno q hq)
      · exact visited q hq hv
  | kill p hph hp =>
    have hpn : p.ns = n := (same p.pid (.inr hph)).2 p hp rfl
    refine ⟨fun a ha b hb => pids a (mem_die.1 ha).1 b (mem_die.1 hb).1, fun a ha => used a (mem_die.1 ha).1, fun a ha => nss a (mem_die.1 ha).1, nUsed, iUsed,
      die_ini hi.2.2 ini hi.2.1 nested, fun a ha => nested a (mem_die.1 ha).1, ?_, ?_, (fun v hv => by cases hv),
      (fun v hv => by rcases hv with hv | hv <;> cases hv), ?_, (fun hd => by cases hd)⟩
    · intro v hv
      rcases List.mem_cons.1 hv with rfl | hv
      · exact used p hp
      · exact vis v hv
    · intro q hq hv
      rcases List.mem_cons.1 hv with he | hv
      · have := pids q (mem_die.1 hq).1 p hp he
        exact absurd (.inl this) (mem_die.1 hq).2
      · exact visited q (mem_die.1 hq).1 hv
    · intro q hq
      rcases List.mem_append.1 hq with hq | hq
      · simp only [List.mem_filter, decide_eq_true_eq] at hq
        rcases hq.2 with rfl | ⟨_, hin⟩
        · exact .inl hpn.symm
        · rw [hpn] at hin; exact hin
      · exact slain q hq
  | finish hph hall =>
    refine ⟨pids, used, nss, nUsed, iUsed, ini, nested, vis, visited, (fun v hv => by cases hv), (fun v hv => by rcases hv with hv | hv <;> cases hv), slain, ?_⟩
    intro _ hm
    exact visited i hm (hall i hi.1 hm) hi.2.2

theorem Inv.reach {n : Nat} {i : P} {m0 m : M} (h0 : Start n i m0) (h : Reach n m0 m) : Inv n i m := by
  induction h with
  | start => exact .of_start h0
  | step _ hs ih => exact ih.step h0.init hs

/-- The number belonged to a living process at some point of the scan. -/
def Spec.Lived (n : Nat) (m0 : M) (v : Nat) : Prop := ∃ m, Reach n m0 m ∧ ∃ p ∈ m.procs, p.pid = v

/-- Invariant for failures: the entry in hand was a living process that the scan has not killed, and a failed scan has met such a one that is gone. -/
structure Held (n : Nat) (m0 m : M) : Prop where
  used : ∀ p ∈ m.procs, p.pid ∈ m.used
  slain : ∀ q ∈ m.slain, q.pid ∈ m.used ∧ ∀ p ∈ m.procs, p.pid ≠ q.pid
  hand : ∀ v, (m.phase = .found v ∨ m.phase = .same v ∨ m.phase = .named v) → Spec.Lived n m0 v ∧ v ∈ m.used ∧ ∀ q ∈ m.slain, q.pid ≠ v
  gone : m.phase = .failed → ∃ v, Spec.Lived n m0 v ∧ v ∈ m.used ∧ (∀ q ∈ m.slain, q.pid ≠ v) ∧ ∀ p ∈ m.procs, p.pid ≠ v

theorem Held.fork {n : Nat} {m0 m : M} (h : Held n m0 m) (x : P) (ns : List Nat) (hx : x.pid ∉ m.used) :
    Held n m0 { m with procs := x :: m.procs, used := x.pid :: m.used, usedNs := ns } := by
  have key : ∀ v ∈ m.used, (∀ p ∈ m.procs, p.pid ≠ v) → ∀ p ∈ x :: m.procs, p.pid ≠ v := by
    intro v hv h3 p hp
    rcases List.mem_cons.1 hp with rfl | hp
    · exact fun he => hx (he ▸ hv)
    · exact h3 p hp
  refine ⟨?_, fun q hq => ⟨List.mem_cons_of_mem _ (h.slain q hq).1, key _ (h.slain q hq).1 (h.slain q hq).2⟩,
    fun v hv => ⟨(h.hand v hv).1, List.mem_cons_of_mem _ (h.hand v hv).2.1, (h.hand v hv).2.2⟩, fun hf => ?_⟩
  · intro p hp
    rcases List.mem_cons.1 hp with rfl | hp
    · exact List.mem_cons_self
    · exact List.mem_cons_of_mem _ (h.used p hp)
  · obtain ⟨v, h1, h2, h3, h4⟩ := h.gone hf
    exact ⟨v, h1, List.mem_cons_of_mem _ h2, h3, key v h2 h4⟩

theorem Held.reach {n : Nat} {i : P} {m0 m : M} (h0 : Start n i m0) (h : Reach n m0 m) : Held n m0 m := by
  have hi := h0.idle
  induction h with
  | start => exact ⟨h0.used, (fun q hq => by rw [h0.fresh.2] at hq; cases hq), (fun v hv => by simp [hi] at hv), (fun hv => by simp [hi] at hv)⟩
  | @step a b hr hs ih =>
    have hpids := (Inv.reach h0 hr).pids
    cases hs with
    | fork p pid hp hpid => exact ih.fork ⟨pid, p.ns, p.outer, false⟩ a.usedNs hpid
    | unshare p pid ns hp hpid hns => exact ih.fork ⟨pid, ns, p.ns :: p.outer, true⟩ (ns :: a.usedNs) hpid
    | exit p hp =>
      exact ⟨fun q hq => ih.used q (mem_die.1 hq).1, fun q hq => ⟨(ih.slain q hq).1, fun r hr => (ih.slain q hq).2 r (mem_die.1 hr).1⟩, ih.hand,
        fun hf => let ⟨v, h1, h2, h3, h4⟩ := ih.gone hf
        ⟨v, h1, h2, h3, fun q hq => h4 q (mem_die.1 hq).1⟩⟩
    | skip pid hph hu hno => exact ⟨ih.used, ih.slain, ih.hand, ih.gone⟩
    | look p hph hp =>
      refine ⟨ih.used, ih.slain, ?_, fun hf => by cases hf⟩
      rintro v (hv | hv | hv)
      · cases hv; exact ⟨⟨a, hr, p, hp, rfl⟩, ih.used p hp, fun q hq he => (ih.slain q hq).2 p hp he.symm⟩
      · cases hv
      · cases hv
    | noLink pid hph hno =>
      obtain ⟨h1, h2, h3⟩ := ih.hand pid (.inl hph)
      exact ⟨ih.used, ih.slain, by simp, fun _ => ⟨pid, h1, h2, h3, hno⟩⟩
    | other p hph hp hns => exact ⟨ih.used, ih.slain, by simp, by simp⟩
    | member p hph hp hns =>
      refine ⟨ih.used, ih.slain, ?_, by simp⟩
      rintro v (hv | hv | hv)
      · cases hv
      · cases hv; exact ih.hand _ (.inl hph)
      · cases hv
    | noCmdline pid hph hno =>
      obtain ⟨h1, h2, h3⟩ := ih.hand pid (.inr (.inl hph))
      exact ⟨ih.used, ih.slain, by simp, fun _ => ⟨pid, h1, h2, h3, hno⟩⟩
    | cmdline p hph hp =>
      refine ⟨ih.used, ih.slain, ?_, by simp⟩
      rintro v (hv | hv | hv)
      · cases hv
      · cases hv
      · cases hv; exact ih.hand _ (.inr (.inl hph))
    | killGone pid hph hno => exact ⟨ih.used, ih.slain, by simp, by simp⟩
    | kill p hph hp =>
      refine ⟨fun q hq => ih.used q (mem_die.1 hq).1, fun q hq => ?_, by simp, by simp⟩
      rcases List.mem_append.1 hq with hq | hq
      · obtain ⟨hq, ht⟩ := List.mem_filter.1 hq
        refine ⟨ih.used q hq, fun r hr he => ?_⟩
        obtain ⟨hr, hn⟩ := mem_die.1 hr
        exact hn (hpids r hr q hq he ▸ of_decide_eq_true ht)
      · exact ⟨(ih.slain q hq).1, fun r hr => (ih.slain q hq).2 r (mem_die.1 hr).1⟩
    | finish hph hv => exact ⟨ih.used, ih.slain, by simp, by simp⟩

end Scan

open Scan in
/-- **C47**, completeness under concurrency (if the process in the pid file is the sandbox's init): whatever other processes do meanwhile (fork, create namespaces,
exit), when the scan ends without an error no process is left in the sandbox's pid namespace or in one inside it. -/
theorem C47_scan_complete (n : Nat) (i : P) (m0 m : M) (h0 : Start n i m0) (h : Reach n m0 m) (hd : m.phase = .done) : ∀ q ∈ m.procs, ¬ q.isIn n := by
  intro q hq hin
  have inv := Inv.reach h0 h
  exact inv.done hd (inv.ini q hq hin)

open Scan in
/-- **C47**, soundness under concurrency: at every moment, every process that died from a signal of the scan was in the sandbox's namespace. -/
theorem C47_scan_sound (n : Nat) (i : P) (m0 m : M) (h0 : Start n i m0) (h : Reach n m0 m) : ∀ q ∈ m.slain, q.isIn n :=
  (Inv.reach h0 h).slain

open Scan in
/-- **C47** (the only reason to fail).  If the scan gives up, a process that was living during the scan has died, and not from a signal of the scan: on a machine
where nothing else dies meanwhile, `stop` does not fail. -/
theorem C47_scan_fails (n : Nat) (i : P) (m0 m : M) (h0 : Start n i m0) (h : Reach n m0 m) (hf : m.phase = .failed) :
    ∃ v, Spec.Lived n m0 v ∧ (∀ q ∈ m.slain, q.pid ≠ v) ∧ ∀ p ∈ m.procs, p.pid ≠ v :=
  let ⟨v, h1, _, h3, h4⟩ := (Held.reach h0 h).gone hf
  ⟨v, h1, h3, h4⟩

namespace ScanEx
open Scan

/-- Host process 1 and 50, sandbox with init 42 (namespace 20 inside 10) and its child 43. -/
def m0 : M := ⟨[⟨1, 10, [], true⟩, ⟨42, 20, [10], true⟩, ⟨43, 20, [10], false⟩, ⟨50, 10, [], false⟩], [1, 42, 43, 50], [10, 20], [], [], .idle⟩

theorem start : Start 20 ⟨42, 20, [10], true⟩ m0 := by
  refine ⟨rfl, ⟨rfl, rfl⟩, by decide, by decide, ?_, by decide, ?_⟩
  · intro p hp x hx
    simp only [m0, List.mem_cons, List.not_mem_nil, or_false] at hp
    rcases hp with rfl | rfl | rfl | rfl <;> simp [P.isIn, m0] at * <;> omega
  · intro q hq hin x hx
    simp only [m0, List.mem_cons, List.not_mem_nil, or_false] at hq
    rcases hq with rfl | rfl | rfl | rfl <;> simp_all [P.isIn]

/-- Non-vacuity: a scan that visits 1 and 43, sees 42 fork process 60, kills 42 and finishes. -/
theorem run : ∃ m, Reach 20 m0 m ∧ m.phase = .done ∧ m.procs.map P.pid = [1, 50] ∧ m.slain.map P.pid = [60, 42, 43] := by
  have r1 := Reach.step .start (Step.look (n := 20) m0 ⟨1, 10, [], true⟩ rfl (by decide))
  have r2 := r1.step (Step.other _ ⟨1, 10, [], true⟩ rfl (by decide) (by decide))
  have r3 := r2.step (Step.look _ ⟨42, 20, [10], true⟩ rfl (by decide))
  have r4 := r3.step (Step.member _ ⟨42, 20, [10], true⟩ rfl (by decide) rfl)
  have r5 := r4.step (Step.cmdline _ ⟨42, 20, [10], true⟩ rfl (by decide))
  have r6 := r5.step (Step.fork _ ⟨43, 20, [10], false⟩ 60 (by decide) (by decide))
  have r7 := r6.step (Step.kill _ ⟨42, 20, [10], true⟩ rfl (by decide))
  have r8 := r7.step (Step.look _ ⟨50, 10, [], false⟩ rfl (by decide))
  have r9 := r8.step (Step.other _ ⟨50, 10, [], false⟩ rfl (by decide) (by decide))
  exact ⟨_, r9.step (Step.finish _ rfl (by decide)), rfl, by decide, by decide⟩

end ScanEx

open Scan ScanEx in
/-- **C47 is refuted** as a whole: if a process of the sandbox exits between two looks at it, `stop` returns an error although other processes of the sandbox
are left (here 43 exits; the init 42 goes on living). -/
theorem C47_refuted_race : ∃ m, Reach 20 m0 m ∧ m.phase = .failed ∧ (⟨42, 20, [10], true⟩ : P) ∈ m.procs := by
  refine ⟨_, .step (.step (.step .start (.look m0 ⟨43, 20, [10], false⟩ rfl (by decide))) (.exit _ ⟨43, 20, [10], false⟩ (by decide)))
    (.noLink _ 43 rfl (by decide)), rfl, by decide⟩

/-! ### The commands -/

/-- The process whose number is in the pid file of sandbox `name`. -/
def Spec.PidFileNames (s : Sys) (storage : Path) (name : Name) (p : Proc) : Prop :=
  p ∈ s.procs ∧ ∃ t, readText s.fs (storage ++ [name ++ str ".pid"]) = some t ∧ Spec.Numeral t p.pid

theorem runningPid_some {s : Sys} {storage : Path} {name : Name} {pid : Nat} (h : runningPid s storage name = some pid) :
    ∃ p, s.procs.find? (fun q => q.pid = pid) = some p ∧ Spec.PidFileNames s storage name p := by
  unfold runningPid at h
  split at h
  · cases h
  · rename_i i hi
    split at h
    · cases h
    · rename_i p hp
      split at h
      · cases h
      · split at h
        · cases h
          have hpi : (p.pid : Int) = i := by simpa using List.find?_some hp
          refine ⟨p, ?_, List.mem_of_find?_eq_some hp, ?_⟩
          · rw [← hp]; congr 1; funext q; simp only [← hpi, Int.natCast_inj]
          · rw [Option.bind_eq_some_iff] at hi
            obtain ⟨t, ht, hti⟩ := hi
            exact ⟨t, ht, (parseI32_iff _ _).1 (by rw [hti, hpi])⟩
        · cases h

theorem readText_openLock {fs fs' : FS} {storage : Path} {name : Name} (hw : fs.WF) (hs : fs.isDirAt storage = true) (hn : '/' ∉ name)
    (hl : ∀ n, fs.get (storage ++ [name ++ str ".pid"]) = some n → n.isLnk = false)
    (h : openLock fs (lockFile storage name) = .ok fs') : readText fs' (pidFile storage name) = readText fs (pidFile storage name) := by
  obtain ⟨ht, hk, _⟩ := openLock_touch hw hs hn h
  have hg : fs'.get (storage ++ [name ++ str ".pid"]) = fs.get (storage ++ [name ++ str ".pid"]) := by
    rcases ht.keep (storage ++ [name ++ str ".pid"]) with hh | ⟨n, rfl, ⟨_, hh⟩ | ⟨he, _⟩⟩
    · exact hh
    · cases hg : fs.get (storage ++ [n ++ str ".pid"]) with
      | none => exact hh
      | some m => rw [hk _ _ hg] at hh; cases hh
    · have := List.append_cancel_left he; simp [str] at this
  unfold readText
  change fs'.get (pidFile storage name) = fs.get (pidFile storage name) at hg
  have h1 : fs'.stat (pidFile storage name) = _ := FS.stat_chain (normal_child ht.wf (ht.storage hs) (normal_pid hn)) ht.wf.root (chain_child ht.wf (ht.storage hs) _)
    (by rw [hg]; exact hl)
  have h2 : fs.stat (pidFile storage name) = _ := FS.stat_chain (normal_child hw hs (normal_pid hn)) hw.root (chain_child hw hs _) hl
  rw [h1, h2, hg]

theorem getSandbox_pid {s s' : Sys} {storage : Path} {name : Name} {pid : Nat} (hw : s.fs.WF) (hs : s.fs.isDirAt storage = true) (hn : '/' ∉ name)
    (hl : ∀ n, s.fs.get (storage ++ [name ++ str ".pid"]) = some n → n.isLnk = false) (h : getSandbox s storage name = .ok (s', some pid)) :
    ∃ p, s.procs.find? (fun q => q.pid = pid) = some p ∧ Spec.PidFileNames s storage name p := by
  unfold getSandbox at h
  cases ho : openLock s.fs (lockFile storage name) with
  | error e => rw [ho] at h; cases h
  | ok fs1 =>
    rw [ho] at h
    dsimp only at h
    split at h
    · cases h
    · split at h
      · rename_i pid' hr
        cases h
        obtain ⟨p, hp, hm, t, ht, hi⟩ := runningPid_some hr
        refine ⟨p, hp, hm, t, ?_, hi⟩
        exact (readText_openLock hw hs hn hl ho).symm.trans ht
      · split at h
        · split at h <;> cases h
        · cases h

/-- **C47**, the command on its own: processes are only killed if the process in the pid file exists, and then exactly those in the namespace of
that process's children (whatever fails). -/
theorem C47_stop_kills (fault : Fault) (s : Sys) (storage : Path) (name : Name) (hw : s.fs.WF) (hs : s.fs.isDirAt storage = true) (hn : '/' ∉ name)
    (hl : ∀ n, s.fs.get (storage ++ [name ++ str ".pid"]) = some n → n.isLnk = false) :
    (stopSandbox fault s storage name).1.procs = s.procs ∨
    ∃ p, Spec.PidFileNames s storage name p ∧ ∀ q, q ∈ (stopSandbox fault s storage name).1.procs ↔ q ∈ s.procs ∧ q.ns ≠ p.nsChildren := by
  unfold stopSandbox
  cases hg : getSandbox s storage name with
  | error e => exact .inl rfl
  | ok x =>
    obtain ⟨s1, pid⟩ := x
    obtain ⟨_, hpr, _⟩ := getSandbox_touch hw hs hn hg
    have hk : (killSandbox s1 pid).procs = s.procs ∨ ∃ p, Spec.PidFileNames s storage name p ∧ ∀ q, q ∈ (killSandbox s1 pid).procs ↔ q ∈ s.procs ∧ q.ns ≠ p.nsChildren := by
      cases pid with
      | none => exact .inl hpr
      | some pid =>
        obtain ⟨p, hp, hf⟩ := getSandbox_pid hw hs hn hl hg
        right
        refine ⟨p, hf, fun q => ?_⟩
        unfold killSandbox
        rw [hpr]
        simp only [hp, List.mem_filter, decide_eq_true_eq]
    dsimp only
    split <;> exact hk

/-- **C47**, files: after success the pid file is gone; nothing else changes except that a missing lock file is created. -/
theorem C47_stop_files (fault : Fault) (s : Sys) (storage : Path) (name : Name) (hw : s.fs.WF) (hs : s.fs.isDirAt storage = true) (hn : '/' ∉ name)
    (hl : ∀ n, s.fs.get (storage ++ [name ++ str ".pid"]) = some n → n.isLnk = false) :
    (∀ q, q ≠ storage ++ [name ++ str ".pid"] → (s.fs.get q ≠ none ∨ q ≠ storage ++ [name ++ str ".lock"]) → (stopSandbox fault s storage name).1.fs.get q = s.fs.get q) ∧
    ((stopSandbox fault s storage name).2 = none → (stopSandbox fault s storage name).1.fs.get (storage ++ [name ++ str ".pid"]) = none) := by
  unfold stopSandbox
  cases hg : getSandbox s storage name with
  | error e => exact ⟨fun _ _ _ => rfl, fun h => by cases h⟩
  | ok x =>
    obtain ⟨s1, pid⟩ := x
    obtain ⟨ht, _, _, hk, _⟩ := getSandbox_touch hw hs hn hg
    have hpe : ∀ q, q ≠ storage ++ [name ++ str ".pid"] → (s.fs.get q ≠ none ∨ q ≠ storage ++ [name ++ str ".lock"]) → s1.fs.get q = s.fs.get q := by
      intro q hq hor
      cases hgq : s.fs.get q with
      | some n => exact (hk q n hgq).resolve_right hq
      | none =>
        have hlk := hor.resolve_left (fun h => h hgq)
        rcases ht.keep q with hh | ⟨n, rfl, ⟨_, hh⟩ | ⟨he, _⟩⟩
        · rw [hh, hgq]
        · exact hh
        · exact absurd he hlk
    dsimp only
    rw [killSandbox_fs]
    cases hr : removePidFile fault s1.fs storage name with
    | error e => dsimp only; rw [killSandbox_fs]; exact ⟨hpe, fun h => by cases h⟩
    | ok fs2 =>
      obtain ⟨_, h2, h3⟩ := removePidFile_ok ht.wf (ht.storage hs) hn hr
      exact ⟨fun q hq hor => by rw [h2 q hq]; exact hpe q hq hor, fun _ => h3 (ht.nolink hl)⟩

theorem regl {n : Node} (h : n.isReg = true) : n.isLnk = false := by
  unfold Node.isReg at h; unfold Node.isLnk; cases hk : n.kind <;> simp_all [Kind.isReg, Kind.isLnk]

theorem regd {n : Node} (h : n.isReg = true) : n.isDir = false := by
  unfold Node.isReg at h; unfold Node.isDir; cases hk : n.kind <;> simp_all [Kind.isReg]

/-- A process that is neither a zombie nor stopped (states as in proc(5)), in a program whose name has no white space in it. -/
structure Spec.Living (p : Proc) : Prop where
  name : ∀ c ∈ p.comm, Spec.white c = false
  state : p.state ∈ ['R', 'S', 'D', 't', 'I', 'P', 'X']

theorem Spec.Living.word {p : Proc} (h : Spec.Living p) : ∃ w, statWord p = some w ∧ w ≠ ['Z'] ∧ w ≠ ['T'] := by
  have h2 : ∀ c ∈ ['R', 'S', 'D', 't', 'I', 'P', 'X'], isWs c = false ∧ [c] ≠ ['Z'] ∧ [c] ≠ ['T'] := by decide
  exact ⟨_, statWord_of (isWs_eq ▸ h.name) (h2 _ h.state).1, (h2 _ h.state).2⟩

/-- The command finds the running process. -/
theorem getSandbox_running (s : Sys) (storage : Path) (name : Name) (p : Proc) (hw : s.fs.WF) (hs : s.fs.isDirAt storage = true) (hn : NormalName name)
    (hdir : s.fs.isDirAt (storage ++ [name]) = true) (hlock : ∃ n, s.fs.get (storage ++ [name ++ str ".lock"]) = some n ∧ n.isReg = true)
    (hpidf : ∃ n, s.fs.get (storage ++ [name ++ str ".pid"]) = some n ∧ n.isReg = true)
    (hp : Spec.PidFileNames s storage name p) (huniq : ∀ q ∈ s.procs, q.pid = p.pid → q = p) (hlive : Spec.Living p) :
    getSandbox s storage name = .ok (s, some p.pid) := by
  obtain ⟨w, hst, hZ⟩ := hlive.word
  obtain ⟨ln, hln, hlr⟩ := hlock
  obtain ⟨pn, hpn, hpr⟩ := hpidf
  have hln' : s.fs.get (lockFile storage name) = some ln := hln
  have hol : openLock s.fs (lockFile storage name) = .ok s.fs := by
    have hst : s.fs.stat (lockFile storage name) = _ := FS.stat_chain (normal_child hw hs (normal_lock hn.2.1)) hw.root (chain_child hw hs _)
      (by intro n h; change s.fs.get (lockFile storage name) = _ at h; rw [hln'] at h; cases h; exact regl hlr)
    rw [hln'] at hst
    unfold openLock FS.pexists FS.pisDir
    rw [hst]
    simp [regd hlr]
  obtain ⟨hpm, t, ht, hti⟩ := hp
  have hpid : runningPid s storage name = some p.pid := by
    unfold runningPid
    have ht' : readText s.fs (pidFile storage name) = some t := ht
    rw [ht']
    simp only [Option.bind_some, (parseI32_iff _ _).2 hti]
    have hf : s.procs.find? (fun q => decide ((q.pid : Int) = (p.pid : Int))) = some p := by
      cases hfc : s.procs.find? (fun q => decide ((q.pid : Int) = (p.pid : Int))) with
      | none =>
        rw [List.find?_eq_none] at hfc
        exact absurd (by simp) (hfc p hpm)
      | some q =>
        have h1 := List.find?_some hfc
        have h2 := List.mem_of_find?_eq_some hfc
        simp only [decide_eq_true_eq, Int.natCast_inj] at h1
        rw [huniq q h2 h1]
    rw [hf]
    dsimp only
    rw [hst]
    dsimp only
    rw [if_pos hZ]
  obtain ⟨dn, hdn, hdd⟩ := FS.isDirAt_iff.1 hdir
  have hde : s.fs.pexists (storage ++ [name]) = true := by
    rw [pexists_child hw hs hn (fun n h => by rw [hdn] at h; cases h; unfold Node.isDir at hdd; unfold Node.isLnk; simp at hdd; rw [hdd]; rfl), hdn]; rfl
  unfold getSandbox
  rw [hol]
  dsimp only
  rw [sandboxDir_normal hn, hde, hpid]
  simp

/-- **C47**: stopping a running sandbox (its directory and lock file exist, the pid file names a process that is neither a zombie nor stopped) kills all of them. -/
theorem C47_stop_running (s : Sys) (storage : Path) (name : Name) (p : Proc) (hw : s.fs.WF) (hs : s.fs.isDirAt storage = true) (hn : NormalName name)
    (hdir : s.fs.isDirAt (storage ++ [name]) = true) (hlock : ∃ n, s.fs.get (storage ++ [name ++ str ".lock"]) = some n ∧ n.isReg = true)
    (hpidf : ∃ n, s.fs.get (storage ++ [name ++ str ".pid"]) = some n ∧ n.isReg = true)
    (hp : Spec.PidFileNames s storage name p) (huniq : ∀ q ∈ s.procs, q.pid = p.pid → q = p) (hlive : Spec.Living p) :
    (stopSandbox noFault s storage name).2 = none ∧
    ∀ q, q ∈ (stopSandbox noFault s storage name).1.procs ↔ q ∈ s.procs ∧ q.ns ≠ p.nsChildren := by
  have hgs := getSandbox_running s storage name p hw hs hn hdir hlock hpidf hp huniq hlive
  obtain ⟨pn, hpn, hpr⟩ := hpidf
  obtain ⟨hpm, _⟩ := hp
  have hun : s.fs.unlink (pidFile storage name) = .ok (s.fs.del (pidFile storage name)) := hw.unlink_eq hpn (regd hpr)
  have hrm : removePidFile noFault s.fs storage name = .ok (s.fs.del (pidFile storage name)) := by
    have hpe := pexists_child hw hs (normal_pid hn.2.1) (fun n h => by rw [hpn] at h; cases h; exact regl hpr)
    rw [hpn] at hpe
    unfold removePidFile
    have hpe' : s.fs.pexists (pidFile storage name) = true := hpe
    rw [if_pos hpe', hun]; rfl
  have hres : stopSandbox noFault s storage name = ({ killSandbox s (some p.pid) with fs := s.fs.del (pidFile storage name) }, none) := by
    unfold stopSandbox
    rw [hgs]
    dsimp only
    rw [killSandbox_fs, hrm]
  refine ⟨by rw [hres], fun q => ?_⟩
  rw [hres]
  have hf : s.procs.find? (fun q => decide (q.pid = p.pid)) = some p := by
    cases hfc : s.procs.find? (fun q => decide (q.pid = p.pid)) with
    | none => rw [List.find?_eq_none] at hfc; exact absurd (by simp) (hfc p hpm)
    | some q =>
      have h1 := List.find?_some hfc
      simp only [decide_eq_true_eq] at h1
      rw [huniq q (List.mem_of_find?_eq_some hfc) h1]
  simp only [killSandbox, hf, List.mem_filter, decide_eq_true_eq]

/-- **C47**: deleting a running sandbox kills all its processes and no other, whichever deletion fails afterwards. -/
theorem C47_delete_running (fault : Fault) (s : Sys) (storage : Path) (name : Name) (p : Proc) (hw : s.fs.WF) (hs : s.fs.isDirAt storage = true) (hn : NormalName name)
    (hdir : s.fs.isDirAt (storage ++ [name]) = true) (hlock : ∃ n, s.fs.get (storage ++ [name ++ str ".lock"]) = some n ∧ n.isReg = true)
    (hpidf : ∃ n, s.fs.get (storage ++ [name ++ str ".pid"]) = some n ∧ n.isReg = true)
    (hp : Spec.PidFileNames s storage name p) (huniq : ∀ q ∈ s.procs, q.pid = p.pid → q = p) (hlive : Spec.Living p) :
    ∀ q, q ∈ (deleteEach fault storage [name] s).1.procs ↔ q ∈ s.procs ∧ q.ns ≠ p.nsChildren := by
  intro q
  have hgs := getSandbox_running s storage name p hw hs hn hdir hlock hpidf hp huniq hlive
  obtain ⟨hpm, _⟩ := hp
  have hk : q ∈ (killSandbox s (some p.pid)).procs ↔ q ∈ s.procs ∧ q.ns ≠ p.nsChildren := by
    have hf : s.procs.find? (fun q => decide (q.pid = p.pid)) = some p := by
      cases hfc : s.procs.find? (fun q => decide (q.pid = p.pid)) with
      | none => rw [List.find?_eq_none] at hfc; exact absurd (by simp) (hfc p hpm)
      | some q =>
        have h1 := List.find?_some hfc
        simp only [decide_eq_true_eq] at h1
        rw [huniq q (List.mem_of_find?_eq_some hfc) h1]
    simp only [killSandbox, hf, List.mem_filter, decide_eq_true_eq]
  have hd : (deleteSandbox fault s storage name (some p.pid)).1.procs = (killSandbox s (some p.pid)).procs := by
    unfold deleteSandbox
    dsimp only
    split
    · rfl
    · split
      · rfl
      · split <;> rfl
  rw [← hk, ← hd]
  unfold deleteEach
  rw [hgs]
  dsimp only
  split <;> rename_i h <;> rw [h] <;> rfl

/-- Non-vacuity: `b` is running with processes 42 and 43. -/
example : (stopSandbox noFault exSys exSb (str "b")).2 = none ∧ (stopSandbox noFault exSys exSb (str "b")).1.procs.map Proc.pid = [1, 7] ∧
    readText exSys.fs (exSb ++ [str "b" ++ str ".pid"]) = some (str "42") := by decide +kernel
example : Spec.Living ⟨42, str "sandbox", 'S', 20, 20⟩ := ⟨by decide, by decide⟩
example : Spec.PidFileNames exSys exSb (str "b") ⟨42, str "sandbox", 'S', 20, 20⟩ := ⟨by decide, str "42", by decide +kernel, decimal_numeral 42 (by decide)⟩

/-- **C47 is refuted** for a program whose name has white space in it (it is started through a link called `box Z 2`, say): the third word of its `/proc/PID/stat` is
not the state, so a running sandbox is taken for a dead one.  `stop` succeeds, removes the pid file, and every process of the sandbox goes on running. -/
theorem C47_refuted_blank : let s : Sys := { exSys with procs := [⟨1, str "init", 'S', 10, 10⟩, ⟨42, str "box Z 2", 'S', 20, 20⟩, ⟨43, str "sleep", 'S', 20, 20⟩] }
    readText s.fs (exSb ++ [str "b.pid"]) = some (str "42") ∧ (stopSandbox noFault s exSb (str "b")).2 = none ∧
    (stopSandbox noFault s exSb (str "b")).1.procs = s.procs ∧ (stopSandbox noFault s exSb (str "b")).1.fs.get (exSb ++ [str "b.pid"]) = none := by decide +kernel

/-- **C47 is refuted**: a pid file left over from before (a crash, a reboot) may name an ordinary process of the host by now; `stop` (and `delete`) then kills every
process in the host's pid namespace. -/
def exReuse : Sys := { exSys with fs := exSysFs.set (exSb ++ [str "a.pid"]) { kind := .reg (str "7") } }

theorem C47_refuted_reused_pid : (⟨1, str "init", 'S', 10, 10⟩ : Proc) ∈ exReuse.procs ∧ (stopSandbox noFault exReuse exSb (str "a")).2 = none ∧
    (stopSandbox noFault exReuse exSb (str "a")).1.procs.map Proc.pid = [42, 43] := by decide +kernel

end SB
