import Verif.Model.Logger

/-! # C56: log messages before configuration are neither lost nor leaked -/

namespace SB

/-- The level in force after some operations. -/
def Spec.levelAfter (start : Nat) (ops : List LogOp) : Nat :=
  (ops.filterMap (fun o => match o with | .setLevel l => some l | _ => none)).getLast?.getD start

/-- The messages among the operations. -/
def Spec.messages (ops : List LogOp) : List (Nat × Str) := ops.filterMap fun o => match o with | .log l m => some (l, m) | _ => none

/-- The text that must appear for the operations after the first `print_deferred`: every message that passes the level in force when it is logged. -/
inductive Spec.Live : Nat → List LogOp → List Str → Prop
  | done (lvl : Nat) : Spec.Live lvl [] []
  | setLevel (lvl l : Nat) (r : List LogOp) (o : List Str) : Spec.Live l r o → Spec.Live lvl (.setLevel l :: r) o
  | print (lvl : Nat) (r : List LogOp) (o : List Str) : Spec.Live lvl r o → Spec.Live lvl (.printDeferred :: r) o
  | shown (lvl l : Nat) (m : Str) (r : List LogOp) (o : List Str) : l ≤ lvl → Spec.Live lvl r o → Spec.Live lvl (.log l m :: r) (m :: o)
  | dropped (lvl l : Nat) (m : Str) (r : List LogOp) (o : List Str) : lvl < l → Spec.Live lvl r o → Spec.Live lvl (.log l m :: r) o

theorem Logger.run_deferring : ∀ (ops : List LogOp) (s : Logger), .printDeferred ∉ ops → s.deferring = true →
    s.run ops = ⟨Spec.levelAfter s.level ops, true, s.deferred ++ Spec.messages ops, s.out⟩
  | [], s, _, hd => by cases s; simp_all [Logger.run, Spec.levelAfter, Spec.messages]
  | op :: r, s, hn, hd => by
    have hr : .printDeferred ∉ r := fun h => hn (List.mem_cons_of_mem _ h)
    have : s.run (op :: r) = (s.step op).run r := rfl
    rw [this]
    cases op with
    | printDeferred => simp at hn
    | setLevel l =>
      rw [Logger.run_deferring r _ hr (by simpa [Logger.step] using hd)]
      simp only [Logger.step, Spec.messages, List.filterMap_cons, Spec.levelAfter]
      congr 1
      cases hl : (r.filterMap (fun o => match o with | .setLevel l => some l | _ => none)) with
      | nil => simp
      | cons a t => simp [List.getLast?_cons]
    | log l m =>
      rw [Logger.run_deferring r _ hr (by simp [Logger.step, hd])]
      simp [Logger.step, hd, Spec.messages, Spec.levelAfter]

theorem Logger.run_live : ∀ (ops : List LogOp) (s : Logger), s.deferring = false → s.deferred = [] → ∃ o, Spec.Live s.level ops o ∧ (s.run ops).out = s.out ++ o
  | [], s, _, _ => ⟨[], .done _, by simp [Logger.run]⟩
  | op :: r, s, hd, he => by
    have : s.run (op :: r) = (s.step op).run r := rfl
    rw [this]
    cases op with
    | printDeferred =>
      obtain ⟨o, h1, h2⟩ := Logger.run_live r (s.step .printDeferred) rfl rfl
      exact ⟨o, .print _ _ _ h1, by rw [h2]; simp [Logger.step, he]⟩
    | setLevel l =>
      obtain ⟨o, h1, h2⟩ := Logger.run_live r (s.step (.setLevel l)) hd he
      exact ⟨o, .setLevel _ _ _ _ h1, h2⟩
    | log l m =>
      by_cases hl : l ≤ s.level
      · obtain ⟨o, h1, h2⟩ := Logger.run_live r (s.step (.log l m)) (by simp [Logger.step, hd, hl]) (by simp [Logger.step, hd, hl, he])
        have hlev : (s.step (.log l m)).level = s.level := by simp [Logger.step, hd, hl]
        exact ⟨m :: o, .shown _ _ _ _ _ hl (hlev ▸ h1), by rw [h2]; simp [Logger.step, hd, hl]⟩
      · have hs : s.step (.log l m) = s := by simp [Logger.step, hd, hl]
        obtain ⟨o, h1, h2⟩ := Logger.run_live r s hd he
        exact ⟨o, .dropped _ _ _ _ _ (by omega) h1, by rw [hs]; exact h2⟩

/-- `Live` determines the output. -/
theorem Spec.Live.unique {lvl : Nat} {ops : List LogOp} {o o' : List Str} (h : Spec.Live lvl ops o) (h' : Spec.Live lvl ops o') : o = o' := by
  induction h generalizing o' with
  | done => cases h'; rfl
  | setLevel _ _ _ _ _ ih => cases h'; exact ih ‹_›
  | print _ _ _ _ ih => cases h'; exact ih ‹_›
  | shown _ _ _ _ _ h1 _ ih => cases h' with
    | shown _ _ _ _ _ _ h2 => rw [ih h2]
    | dropped _ _ _ _ _ h2 => omega
  | dropped _ _ _ _ _ h1 _ ih => cases h' with
    | shown _ _ _ _ _ h2 => omega
    | dropped _ _ _ _ _ _ h2 => exact ih h2

/-- **C56**: whatever sequence of log calls and level changes happens before and after `print_deferred`, the output is: the earlier messages that pass the level in force
at `print_deferred`, in order, then the later messages that pass the level in force when they are logged, in order. -/
theorem C56_output (start : Nat) (pre post : List LogOp) (h : .printDeferred ∉ pre) :
    ∃ later, Spec.Live (Spec.levelAfter start pre) post later ∧
      ((Logger.new start).run (pre ++ .printDeferred :: post)).out =
        ((Spec.messages pre).filter (fun m => decide (m.1 ≤ Spec.levelAfter start pre))).map Prod.snd ++ later := by
  have h1 := Logger.run_deferring pre (Logger.new start) h rfl
  have h2 : (Logger.new start).run (pre ++ .printDeferred :: post) = (((Logger.new start).run pre).step .printDeferred).run post := by
    simp [Logger.run, List.foldl_append]
  rw [h2, h1]
  obtain ⟨o, h3, h4⟩ := Logger.run_live post ((⟨Spec.levelAfter start pre, true, [] ++ Spec.messages pre, []⟩ : Logger).step .printDeferred) rfl rfl
  refine ⟨o, h3, ?_⟩
  rw [show (Logger.new start).level = start from rfl, show (Logger.new start).deferred = [] from rfl, show (Logger.new start).out = [] from rfl, h4]
  simp [Logger.step]

/-- Before `print_deferred` nothing is written. -/
theorem C56_nothing_early (start : Nat) (pre : List LogOp) (h : .printDeferred ∉ pre) : ((Logger.new start).run pre).out = [] := by
  rw [Logger.run_deferring pre (Logger.new start) h rfl]; rfl

theorem messages_map (l : List (Nat × Str)) : Spec.messages (l.map fun m => .log m.1 m.2) = l := by
  induction l with
  | nil => rfl
  | cons a r ih => simp only [List.map_cons, Spec.messages, List.filterMap_cons] at ih ⊢; rw [ih]

theorem live_map (lvl : Nat) (l : List (Nat × Str)) : Spec.Live lvl (l.map fun m => .log m.1 m.2) ((l.filter (fun m => decide (m.1 ≤ lvl))).map Prod.snd) := by
  induction l with
  | nil => exact .done _
  | cons a r ih =>
    by_cases h : a.1 ≤ lvl
    · simpa [h] using Spec.Live.shown lvl a.1 a.2 _ _ h ih
    · simpa [h] using Spec.Live.dropped lvl a.1 a.2 _ _ (by omega) ih

/-- **C56** for the program: if the configuration is resolved, all messages of the run, early and late, are filtered by the configured level, whatever the command line
says; order is kept. -/
theorem C56_main (cli : Option Nat) (early late : List (Nat × Str)) (cfg : Nat) :
    ((Logger.new 5).run (mainLogOps cli early (some cfg) late)).out = ((early ++ late).filter (fun m => decide (m.1 ≤ cfg))).map Prod.snd := by
  have hpre : LogOp.printDeferred ∉ (.setLevel (cli.getD 3) :: early.map (fun m => .log m.1 m.2) ++ [.setLevel cfg] : List LogOp) := by simp
  have hops : mainLogOps cli early (some cfg) late =
      (.setLevel (cli.getD 3) :: early.map (fun m => .log m.1 m.2) ++ [.setLevel cfg]) ++ .printDeferred :: late.map (fun m => .log m.1 m.2) := by
    simp [mainLogOps]
  have hlev : Spec.levelAfter 5 (.setLevel (cli.getD 3) :: early.map (fun m => .log m.1 m.2) ++ [.setLevel cfg]) = cfg := by
    unfold Spec.levelAfter
    rw [List.filterMap_append]
    simp
  have hmsg : Spec.messages (.setLevel (cli.getD 3) :: early.map (fun m => .log m.1 m.2) ++ [.setLevel cfg]) = early := by
    have := messages_map early
    simp only [Spec.messages] at this
    simp only [Spec.messages, List.filterMap_append, List.filterMap_cons, List.cons_append, this, List.filterMap_nil, List.append_nil]
  obtain ⟨o, h1, h2⟩ := C56_output 5 _ (late.map fun m => .log m.1 m.2) hpre
  rw [hops, h2, hlev, hmsg]
  rw [hlev] at h1
  rw [h1.unique (live_map cfg late)]
  simp

/-- **C56 refuted** when resolving fails: then main returns before `print_deferred` and every message, at any level, is lost. -/
theorem C56_refuted_failure (cli : Option Nat) (early late : List (Nat × Str)) : ((Logger.new 5).run (mainLogOps cli early none late)).out = [] :=
  C56_nothing_early 5 _ (by simp [mainLogOps])

/-- Non-vacuity: with `log-level = "warn"` the early warning appears, the early information does not. -/
example : ((Logger.new 5).run (mainLogOps none [(2, str "w1"), (3, str "i1")] (some 2) [(1, str "e2"), (4, str "d2")])).out = [str "w1", str "e2"] := by decide

end SB
