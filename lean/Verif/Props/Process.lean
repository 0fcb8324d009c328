import Verif.Model.Process

/-! # C52, C101-C103: waiting for the command, what processes inherit, what is left of them -/

namespace SB

/-! ### C52 -/

/-- Signals whose default action ends a process (signal(7)). -/
def Spec.Fatal (s : Nat) : Prop :=
  s ∈ [1, 2, 3, 4, 5, 6, 7, 8, 9, 10, 11, 12, 13, 14, 15, 16, 24, 25, 26, 27, 29, 30, 31]

instance (s : Nat) : Decidable (Spec.Fatal s) := by unfold Spec.Fatal; infer_instance

theorem fatal_iff (s : Nat) : endsByDefault s = true ↔ Spec.Fatal s := by
  by_cases h : s ≤ 31
  · revert s
    decide
  · simp only [endsByDefault, Spec.Fatal]
    constructor
    · intro e
      simp only [Bool.and_eq_true, decide_eq_true_eq] at e
      omega
    · intro e
      simp only [List.mem_cons, List.not_mem_nil, or_false] at e
      omega

/-- Nothing the waiting process notices: the command has not ended yet, or a signal arrives that does not end a process by default, or that the caller ignores. -/
def Spec.Unnoticed (caller : Disps) (e : WaitEvent) : Prop :=
  e = .status .other ∨ ∃ s, e = .received s ∧ (¬ Spec.Fatal s ∨ caller s = .ignored ∨ s = 13)

/-- The dispositions of `sandbox`, executed by `caller`. -/
abbrev waiting (caller : Disps) : Disps := runtimeDisps (execDisps caller)

theorem waiting_handled {caller : Disps} {s : Nat} (h : waiting caller s = .handled) : s = 11 ∨ s = 7 := by
  unfold waiting runtimeDisps at h
  split at h
  · cases h
  · split at h
    · rename_i h1
      exact h1.1
    · unfold execDisps at h
      split at h <;> cases h

theorem waiting_harmless {caller : Disps} {s : Nat} (h : ¬ Spec.Fatal s ∨ caller s = .ignored ∨ s = 13) :
    waiting caller s = .ignored ∨ waiting caller s = .default ∧ endsByDefault s = false := by
  cases hd : waiting caller s with
  | ignored => exact .inl rfl
  | handled =>
    exfalso
    rcases h with h | h | h
    · rcases waiting_handled hd with rfl | rfl <;> exact h (by decide)
    · have h13 : s ≠ 13 := by rcases waiting_handled hd with rfl | rfl <;> decide
      simp [waiting, runtimeDisps, execDisps, h, h13] at hd
    · subst h
      simp [waiting, runtimeDisps] at hd
  | default =>
    right
    refine ⟨rfl, ?_⟩
    rcases h with h | h | h
    · cases he : endsByDefault s with
      | false => rfl
      | true => exact absurd ((fatal_iff s).1 he) h
    · by_cases h13 : s = 13
      · subst h13
        simp [waiting, runtimeDisps] at hd
      · simp [waiting, runtimeDisps, execDisps, h, h13] at hd
    · subst h
      simp [waiting, runtimeDisps] at hd

theorem arrives_harmless {d : Disps} {s : Nat} (h : d s = .ignored ∨ d s = .default ∧ endsByDefault s = false) : signalArrives d s = some d := by
  unfold signalArrives
  rcases h with h | ⟨h, he⟩
  · rw [h]
  · rw [h]
    simp [he]

theorem unnoticed_step {caller : Disps} {e : WaitEvent} (h : Spec.Unnoticed caller e) (l : List WaitEvent) :
    waitLoop (waiting caller) (e :: l) = waitLoop (waiting caller) l := by
  rcases h with rfl | ⟨s, rfl, h⟩
  · rfl
  · rw [waitLoop, arrives_harmless (waiting_harmless h)]

theorem unnoticed_run {caller : Disps} : ∀ {pre : List WaitEvent}, (∀ e ∈ pre, Spec.Unnoticed caller e) → ∀ l,
    waitLoop (waiting caller) (pre ++ l) = waitLoop (waiting caller) l
  | [], _, _ => rfl
  | e :: r, h, l => by
    rw [List.cons_append, unnoticed_step (h e (by simp))]
    exact unnoticed_run (fun e' he => h e' (by simp [he])) l

/-- **C52**: the exit code is passed on, whatever was observed before, as long as the command had not ended before and the waiting process was not ended. -/
theorem C52_exit (caller : Disps) (pre post : List WaitEvent) (code : Nat) (hpre : ∀ e ∈ pre, Spec.Unnoticed caller e) :
    waitLoop (waiting caller) (pre ++ .status (.exited code) :: post) = .exit code := by
  rw [unnoticed_run hpre]
  rfl

/-- **C52**: a signal that ends the command ends the waiting process; except SIGPIPE, SIGSEGV, SIGBUS, real-time signals and signals the caller ignores. -/
theorem C52_signal_partial (caller : Disps) (pre post : List WaitEvent) (s : Nat) (hpre : ∀ e ∈ pre, Spec.Unnoticed caller e) (hs : Spec.Fatal s)
    (hex : s ≠ 13 ∧ s ≠ 11 ∧ s ≠ 7) (hi : caller s ≠ .ignored) :
    waitLoop (waiting caller) (pre ++ .status (.signaled s) :: post) = .killed s := by
  rw [unnoticed_run hpre]
  have hn : nixSignal s = true := by
    revert hs
    unfold Spec.Fatal nixSignal
    intro hs
    simp only [List.mem_cons, List.not_mem_nil, or_false] at hs
    exact decide_eq_true (by omega)
  have ha : signalArrives (waiting caller) s = none := by
    have hd : waiting caller s = .default := by simp [waiting, runtimeDisps, execDisps, hex, hi]
    unfold signalArrives
    rw [hd]
    simp [(fatal_iff s).2 hs]
  rw [waitLoop, if_pos hn, ha]

/-- The waiting process never ends with something else than what happened to the command or what it was sent. -/
theorem C52_faithful (l : List WaitEvent) : ∀ d : Disps,
    (∀ code, waitLoop d l = .exit code → .status (.exited code) ∈ l) ∧ (∀ s, waitLoop d l = .killed s → .status (.signaled s) ∈ l ∨ .received s ∈ l) := by
  induction l with
  | nil => intro d; simp [waitLoop]
  | cons w r ih =>
    intro d
    have up : ∀ d', (∀ code, waitLoop d' r = .exit code → .status (.exited code) ∈ w :: r) ∧
        (∀ s, waitLoop d' r = .killed s → .status (.signaled s) ∈ w :: r ∨ .received s ∈ w :: r) := fun d' =>
      ⟨fun c h => List.mem_cons_of_mem _ ((ih d').1 c h), fun s h => ((ih d').2 s h).imp (List.mem_cons_of_mem _) (List.mem_cons_of_mem _)⟩
    cases w with
    | status w =>
      cases w with
      | exited c => simp [waitLoop]
      | other => simpa [waitLoop] using up d
      | signaled s =>
        simp only [waitLoop]
        split
        · split
          · simp
          · exact up _
        · exact up d
    | received s =>
      simp only [waitLoop]
      split
      · simp
      · exact up _

theorem unnoticed_handled {caller : Disps} {f : Nat} (hf : f = 11 ∨ f = 7) {e : WaitEvent} (h : Spec.Unnoticed caller e) (l : List WaitEvent) :
    waitLoop (fun x => if x = f then .default else waiting caller x) (e :: l) = waitLoop (fun x => if x = f then .default else waiting caller x) l ∨ caller f = .ignored := by
  rcases h with rfl | ⟨s, rfl, h⟩
  · exact .inl rfl
  · by_cases hfi : caller f = .ignored
    · exact .inr hfi
    · left
      have hs : s ≠ f := by
        rintro rfl
        rcases h with h | h | h
        · rcases hf with rfl | rfl <;> exact h (by decide)
        · exact hfi h
        · rcases hf with rfl | rfl <;> exact absurd h (by decide)
      rw [waitLoop, arrives_harmless (by simpa only [hs, if_false] using waiting_harmless h)]

theorem unnoticed_handled_run {caller : Disps} {f : Nat} (hf : f = 11 ∨ f = 7) (hfi : caller f ≠ .ignored) : ∀ {pre : List WaitEvent}, (∀ e ∈ pre, Spec.Unnoticed caller e) → ∀ l,
    waitLoop (fun x => if x = f then .default else waiting caller x) (pre ++ l) = waitLoop (fun x => if x = f then .default else waiting caller x) l
  | [], _, _ => rfl
  | e :: r, h, l => by
    rw [List.cons_append, (unnoticed_handled hf (h e (by simp)) _).resolve_right hfi]
    exact unnoticed_handled_run hf hfi (fun e' he => h e' (by simp [he])) l

/-- **C52**: a SIGSEGV or SIGBUS sent to the waiting process has no effect the first time; the exit code is still passed on. -/
theorem C52_fault (caller : Disps) (f : Nat) (hf : f = 11 ∨ f = 7) (hfi : caller f ≠ .ignored) (pre mid post : List WaitEvent) (hpre : ∀ e ∈ pre, Spec.Unnoticed caller e)
    (hmid : ∀ e ∈ mid, Spec.Unnoticed caller e) (code : Nat) :
    waitLoop (waiting caller) (pre ++ .received f :: (mid ++ .status (.exited code) :: post)) = .exit code ∧
    waitLoop (waiting caller) (pre ++ .received f :: (mid ++ .received f :: .status (.exited code) :: post)) = .killed f := by
  have hh : waiting caller f = .handled := by
    rcases hf with rfl | rfl <;> simp [waiting, runtimeDisps, execDisps, hfi]
  have ha : signalArrives (waiting caller) f = some (fun x => if x = f then .default else waiting caller x) := by
    unfold signalArrives
    rw [hh]
  constructor
  · rw [unnoticed_run hpre, waitLoop, ha]
    dsimp only
    rw [unnoticed_handled_run hf hfi hmid]
    rfl
  · rw [unnoticed_run hpre, waitLoop, ha]
    dsimp only
    rw [unnoticed_handled_run hf hfi hmid, waitLoop]
    have : signalArrives (fun x => if x = f then .default else waiting caller x) f = none := by
      unfold signalArrives
      simp only [if_true]
      rw [if_pos]
      rcases hf with rfl | rfl <;> decide
    rw [this]

/-- After the child has ended, `waitpid` only fails (ECHILD), and nobody sends the waiting process a signal. -/
def Spec.AfterChild (l : List WaitEvent) : Prop := ∀ e ∈ l, e = .status .other

theorem waitLoop_others (l : List WaitEvent) (h : Spec.AfterChild l) : ∀ d : Disps, waitLoop d l = .stillWaiting := by
  induction l with
  | nil => intro d; rfl
  | cons w r ih => intro d; rw [h w (by simp)]; exact ih (fun w' hw => h w' (by simp [hw])) d

/-- **C52 refuted**: a command that dies from SIGPIPE, SIGSEGV or SIGBUS leaves the waiting process in an endless loop, because the Rust runtime ignores or handles these
signals; so does one that dies from a real-time signal, which the `nix` crate reports as an error, and from a signal that the caller ignores (`nohup`).  The loop does not
sleep: it uses a whole processor. -/
theorem C52_refuted_endless (caller : Disps) (s : Nat) (hs : s = 13 ∨ s = 11 ∨ s = 7 ∨ 32 ≤ s ∨ caller s = .ignored) (post : List WaitEvent) (hpost : Spec.AfterChild post) :
    waitLoop (waiting caller) (.status (.signaled s) :: post) = .stillWaiting := by
  rw [waitLoop]
  split
  · rename_i hn
    have h32 : ¬ 32 ≤ s := by
      simp only [nixSignal, decide_eq_true_eq] at hn
      omega
    have : signalArrives (waiting caller) s ≠ none := by
      intro h
      unfold signalArrives at h
      split at h
      · cases h
      · cases h
      · rename_i hd
        simp only [waiting, runtimeDisps, execDisps] at hd
        rcases hs with rfl | rfl | rfl | hs | hs
        · simp at hd
        · by_cases hc : caller 11 = .ignored <;> simp [hc] at hd
        · by_cases hc : caller 7 = .ignored <;> simp [hc] at hd
        · exact h32 hs
        · simp only [hs] at hd
          split at hd
          · cases hd
          · simp at hd
    split
    · contradiction
    · exact waitLoop_others _ hpost _
  · exact waitLoop_others _ hpost _

/-- **C52 refuted** when the terminal's interrupt key is pressed (or the whole process group is sent a fatal signal) while a command runs that handles the signal and goes
on: the waiting process ends at once from the signal, although the command later exits with a code of its own. -/
theorem C52_refuted_interrupt (caller : Disps) (s : Nat) (hs : Spec.Fatal s) (hex : s ≠ 13 ∧ s ≠ 11 ∧ s ≠ 7) (hi : caller s ≠ .ignored) (pre post : List WaitEvent)
    (hpre : ∀ e ∈ pre, Spec.Unnoticed caller e) (code : Nat) :
    waitLoop (waiting caller) (pre ++ .received s :: .status (.exited code) :: post) = .killed s := by
  rw [unnoticed_run hpre]
  have hd : waiting caller s = .default := by simp [waiting, runtimeDisps, execDisps, hex, hi]
  have ha : signalArrives (waiting caller) s = none := by
    unfold signalArrives
    rw [hd]
    simp [(fatal_iff s).2 hs]
  rw [waitLoop, ha]

/-- An ordinary caller. -/
def exCaller : Disps := fun _ => .default

example : waitLoop (waiting exCaller) [.status .other, .received 28, .status (.signaled 15), .status .other] = .killed 15 := by decide
example : waitLoop (waiting exCaller) [.status .other, .status .other, .status (.exited 3)] = .exit 3 := by decide
example : waitLoop (waiting exCaller) [.status .other, .status (.signaled 11), .status .other] = .stillWaiting := by decide
example : waitLoop (waiting exCaller) [.status .other, .received 2, .status (.exited 0)] = .killed 2 := by decide
example : waitLoop (waiting exCaller) [.received 11, .received 13, .status (.exited 0)] = .exit 0 := by decide
example : Spec.Unnoticed exCaller (.received 28) := .inr ⟨28, rfl, .inl (by decide)⟩

/-! ### C101 -/

/-- The descriptors a program has that is executed by the caller. -/
def Spec.passed (caller : Inherited) (n : Nat) : Option OpenFile :=
  match caller.fds n with
  | some ⟨f, false⟩ => some f
  | _ => none

/-- The kernel gives out numbers that are free. -/
def Spec.FreeNumbers (caller : Inherited) (k : Numbers) : Prop :=
  (∀ n ∈ [k.lock, k.read, k.write, k.pidfd], 3 ≤ n ∧ Spec.passed caller n = none) ∧ k.lock ≠ k.read ∧ k.lock ≠ k.write ∧ k.read ≠ k.write

theorem passed_exec (caller : Inherited) (n : Nat) : ((execve caller).fds n).map (·.file) = Spec.passed caller n := by
  unfold execve Spec.passed
  dsimp only
  cases h : caller.fds n with
  | none => rfl
  | some d =>
    obtain ⟨f, c⟩ := d
    cases c <;> rfl

theorem exec_cloexec (i : Inherited) (n : Nat) (d : Descriptor) (h : (execve i).fds n = some d) : d.cloexec = false := by
  unfold execve at h
  dsimp only at h
  cases hi : i.fds n with
  | none => rw [hi] at h; cases h
  | some e =>
    rw [hi] at h
    obtain ⟨f, c⟩ := e
    cases c
    · cases h
      rfl
    · cases h

theorem main_cloexec (i : Inherited) (n : Nat) (d : Descriptor) (h : (inMain i).fds n = some d) : d.cloexec = false := by
  unfold inMain at h
  dsimp only at h
  split at h
  · cases h
    rfl
  · exact exec_cloexec _ _ _ h

theorem main_file (i : Inherited) (n : Nat) : ((inMain i).fds n).map (·.file) = if n < 3 ∧ Spec.passed i n = none then some .devNull else Spec.passed i n := by
  unfold inMain
  dsimp only
  rw [← passed_exec]
  cases h : (execve i).fds n <;> by_cases h3 : n < 3 <;> simp [h3]

/-- **C101**: the command has exactly the open files the caller gives to `sandbox` - none is missing and none is left from the program's own work: not the lock, not
the pipe, not the process descriptor - except that missing standard descriptors are `/dev/null`; and it is in the caller's session and process group with the caller's
umask.  Whether the sandbox was started or was running before makes no difference. -/
theorem C101_files (caller : Inherited) (k : Numbers) (new : Bool) (hk : Spec.FreeNumbers caller k) :
    (∀ n, ((commandProcess caller k new).fds n).map (·.file) = if n < 3 ∧ Spec.passed caller n = none then some .devNull else Spec.passed caller n) ∧
    (commandProcess caller k new).session = caller.session ∧ (commandProcess caller k new).group = caller.group ∧
    (commandProcess caller k new).umask = caller.umask := by
  obtain ⟨hf, h1, h2, h3⟩ := hk
  refine ⟨?_, ?_, ?_, ?_⟩
  · intro n
    rw [← main_file]
    have hfree : ∀ m ∈ [k.lock, k.read, k.write, k.pidfd], (inMain caller).fds m = none := by
      intro m hm
      have := main_file caller m
      rw [(hf m hm).2, if_neg (by have := (hf m hm).1; omega)] at this
      exact Option.map_eq_none_iff.1 this
    have hlock := hfree k.lock (by simp)
    have hread := hfree k.read (by simp)
    have hwrite := hfree k.write (by simp)
    have hpid := hfree k.pidfd (by simp)
    have hkeep : ∀ d, (inMain caller).fds n = some d → d.cloexec = false := fun d h => main_cloexec _ _ _ h
    cases new
    · simp only [commandProcess, afterGetOrCreate, execve, Fds.set, Bool.false_eq_true, if_false]
      by_cases hp : n = k.pidfd
      · subst hp
        simp [hpid]
      · by_cases hl : n = k.lock
        · subst hl
          simp [hp, hlock]
        · simp only [hp, hl, if_false]
          cases hn : (inMain caller).fds n with
          | none => rfl
          | some d => simp [hkeep d hn]
    · simp only [commandProcess, afterGetOrCreate, opened, execve, Fds.set, if_true]
      by_cases hp : n = k.pidfd
      · subst hp
        simp [hpid]
      · by_cases hl : n = k.lock
        · subst hl
          simp [hp, hlock]
        · by_cases hr : n = k.read
          · subst hr
            simp [hp, hl, hread]
          · by_cases hw : n = k.write
            · subst hw
              simp [hp, hl, hr, hwrite]
            · simp only [hp, hl, hr, hw, if_false]
              cases hn : (inMain caller).fds n with
              | none => rfl
              | some d => simp [hkeep d hn]
  · cases new <;> rfl
  · cases new <;> rfl
  · cases new <;> rfl

/-- **C101**: the command starts with the signal dispositions of a program executed by the caller, except that of SIGPIPE. -/
theorem C101_signals_partial (caller : Inherited) (k : Numbers) (new : Bool) (s : Nat) (hs : s ≠ 13) :
    (commandProcess caller k new).sigs s = if caller.sigs s = .ignored then .ignored else .default := by
  have : (commandProcess caller k new).sigs = execDisps (runtimeDisps (execDisps caller.sigs)) := by cases new <;> rfl
  rw [this]
  simp only [execDisps, runtimeDisps, hs, if_false]
  by_cases h : caller.sigs s = .ignored
  · simp [h]
  · simp only [h, if_false]
    split
    · rfl
    · rfl

/-- **C101 refuted** for SIGPIPE: every command in a sandbox starts with SIGPIPE ignored (the Rust runtime ignores it and the disposition survives execve), so that a
command that writes to a closed pipe gets an error instead of ending. -/
theorem C101_refuted_sigpipe (caller : Inherited) (k : Numbers) (new : Bool) : (commandProcess caller k new).sigs 13 = .ignored := by
  cases new <;> rfl

/-! ### C102 -/

/-- **C102**: the process that keeps a sandbox running is in a session and process group of its own and has closed the standard descriptors and the pipe:
what it still holds open is the lock file (C62) and the caller's other descriptors. -/
theorem C102_detached_partial (caller : Inherited) (k : Numbers) (sid : Nat) :
    (firstProcess caller k sid).session = sid ∧ (firstProcess caller k sid).group = sid ∧
    (∀ n < 3, (firstProcess caller k sid).fds n = none) ∧
    ∀ n d, (firstProcess caller k sid).fds n = some d → d.file = .lock ∨ Spec.passed caller n = some d.file := by
  refine ⟨rfl, rfl, ?_, ?_⟩
  · intro n hn
    simp only [firstProcess, Fds.set]
    have : n = 0 ∨ n = 1 ∨ n = 2 := by omega
    rcases this with rfl | rfl | rfl <;> rfl
  · intro n d h
    simp only [firstProcess, opened, Fds.set] at h
    split at h
    · cases h
    · split at h
      · cases h
      · split at h
        · cases h
        · split at h
          · cases h
          · split at h
            · cases h
            · split at h
              · cases h
                exact .inl rfl
              · have := main_file caller n
                rw [h, if_neg (by omega)] at this
                exact .inr this.symm

/-- **C102 refuted** for the caller's other descriptors: the process that keeps the sandbox running holds every further file, pipe or lock the caller has given to the
command that started the sandbox, as long as the sandbox runs. -/
theorem C102_refuted_held (caller : Inherited) (k : Numbers) (sid : Nat) (hk : Spec.FreeNumbers caller k) (n : Nat) (hn : 3 ≤ n) (f : OpenFile)
    (h : Spec.passed caller n = some f) : ∃ d, (firstProcess caller k sid).fds n = some d ∧ d.file = f := by
  have hne : ∀ m ∈ [k.lock, k.read, k.write, k.pidfd], n ≠ m := by
    intro m hm he
    subst he
    rw [(hk.1 n hm).2] at h
    cases h
  have hm := main_file caller n
  rw [if_neg (by omega), h] at hm
  obtain ⟨d, hd, hf⟩ := Option.map_eq_some_iff.1 hm
  refine ⟨d, ?_, hf⟩
  simp only [firstProcess, opened, Fds.set]
  rw [if_neg (by omega), if_neg (by omega), if_neg (by omega), if_neg (hne _ (by simp)), if_neg (hne _ (by simp)), if_neg (hne _ (by simp)), if_neg (hne _ (by simp)),
    if_neg (hne _ (by simp)), hd]

/-- A shell with standard input, output and error, a pipe at 3 and a private file at 10. -/
def exInherited : Inherited :=
  ⟨fun n => if n < 4 then some ⟨.given n, false⟩ else if n = 10 then some ⟨.given 10, true⟩ else none, fun s => if s = 1 then .ignored else .default, 5, 6, 18⟩

def exNumbers : Numbers := ⟨4, 5, 6, 4⟩

theorem exNumbers_free : Spec.FreeNumbers exInherited exNumbers := by
  refine ⟨?_, by decide, by decide, by decide⟩
  decide

example : ((commandProcess exInherited exNumbers true).fds 3, (commandProcess exInherited exNumbers true).fds 4, (commandProcess exInherited exNumbers true).fds 10) =
    (some ⟨.given 3, false⟩, none, none) := by decide
example : ∃ d, (firstProcess exInherited exNumbers 77).fds 3 = some d ∧ d.file = .given 3 :=
  C102_refuted_held _ _ _ exNumbers_free _ (by decide) _ rfl
example : (commandProcess exInherited exNumbers true).sigs 1 = .ignored := C101_signals_partial _ _ _ _ (by decide)

/-! ### C103 -/

/-- Process `p` ends between the two tables. -/
def Spec.Ends (p : Nat) (t t' : List Entrant) : Prop := (∃ q ∈ t, q.pid = p ∧ q.zombie = false) ∧ ∃ q ∈ t', q.pid = p ∧ q.zombie = true

/-- Histories in which no process ends before its children are collected. -/
inductive Spec.Tidy : List Entrant → Prop
  | new : Spec.Tidy newTable
  | step {t t'} : Spec.Tidy t → ProcStep t t' → (∀ p, Spec.Ends p t t' → ∀ q ∈ t, q.parent ≠ p) → Spec.Tidy t'

theorem tidy_parents {t : List Entrant} (h : Spec.Tidy t) : ∀ q ∈ t, q.parent = 0 ∨ ∃ p ∈ t, p.pid = q.parent ∧ p.zombie = false ∧ p.pid ≠ 1 := by
  induction h with
  | new => decide
  | step _ hs hc ih =>
    cases hs with
    | enter pid h2 hf =>
      intro q hq
      rcases List.mem_cons.1 hq with rfl | hq
      · exact .inl rfl
      · exact (ih q hq).imp id fun ⟨p, hp, hh⟩ => ⟨p, List.mem_cons_of_mem _ hp, hh⟩
    | fork p pid hp hz h1 h2 hf =>
      intro q hq
      rcases List.mem_cons.1 hq with rfl | hq
      · exact .inr ⟨p, List.mem_cons_of_mem _ hp, rfl, hz, h1⟩
      · exact (ih q hq).imp id fun ⟨p, hp, hh⟩ => ⟨p, List.mem_cons_of_mem _ hp, hh⟩
    | exit p hp hz h1 =>
      have hno := hc p.pid ⟨⟨p, hp, rfl, hz⟩, { p with zombie := true }, by
        unfold procExit
        exact List.mem_map.2 ⟨p, hp, by simp⟩, rfl, rfl⟩
      intro q hq
      obtain ⟨x, hx, rfl⟩ := List.mem_map.1 hq
      have hxp : (if x.pid = p.pid then { x with zombie := true } else if x.parent = p.pid then { x with parent := 1 } else x).parent = x.parent := by
        split
        · rfl
        · split
          · rename_i he
            exact absurd he (hno x hx)
          · rfl
      rw [hxp]
      rcases ih x hx with h | ⟨y, hy, hyp, hyz, hy1⟩
      · exact .inl h
      · refine .inr ⟨y, List.mem_map.2 ⟨y, hy, ?_⟩, hyp, hyz, hy1⟩
        have : y.pid ≠ p.pid := fun he => hno x hx (hyp ▸ he)
        rw [if_neg this, if_neg (hno y hy)]
    | wait p z hp hz h1 hq hzz hpar =>
      intro q hq'
      have hq' := List.mem_filter.1 hq'
      refine (ih q hq'.1).imp id fun ⟨y, hy, hyp, hyz, hy1⟩ => ⟨y, List.mem_filter.2 ⟨hy, ?_⟩, hyp, hyz, hy1⟩
      have : y ≠ z := by rintro rfl; rw [hzz] at hyz; cases hyz
      simp [this]
    | waitOutside z hq hzz hpar =>
      intro q hq'
      have hq' := List.mem_filter.1 hq'
      refine (ih q hq'.1).imp id fun ⟨y, hy, hyp, hyz, hy1⟩ => ⟨y, List.mem_filter.2 ⟨hy, ?_⟩, hyp, hyz, hy1⟩
      have : y ≠ z := by rintro rfl; rw [hzz] at hyz; cases hyz
      simp [this]

/-- **C103**, if every process collects its children before it ends: whatever has ended can disappear from the process table - its parent, or the `sandbox` process
that started it, is there to collect it. -/
theorem C103_collected_partial {t : List Entrant} (h : Spec.Tidy t) (q : Entrant) (hq : q ∈ t) (hz : q.zombie = true) : ∃ t', ProcStep t t' ∧ q ∉ t' := by
  have hno : q ∉ t.filter (fun x => !decide (x = q)) := by simp
  rcases tidy_parents h q hq with h0 | ⟨p, hp, hpp, hpz, hp1⟩
  · exact ⟨_, .waitOutside t q hq hz h0, hno⟩
  · exact ⟨_, .wait t p q hp hpz hp1 hq hz hpp.symm, hno⟩

theorem zombie_step {t t' : List Entrant} (h : ProcStep t t') (q : Entrant) (hq : q ∈ t) (hz : q.zombie = true) (hp : q.parent = 1) : q ∈ t' := by
  cases h with
  | enter pid h2 hf => exact List.mem_cons_of_mem _ hq
  | fork p pid hp' hz' h1 h2 hf => exact List.mem_cons_of_mem _ hq
  | exit p hp' hz' h1 =>
    refine List.mem_map.2 ⟨q, hq, ?_⟩
    split
    · obtain ⟨a, b, c⟩ := q
      simp only at hz
      rw [hz]
    · rw [if_neg]
      rw [hp]
      exact fun e => h1 e.symm
  | wait p z hp' hz' h1 hq' hzz hpar =>
    refine List.mem_filter.2 ⟨hq, ?_⟩
    have : q ≠ z := by
      rintro rfl
      exact h1 (hpar ▸ hp)
    simp [this]
  | waitOutside z hq' hzz hpar =>
    refine List.mem_filter.2 ⟨hq, ?_⟩
    have : q ≠ z := by
      rintro rfl
      rw [hp] at hpar
      cases hpar
    simp [this]

theorem zombie_kept {t t' : List Entrant} (h : ProcReach t t') (q : Entrant) (hq : q ∈ t) (hz : q.zombie = true) (hp : q.parent = 1) : q ∈ t' := by
  induction h with
  | start => exact hq
  | step _ hs ih => exact zombie_step hs q ih hz hp

/-- The table with `n` processes that have ended and nobody has collected. -/
def zombieTable : Nat → List Entrant
  | 0 => newTable
  | n + 1 => ⟨3 + n, 1, true⟩ :: zombieTable n

theorem mem_zombieTable {n : Nat} {q : Entrant} (h : q ∈ zombieTable n) : q = ⟨1, 0, false⟩ ∨ q.parent = 1 ∧ q.zombie = true ∧ 3 ≤ q.pid ∧ q.pid < 3 + n := by
  induction n with
  | zero =>
    simp only [zombieTable, newTable, List.mem_singleton] at h
    exact .inl h
  | succ n ih =>
    rcases List.mem_cons.1 h with rfl | h
    · exact .inr ⟨rfl, rfl, by simp, by simp⟩
    · exact (ih h).imp id fun ⟨a, b, c, d⟩ => ⟨a, b, c, by omega⟩

theorem ProcReach.trans {a b c : List Entrant} (h1 : ProcReach a b) (h2 : ProcReach b c) : ProcReach a c := by
  induction h2 with
  | start => exact h1
  | step _ hs ih => exact .step ih hs

theorem zombie_more (n : Nat) : ProcReach (zombieTable n) (zombieTable (n + 1)) := by
  have hpid : ∀ q ∈ zombieTable n, q.pid ≠ 2 ∧ q.pid ≠ 3 + n ∧ q.parent ≠ 2 ∧ q.parent ≠ 3 + n := by
    intro q hq
    rcases mem_zombieTable hq with rfl | ⟨a, b, c, d⟩
    · exact ⟨by simp, by simp; omega, by simp, by simp; omega⟩
    · refine ⟨by omega, by omega, by omega, by omega⟩
  have s1 : ProcReach (zombieTable n) (⟨2, 0, false⟩ :: zombieTable n) := .step (.start _) (.enter _ 2 (by decide) fun q hq => (hpid q hq).1)
  have s2 : ProcReach (zombieTable n) (⟨3 + n, 2, false⟩ :: ⟨2, 0, false⟩ :: zombieTable n) :=
    .step s1 (.fork _ ⟨2, 0, false⟩ (3 + n) (by simp) rfl (by simp) (by omega) (by
      intro q hq
      rcases List.mem_cons.1 hq with rfl | hq
      · simp
        omega
      · exact (hpid q hq).2.1))
  have keep : ∀ p, (p = 2 ∨ p = 3 + n) → procExit p (zombieTable n) = zombieTable n := by
    intro p hp
    unfold procExit
    conv => rhs; rw [← List.map_id (zombieTable n)]
    refine List.map_congr_left fun q hq => ?_
    obtain ⟨h1, h2, h3, h4⟩ := hpid q hq
    rw [if_neg (by rcases hp with rfl | rfl <;> assumption), if_neg (by rcases hp with rfl | rfl <;> assumption)]
    rfl
  have s3 : ProcReach (zombieTable n) (⟨3 + n, 1, false⟩ :: ⟨2, 0, true⟩ :: zombieTable n) := by
    have := ProcReach.step s2 (.exit _ ⟨2, 0, false⟩ (by simp) rfl (by simp))
    have e : procExit 2 (⟨3 + n, 2, false⟩ :: ⟨2, 0, false⟩ :: zombieTable n) = ⟨3 + n, 1, false⟩ :: ⟨2, 0, true⟩ :: procExit 2 (zombieTable n) := by
      unfold procExit
      simp
      omega
    rw [keep 2 (.inl rfl)] at e
    rw [e] at this
    exact this
  have s4 : ProcReach (zombieTable n) (⟨3 + n, 1, false⟩ :: zombieTable n) := by
    have := ProcReach.step s3 (.waitOutside _ ⟨2, 0, true⟩ (by simp) rfl rfl)
    have e : (⟨3 + n, 1, false⟩ :: ⟨2, 0, true⟩ :: zombieTable n : List Entrant).filter (fun x => !decide (x = ⟨2, 0, true⟩)) = ⟨3 + n, 1, false⟩ :: zombieTable n := by
      rw [List.filter_cons_of_pos (by simp), List.filter_cons_of_neg (by simp)]
      congr 1
      refine List.filter_eq_self.2 fun q hq => ?_
      have := (hpid q hq).1
      simp only [Bool.not_eq_true', decide_eq_false_iff_not]
      rintro rfl
      exact this rfl
    rw [e] at this
    exact this
  have := ProcReach.step s4 (.exit _ ⟨3 + n, 1, false⟩ (by simp) rfl (by simp; omega))
  have e : procExit (3 + n) (⟨3 + n, 1, false⟩ :: zombieTable n) = ⟨3 + n, 1, true⟩ :: procExit (3 + n) (zombieTable n) := by
    unfold procExit
    simp
  dsimp only at this
  rw [e, keep _ (.inr rfl)] at this
  exact this

theorem zombie_reach : ∀ n, ProcReach newTable (zombieTable n)
  | 0 => .start _
  | n + 1 => (zombie_reach n).trans (zombie_more n)

theorem zombie_count (n : Nat) : (zombieTable n).countP (·.zombie) = n := by
  induction n with
  | zero => rfl
  | succ n ih => rw [zombieTable, List.countP_cons, ih]; rfl

/-- **C103 refuted** for processes that outlive their parent (daemons, background jobs): the sandbox's first process, which becomes their parent, never collects them.
A running sandbox can have any number of them although nothing but the first process lives in it, and they stay whatever happens until the sandbox is stopped. -/
theorem C103_refuted_orphans (n : Nat) : ∃ t, ProcReach newTable t ∧ t.countP (·.zombie) = n ∧ (∀ q ∈ t, q.zombie = false → q = ⟨1, 0, false⟩) ∧
    ∀ t', ProcReach t t' → ∀ q ∈ t, q.zombie = true → q ∈ t' := by
  refine ⟨zombieTable n, zombie_reach n, zombie_count n, ?_, ?_⟩
  · intro q hq hz
    rcases mem_zombieTable hq with h | ⟨_, h, _⟩
    · exact h
    · rw [h] at hz; cases hz
  · intro t' hr q hq hz
    rcases mem_zombieTable hq with h | ⟨h, _⟩
    · subst h; cases hz
    · exact zombie_kept hr q hq hz h

/-- A command that has ended is collected by the `sandbox` process. -/
example : Spec.Tidy [⟨2, 0, true⟩, ⟨1, 0, false⟩] ∧ ProcReach newTable (zombieTable 2) :=
  ⟨.step (.step .new (.enter _ 2 (by decide) (by decide)) (by
      rintro p ⟨_, q, hq, _, hz⟩
      have : ∀ q ∈ (⟨2, 0, false⟩ :: newTable : List Entrant), q.zombie = false := by decide
      rw [this q hq] at hz
      cases hz)) (.exit _ ⟨2, 0, false⟩ (by decide) rfl (by decide)) (by
      rintro p ⟨⟨q, hq, hp, _⟩, r, hr, hrp, hrz⟩
      simp only [procExit, newTable, List.map_cons, List.map_nil, List.mem_cons, List.not_mem_nil, or_false] at hr
      rcases hr with rfl | rfl
      · simp at hrp
        subst hrp
        decide
      · simp at hrz), zombie_reach 2⟩

end SB
