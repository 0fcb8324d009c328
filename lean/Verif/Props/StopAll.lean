import Verif.Props.Stop

/-! # C61: `sandbox stop` with patterns stops exactly the matching sandboxes -/

namespace SB

theorem stopSandbox_touch (fault : Fault) (s : Sys) (storage : Path) (name : Name) (hw : s.fs.WF) (hs : s.fs.isDirAt storage = true) (hn : '/' ∉ name) :
    Touch storage (· = name) s.fs (stopSandbox fault s storage name).1.fs := by
  unfold stopSandbox
  cases hg : getSandbox s storage name with
  | error e => exact .refl hw
  | ok x =>
    obtain ⟨s1, pid⟩ := x
    obtain ⟨ht, _⟩ := getSandbox_touch hw hs hn hg
    dsimp only
    cases hr : removePidFile fault (killSandbox s1 pid).fs storage name with
    | error e => dsimp only; rw [killSandbox_fs]; exact ht
    | ok fs2 =>
      rw [killSandbox_fs] at hr
      exact ht.trans (removePidFile_ok ht.wf (ht.storage hs) hn hr).1

/-- Pid files may be gone and processes may have died. -/
structure Stopped (storage : Path) (s s' : Sys) : Prop where
  wf : s'.fs.WF
  keep : ∀ q, s'.fs.get q = s.fs.get q ∨ (∃ n, q = pidFile storage n ∧ '/' ∉ n) ∧ s'.fs.get q = none
  procs : ∀ p ∈ s'.procs, p ∈ s.procs

theorem Stopped.refl {storage : Path} {s : Sys} (h : s.fs.WF) : Stopped storage s s := ⟨h, fun _ => .inl rfl, fun _ h => h⟩

theorem Stopped.trans {storage : Path} {a b c : Sys} (h1 : Stopped storage a b) (h2 : Stopped storage b c) : Stopped storage a c := by
  refine ⟨h2.wf, fun q => ?_, fun p hp => h1.procs p (h2.procs p hp)⟩
  rcases h2.keep q with h | h
  · rw [h]; exact h1.keep q
  · exact .inr h

theorem storage_not_pid {storage : Path} {n : Name} : storage ≠ pidFile storage n := by
  intro h; have := congrArg List.length h; simp [pidFile] at this

theorem Stopped.storage {storage : Path} {s s' : Sys} (h : Stopped storage s s') (hs : s.fs.isDirAt storage = true) : s'.fs.isDirAt storage = true := by
  rcases h.keep storage with hk | ⟨⟨n, he, _⟩, _⟩
  · rw [FS.isDirAt_congr hk]; exact hs
  · exact absurd he storage_not_pid

theorem Stopped.nolink {storage : Path} {s s' : Sys} (h : Stopped storage s s') {q : Path} (hq : ∀ n, s.fs.get q = some n → n.isLnk = false) :
    ∀ n, s'.fs.get q = some n → n.isLnk = false := by
  intro n hn
  rcases h.keep q with hk | ⟨_, hk⟩
  · exact hq n (hk ▸ hn)
  · rw [hn] at hk; cases hk

theorem readText_child {fs : FS} {d : Path} {x : Name} (hw : fs.WF) (hs : fs.isDirAt d = true) (hx : NormalName x)
    (hl : ∀ n, fs.get (d ++ [x]) = some n → n.isLnk = false) :
    readText fs (d ++ [x]) = (fs.get (d ++ [x])).bind (fun n => match n.kind with | .reg t => some t | _ => none) := by
  unfold readText
  rw [FS.stat_chain (normal_child hw hs hx) hw.root (chain_child hw hs _) hl]
  cases fs.get (d ++ [x]) <;> rfl

theorem Stopped.pidFile {storage : Path} {s s' : Sys} (h : Stopped storage s s') (hw : s.fs.WF) (hs : s.fs.isDirAt storage = true) {n : Name} (hn : '/' ∉ n)
    (hl : ∀ m, s.fs.get (storage ++ [n ++ str ".pid"]) = some m → m.isLnk = false) {p : Proc} (hp : Spec.PidFileNames s' storage n p) : Spec.PidFileNames s storage n p := by
  obtain ⟨hm, t, ht, hi⟩ := hp
  refine ⟨h.procs p hm, t, ?_, hi⟩
  rw [readText_child h.wf (h.storage hs) (normal_pid hn) (h.nolink hl)] at ht
  rw [readText_child hw hs (normal_pid hn) hl]
  rcases h.keep (storage ++ [n ++ str ".pid"]) with hk | ⟨_, hk⟩
  · rw [← hk]; exact ht
  · rw [hk] at ht; cases ht

theorem stopSandbox_stopped (fault : Fault) (s : Sys) (storage : Path) (name : Name) (hw : s.fs.WF) (hs : s.fs.isDirAt storage = true) (hn : '/' ∉ name)
    (hlock : s.fs.pexists (lockFile storage name) = true) (hl : ∀ n, s.fs.get (storage ++ [name ++ str ".pid"]) = some n → n.isLnk = false) :
    Stopped storage s (stopSandbox fault s storage name).1 := by
  have ht := stopSandbox_touch fault s storage name hw hs hn
  refine ⟨ht.wf, fun q => ?_, fun p hp => ?_⟩
  · by_cases hq : q = storage ++ [name ++ str ".pid"]
    · rcases ht.keep q with h | ⟨n, rfl, ⟨_, h⟩ | ⟨he, _⟩⟩
      · exact .inl h
      · exact .inr ⟨⟨n, hq, hn⟩, h⟩
      · rw [hq] at he; have := List.append_cancel_left he; simp [str] at this
    · left
      refine (C47_stop_files fault s storage name hw hs hn hl).1 q hq ?_
      by_cases hl' : q = storage ++ [name ++ str ".lock"]
      · left
        intro hnone
        have hst : s.fs.stat (lockFile storage name) = _ := FS.stat_chain (normal_child hw hs (normal_lock hn)) hw.root (chain_child hw hs _)
          (by intro n h; change s.fs.get (storage ++ [name ++ str ".lock"]) = _ at h; rw [← hl', hnone] at h; cases h)
        have hnone' : s.fs.get (lockFile storage name) = none := by rw [← hnone, hl']; rfl
        rw [hnone'] at hst
        unfold FS.pexists at hlock
        rw [hst] at hlock; cases hlock
      · exact .inr hl'
  · rcases C47_stop_kills fault s storage name hw hs hn hl with h | ⟨_, _, h⟩
    · rw [h] at hp; exact hp
    · exact ((h p).1 hp).1

/-- A sandbox that `stop PATTERNS` is about: it has a lock file in the storage directory, and its name contains a match of a pattern (or there are none). -/
def Spec.StopSelected (fs : FS) (glob : Str → Str → Bool) (storage : Path) (patterns : List Str) (n : Name) : Prop :=
  (∃ m, fs.get (storage ++ [n ++ str ".lock"]) = some m) ∧ (patterns = [] ∨ ∃ p ∈ patterns, glob (['*'] ++ p ++ ['*']) n = true)

theorem stopLoop_spec (fault : Fault) (glob : Str → Str → Bool) (storage : Path) (patterns : List Str) (s0 : Sys) (hw0 : s0.fs.WF) (hs0 : s0.fs.isDirAt storage = true)
    (hl0 : ∀ n m, s0.fs.get (storage ++ [n ++ str ".pid"]) = some m → m.isLnk = false) : ∀ (files : List Name) (s : Sys),
    (∀ f ∈ files, ∃ m, s0.fs.get (storage ++ [f]) = some m) → Stopped storage s0 s →
    (∀ q ∈ s0.procs, q ∈ s.procs ∨ ∃ n p, Spec.StopSelected s0.fs glob storage patterns n ∧ Spec.PidFileNames s0 storage n p ∧ q.ns = p.nsChildren) →
    (∀ q, s.fs.get q ≠ s0.fs.get q → ∃ n, Spec.StopSelected s0.fs glob storage patterns n ∧ q = storage ++ [n ++ str ".pid"]) →
    Stopped storage s0 (stopLoop fault glob storage patterns files s) ∧
    (∀ q ∈ s0.procs, q ∈ (stopLoop fault glob storage patterns files s).procs ∨
      ∃ n p, Spec.StopSelected s0.fs glob storage patterns n ∧ Spec.PidFileNames s0 storage n p ∧ q.ns = p.nsChildren) ∧
    (∀ q, (stopLoop fault glob storage patterns files s).fs.get q ≠ s0.fs.get q → ∃ n, Spec.StopSelected s0.fs glob storage patterns n ∧ q = storage ++ [n ++ str ".pid"])
  | [], s, _, h1, h2, h3 => ⟨h1, h2, h3⟩
  | f :: r, s, hf, h1, h2, h3 => by
    have hfr : ∀ g ∈ r, ∃ m, s0.fs.get (storage ++ [g]) = some m := fun g hg => hf g (List.mem_cons_of_mem _ hg)
    unfold stopLoop
    cases ho : lockOwner f with
    | none => exact stopLoop_spec fault glob storage patterns s0 hw0 hs0 hl0 r s hfr h1 h2 h3
    | some n =>
      dsimp only
      have hfn := lockOwner_iff.1 ho
      obtain ⟨m, hm⟩ := hf f List.mem_cons_self
      have hn : '/' ∉ n := by
        have := (hw0.normal_of_get hm) f (by simp)
        intro hc; exact this.2.1 (by rw [hfn]; simp [hc])
      split
      · exact stopLoop_spec fault glob storage patterns s0 hw0 hs0 hl0 r s hfr h1 h2 h3
      · rename_i hg
        split
        · rename_i hp
          have hsel : Spec.StopSelected s0.fs glob storage patterns n := ⟨⟨m, hfn ▸ hm⟩, by simpa using hp⟩
          have hlk : s.fs.pexists (lockFile storage n) = true := by
            simp only [Bool.or_eq_true, Bool.not_eq_true', not_or] at hg; simpa using hg.1.1
          have hs := h1.storage hs0
          have hl := h1.nolink (hl0 n)
          have hst := stopSandbox_stopped fault s storage n h1.wf hs hn hlk hl
          refine stopLoop_spec fault glob storage patterns s0 hw0 hs0 hl0 r _ hfr (h1.trans hst) ?_ ?_
          · intro q hq
            rcases h2 q hq with h | h
            · rcases C47_stop_kills fault s storage n h1.wf hs hn hl with hk | ⟨p, hpf, hk⟩
              · left; rw [hk]; exact h
              · by_cases hqn : q.ns = p.nsChildren
                · exact .inr ⟨n, p, hsel, h1.pidFile hw0 hs0 hn (hl0 n) hpf, hqn⟩
                · left; exact (hk q).2 ⟨h, hqn⟩
            · exact .inr h
          · intro q hq
            by_cases he : q = storage ++ [n ++ str ".pid"]
            · exact ⟨n, hsel, he⟩
            · apply h3
              intro heq
              apply hq
              rw [← heq]
              rcases (stopSandbox_touch fault s storage n h1.wf hs hn).keep q with hk | ⟨n', rfl, hk⟩
              · exact hk
              · rcases hst.keep q with hk' | ⟨_, hk'⟩
                · exact hk'
                · refine (C47_stop_files fault s storage n' h1.wf hs hn hl).1 q he ?_
                  by_cases hll : q = storage ++ [n' ++ str ".lock"]
                  · left; rw [heq, hll, ← hfn, hm]; simp
                  · exact .inr hll
        · exact stopLoop_spec fault glob storage patterns s0 hw0 hs0 hl0 r s hfr h1 h2 h3

/-- **C61**, scope: `stop PATTERNS` kills only processes in the namespace named by the pid file of a selected sandbox, and changes nothing on disk but pid files of
selected sandboxes (which are removed). -/
theorem C61_scope (fault : Fault) (glob : Str → Str → Bool) (storage : Path) (patterns : List Str) (s : Sys) (hw : s.fs.WF) (hs : s.fs.isDirAt storage = true)
    (hl : ∀ n m, s.fs.get (storage ++ [n ++ str ".pid"]) = some m → m.isLnk = false) :
    (∀ q ∈ s.procs, q ∉ (stopAll fault glob storage patterns s).procs →
      ∃ n p, Spec.StopSelected s.fs glob storage patterns n ∧ Spec.PidFileNames s storage n p ∧ q.ns = p.nsChildren) ∧
    (∀ q, (stopAll fault glob storage patterns s).fs.get q = s.fs.get q ∨
      (stopAll fault glob storage patterns s).fs.get q = none ∧ ∃ n, Spec.StopSelected s.fs glob storage patterns n ∧ q = storage ++ [n ++ str ".pid"]) := by
  obtain ⟨h1, h2, h3⟩ := stopLoop_spec fault glob storage patterns s hw hs hl (dirNames s.fs storage) s (fun f hf => mem_dirNames.1 hf) (.refl hw) (fun q hq => .inl hq)
    (fun q hq => absurd rfl hq)
  refine ⟨fun q hq hn => (h2 q hq).resolve_left hn, fun q => ?_⟩
  by_cases he : (stopLoop fault glob storage patterns (dirNames s.fs storage) s).fs.get q = s.fs.get q
  · exact .inl he
  · exact .inr ⟨(h1.keep q).resolve_left he |>.2, h3 q he⟩

/-- Non-vacuity: `stop b` stops the running sandbox `b`; `stop q` nothing. -/
example : (stopAll noFault globRef exSb [str "b"] exSys).procs.map Proc.pid = [1, 7] ∧ (stopAll noFault globRef exSb [str "q"] exSys).procs.map Proc.pid = [1, 7, 42, 43] ∧
    (stopAll noFault globRef exSb [str "b"] exSys).fs.get (exSb ++ [str "a.pid"]) ≠ none ∧
    (stopAll noFault globRef exSb [str "b"] exSys).fs.get (exSb ++ [str "b.pid"]) = none := by decide +kernel

/-- A sandbox that runs: its directory, lock file and pid file are there, the pid file holds the number of its first process `p`, the only process with that number, and `p`
lives in the sandbox's own pid namespace. -/
structure Spec.Runs (s : Sys) (storage : Path) (name : Name) (p : Proc) : Prop where
  plain : NormalName name
  dir : s.fs.isDirAt (storage ++ [name]) = true
  lock : ∃ n, s.fs.get (storage ++ [name ++ str ".lock"]) = some n ∧ n.isReg = true
  pidf : ∃ n, s.fs.get (storage ++ [name ++ str ".pid"]) = some n ∧ n.isReg = true
  names : Spec.PidFileNames s storage name p
  only : ∀ q ∈ s.procs, q.pid = p.pid → q = p
  alive : Spec.Living p
  own : p.ns = p.nsChildren

/-- Stopping one sandbox leaves another one running, or there is no process left in its namespace. -/
theorem runs_other {fault : Fault} {s : Sys} {storage : Path} {n m : Name} {p : Proc} (hw : s.fs.WF) (hs : s.fs.isDirAt storage = true) (hm : '/' ∉ m)
    (hlock : s.fs.pexists (lockFile storage m) = true) (hl : ∀ k, s.fs.get (storage ++ [m ++ str ".pid"]) = some k → k.isLnk = false)
    (hne : m ≠ n) (hdir : ∀ k, s.fs.get (storage ++ [m ++ str ".pid"]) = some k → k.isDir = false) (h : Spec.Runs s storage n p) :
    Spec.Runs (stopSandbox fault s storage m).1 storage n p ∨ ∀ q ∈ (stopSandbox fault s storage m).1.procs, q.ns ≠ p.nsChildren := by
  have hst := stopSandbox_stopped fault s storage m hw hs hm hlock hl
  have hkeep : ∀ q, q ≠ storage ++ [m ++ str ".pid"] → s.fs.get q ≠ none → (stopSandbox fault s storage m).1.fs.get q = s.fs.get q :=
    fun q h1 h2 => (C47_stop_files fault s storage m hw hs hm hl).1 q h1 (.inl h2)
  have hd : (stopSandbox fault s storage m).1.fs.get (storage ++ [n]) = s.fs.get (storage ++ [n]) := by
    obtain ⟨k, hk, hkd⟩ := FS.isDirAt_iff.1 h.dir
    refine hkeep _ (fun he => ?_) (by rw [hk]; simp)
    have := hdir k (he ▸ hk)
    rw [hkd] at this; cases this
  have hlk : (stopSandbox fault s storage m).1.fs.get (storage ++ [n ++ str ".lock"]) = s.fs.get (storage ++ [n ++ str ".lock"]) := by
    obtain ⟨k, hk, _⟩ := h.lock
    refine hkeep _ (fun he => ?_) (by rw [hk]; simp)
    have he' := (List.append_cancel_left he)
    simp only [List.cons.injEq, and_true] at he'
    have := congrArg List.getLast? he'
    simp [str] at this
  have hpd : (stopSandbox fault s storage m).1.fs.get (storage ++ [n ++ str ".pid"]) = s.fs.get (storage ++ [n ++ str ".pid"]) := by
    obtain ⟨k, hk, _⟩ := h.pidf
    refine hkeep _ (fun he => ?_) (by rw [hk]; simp)
    have he' := (List.append_cancel_left he)
    simp only [List.cons.injEq, and_true] at he'
    exact hne (List.append_cancel_right he').symm
  have hp : p ∈ (stopSandbox fault s storage m).1.procs ∨ ∀ q ∈ (stopSandbox fault s storage m).1.procs, q.ns ≠ p.nsChildren := by
    rcases C47_stop_kills fault s storage m hw hs hm hl with hk | ⟨p', _, hk⟩
    · left; rw [hk]; exact h.names.1
    · by_cases he : p.ns = p'.nsChildren
      · right; intro q hq; rw [← h.own, he]; exact ((hk q).1 hq).2
      · left; exact (hk p).2 ⟨h.names.1, he⟩
  refine hp.imp (fun hp => ?_) id
  obtain ⟨pn, hpn, hpr⟩ := h.pidf
  refine ⟨h.plain, by rw [FS.isDirAt_congr hd]; exact h.dir, by rw [hlk]; exact h.lock, by rw [hpd]; exact ⟨pn, hpn, hpr⟩, ⟨hp, ?_⟩,
    fun q hq => h.only q (hst.procs q hq), h.alive, h.own⟩
  obtain ⟨_, t, ht, hi⟩ := h.names
  refine ⟨t, ?_, hi⟩
  have hnl : ∀ k, s.fs.get (storage ++ [n ++ str ".pid"]) = some k → k.isLnk = false := fun k hk => by rw [hpn] at hk; cases hk; exact regl hpr
  rw [readText_child hw hs (normal_pid h.plain.2.1) hnl] at ht
  rw [readText_child hst.wf (hst.storage hs) (normal_pid h.plain.2.1) (by rw [hpd]; exact hnl), hpd]
  exact ht

theorem stopLoop_procs (fault : Fault) (glob : Str → Str → Bool) (storage : Path) (patterns : List Str) (P : Proc → Prop) : ∀ (files : List Name) (s : Sys),
    s.fs.WF → s.fs.isDirAt storage = true → (∀ f ∈ files, '/' ∉ f) → (∀ n m, s.fs.get (storage ++ [n ++ str ".pid"]) = some m → m.isLnk = false) →
    (∀ q ∈ s.procs, P q) → ∀ q ∈ (stopLoop fault glob storage patterns files s).procs, P q
  | [], _, _, _, _, _, h => h
  | f :: r, s, hw, hs, hf, hl, h => by
    have hfr : ∀ g ∈ r, '/' ∉ g := fun g hg => hf g (List.mem_cons_of_mem _ hg)
    unfold stopLoop
    cases ho : lockOwner f with
    | none => exact stopLoop_procs fault glob storage patterns P r s hw hs hfr hl h
    | some n =>
      dsimp only
      have hfn := lockOwner_iff.1 ho
      have hn : '/' ∉ n := fun hc => hf f List.mem_cons_self (by rw [hfn]; simp [hc])
      split
      · exact stopLoop_procs fault glob storage patterns P r s hw hs hfr hl h
      · rename_i hg
        split
        · have hlk : s.fs.pexists (lockFile storage n) = true := by
            simp only [Bool.or_eq_true, Bool.not_eq_true', not_or] at hg; simpa using hg.1.1
          have hst := stopSandbox_stopped fault s storage n hw hs hn hlk (hl n)
          exact stopLoop_procs fault glob storage patterns P r _ hst.wf (hst.storage hs) hfr (fun k => hst.nolink (hl k)) (fun q hq => h q (hst.procs q hq))
        · exact stopLoop_procs fault glob storage patterns P r s hw hs hfr hl h

theorem stopLoop_complete (glob : Str → Str → Bool) (storage : Path) (patterns : List Str) (n : Name) (p : Proc)
    (hsel : patterns = [] ∨ ∃ x ∈ patterns, glob (['*'] ++ x ++ ['*']) n = true) : ∀ (files : List Name) (s : Sys),
    s.fs.WF → s.fs.isDirAt storage = true → (∀ f ∈ files, '/' ∉ f) →
    (∀ n m, s.fs.get (storage ++ [n ++ str ".pid"]) = some m → m.isLnk = false ∧ m.isDir = false) →
    Spec.Runs s storage n p → n ++ str ".lock" ∈ files →
    ∀ q ∈ (stopLoop noFault glob storage patterns files s).procs, q.ns ≠ p.nsChildren
  | [], _, _, _, _, _, _, h => by cases h
  | f :: r, s, hw, hs, hf, hl, h, hmem => by
    have hfr : ∀ g ∈ r, '/' ∉ g := fun g hg => hf g (List.mem_cons_of_mem _ hg)
    have hl' : ∀ n m, s.fs.get (storage ++ [n ++ str ".pid"]) = some m → m.isLnk = false := fun n m hm => (hl n m hm).1
    unfold stopLoop
    cases ho : lockOwner f with
    | none =>
      have hfn : n ++ str ".lock" ≠ f := by intro he; rw [lockOwner_iff.2 he.symm] at ho; cases ho
      exact stopLoop_complete glob storage patterns n p hsel r s hw hs hfr hl h ((List.mem_cons.1 hmem).resolve_left hfn)
    | some m =>
      dsimp only
      have hfn := lockOwner_iff.1 ho
      have hm : '/' ∉ m := fun hc => hf f List.mem_cons_self (by rw [hfn]; simp [hc])
      by_cases hne : m = n
      · subst hne
        obtain ⟨ln, hln, hlr⟩ := h.lock
        obtain ⟨pn, hpn, hpr⟩ := h.pidf
        have h1 : s.fs.pexists (lockFile storage m) = true := by
          have := pexists_child hw hs (normal_lock hm) (fun k hk => by rw [hln] at hk; cases hk; exact regl hlr)
          rw [hln] at this; exact this
        have h2 : s.fs.pexists (pidFile storage m) = true := by
          have := pexists_child hw hs (normal_pid hm) (fun k hk => by rw [hpn] at hk; cases hk; exact regl hpr)
          rw [hpn] at this; exact this
        have h3 : s.fs.pexists (sandboxDir storage m) = true := by
          rw [sandboxDir_normal h.plain]
          obtain ⟨k, hk, hkd⟩ := FS.isDirAt_iff.1 h.dir
          have := pexists_child hw hs h.plain (fun k' hk' => by
            rw [hk] at hk'; cases hk'; unfold Node.isDir at hkd; unfold Node.isLnk; cases hkk : k.kind <;> simp_all [Kind.isLnk])
          rw [hk] at this; exact this
        rw [h1, h2, h3]
        have hst := stopSandbox_stopped noFault s storage m hw hs hm h1 (hl' m)
        rw [if_neg (by simp), if_pos (by simpa using hsel)]
        refine stopLoop_procs noFault glob storage patterns _ r _ hst.wf (hst.storage hs) hfr (fun k => hst.nolink (hl' k)) ?_
        intro q hq
        exact ((C47_stop_running s storage m p hw hs h.plain h.dir h.lock h.pidf h.names h.only h.alive).2 q).1 hq |>.2
      · have hr : n ++ str ".lock" ∈ r := by
          refine (List.mem_cons.1 hmem).resolve_left (fun he => hne ?_)
          rw [hfn] at he
          exact (List.append_cancel_right he).symm
        split
        · exact stopLoop_complete glob storage patterns n p hsel r s hw hs hfr hl h hr
        · rename_i hg
          split
          · have hlk : s.fs.pexists (lockFile storage m) = true := by
              simp only [Bool.or_eq_true, Bool.not_eq_true', not_or] at hg; simpa using hg.1.1
            have hst := stopSandbox_stopped noFault s storage m hw hs hm hlk (hl' m)
            rcases runs_other (fault := noFault) hw hs hm hlk (hl' m) hne (fun k hk => (hl m k hk).2) h with hR | hD
            · refine stopLoop_complete glob storage patterns n p hsel r _ hst.wf (hst.storage hs) hfr (fun k j hj => ?_) hR hr
              rcases hst.keep (storage ++ [k ++ str ".pid"]) with hk | ⟨_, hk⟩
              · exact hl k j (hk ▸ hj)
              · rw [hj] at hk; cases hk
            · exact stopLoop_procs noFault glob storage patterns _ r _ hst.wf (hst.storage hs) hfr (fun k => hst.nolink (hl' k)) hD
          · exact stopLoop_complete glob storage patterns n p hsel r s hw hs hfr hl h hr

/-- **C61**, completeness: unless removing a file fails, no process of a running sandbox that `stop PATTERNS` is about is left, in whatever order the sandboxes come and
whatever other sandboxes are stopped with it. -/
theorem C61_complete (glob : Str → Str → Bool) (storage : Path) (patterns : List Str) (s : Sys) (hw : s.fs.WF) (hs : s.fs.isDirAt storage = true)
    (hl : ∀ n m, s.fs.get (storage ++ [n ++ str ".pid"]) = some m → m.isLnk = false ∧ m.isDir = false)
    (n : Name) (p : Proc) (hr : Spec.Runs s storage n p) (hsel : Spec.StopSelected s.fs glob storage patterns n) :
    ∀ q ∈ (stopAll noFault glob storage patterns s).procs, q.ns ≠ p.ns := by
  rw [hr.own]
  refine stopLoop_complete glob storage patterns n p hsel.2 _ s hw hs (fun f hf => ?_) hl hr (mem_dirNames.2 hsel.1)
  obtain ⟨m, hm⟩ := mem_dirNames.1 hf
  exact ((hw.normal_of_get hm) f (by simp)).2.1

/-- Non-vacuity: sandbox `b` of the example runs and `stop b` is about it. -/
example : Spec.Runs exSys exSb (str "b") ⟨42, str "sandbox", 'S', 20, 20⟩ ∧ Spec.StopSelected exSys.fs globRef exSb [str "b"] (str "b") :=
  ⟨⟨by decide, by decide +kernel, ⟨_, rfl, by decide +kernel⟩, ⟨_, rfl, by decide +kernel⟩, ⟨by decide, str "42", by decide +kernel, decimal_numeral 42 (by decide)⟩,
    by decide +kernel, ⟨by decide, by decide⟩, rfl⟩, ⟨⟨_, rfl⟩, .inr ⟨_, List.mem_cons_self, by decide +kernel⟩⟩⟩

/-- A consequence worth knowing: `list NAME` and `delete NAME` are about sandboxes whose whole name matches, `stop NAME` is about every sandbox whose name *contains* a
match (src/actions/stop.rs:78-80).  With sandboxes `b` and `bc` running, `stop b` also stops `bc`, which `list b` does not name. -/
theorem C61_part : let s : Sys := { exSys with
      fs := FS.set (FS.set (FS.set exSysFs (exSb ++ [str "bc"]) { kind := .dir }) (exSb ++ [str "bc.lock"]) { kind := .reg [] }) (exSb ++ [str "bc.pid"]) { kind := .reg (str "50") },
      procs := exSys.procs ++ [⟨50, str "sandbox", 'S', 30, 30⟩] }
    s.fs.WF ∧ globRef (str "b") (str "bc") = false ∧ (⟨50, str "sandbox", 'S', 30, 30⟩ : Proc) ∈ s.procs ∧
    (stopAll noFault globRef exSb [str "b"] s).procs.map Proc.pid = [1, 7] := by decide +kernel

end SB
