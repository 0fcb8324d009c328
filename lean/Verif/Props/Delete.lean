import Verif.Props.List

/-! # C54: `sandbox delete` -/

namespace SB

/-- The sandboxes a delete command is about: the configured one without patterns, otherwise those with a lock file and a name matched by a pattern. -/
def Spec.Selected (fs : FS) (glob : Str → Str → Bool) (storage : Path) (name : Name) (patterns : List Str) (n : Name) : Prop :=
  if patterns = [] then n = name else (∃ m, fs.get (storage ++ [n ++ str ".lock"]) = some m) ∧ ∃ p ∈ patterns, glob p n = true

theorem toDelete_ok {s s' : Sys} {glob : Str → Str → Bool} {storage : Path} {name : Name} {patterns : List Str} {names : List Name} (hw : s.fs.WF)
    (hs : s.fs.isDirAt storage = true) (hn : '/' ∉ name) (h : toDelete s glob storage name patterns = .ok (s', names)) :
    (∀ n ∈ names, Spec.Selected s.fs glob storage name patterns n ∧ '/' ∉ n) ∧ Touch storage (Spec.Selected s.fs glob storage name patterns) s.fs s'.fs ∧
      s'.procs = s.procs ∧ (∀ q n, s.fs.get q = some n → s'.fs.get q = some n ∨ ∃ m, Spec.Selected s.fs glob storage name patterns m ∧ q = pidFile storage m) := by
  unfold toDelete at h
  split at h
  · rename_i hp
    have hsel : ∀ n, n = name → Spec.Selected s.fs glob storage name patterns n := fun n hn => by unfold Spec.Selected; rw [if_pos hp]; exact hn
    split at h
    · split at h
      · cases h
      · rename_i hg
        cases h
        obtain ⟨h1, h2, _, h3, _⟩ := getSandbox_touch hw hs hn hg
        refine ⟨fun n hn' => ?_, h1.mono hsel, h2, fun q m hq => (h3 q m hq).imp id (fun he => ⟨name, hsel _ rfl, he⟩)⟩
        rw [List.mem_singleton] at hn'
        exact ⟨hsel n hn', hn' ▸ hn⟩
    · cases h
      exact ⟨by simp, .refl hw, rfl, fun q n hq => .inl hq⟩
  · rename_i hp
    split at h
    · cases h
    · rename_i run stop hg
      cases h
      obtain ⟨h1, h2, _⟩ := C55_list s glob storage patterns run stop hw hg
      refine ⟨fun n hn' => ?_, .refl hw, rfl, fun q n hq => .inl hq⟩
      have hm : Spec.Matching s.fs glob storage patterns n := by
        rcases List.mem_append.1 hn' with hh | hh
        · exact ((h1 n).1 hh).1
        · exact ((h2 n).1 hh).1
      obtain ⟨⟨m, hm⟩, hpat⟩ := hm
      refine ⟨?_, ?_⟩
      · unfold Spec.Selected; rw [if_neg hp]
        exact ⟨⟨m, hm⟩, hpat.resolve_left hp⟩
      · have := (hw.normal_of_get hm) (n ++ str ".lock") (by simp)
        intro hc; exact this.2.1 (by simp [hc])

theorem visitAll_ok {storage : Path} {N : Name → Prop} : ∀ {names : List Name} {s s' : Sys}, s.fs.WF → s.fs.isDirAt storage = true →
    (∀ n ∈ names, N n ∧ '/' ∉ n) → visitAll storage names s = .ok s' →
    Touch storage N s.fs s'.fs ∧ s'.procs = s.procs ∧ (∀ q n, s.fs.get q = some n → s'.fs.get q = some n ∨ ∃ m, N m ∧ q = pidFile storage m)
  | [], s, s', hw, hs, _, h => by cases h; exact ⟨.refl hw, rfl, fun q n hq => .inl hq⟩
  | n :: r, s, s', hw, hs, hN, h => by
    unfold visitAll at h
    split at h
    · cases h
    · rename_i s1 _ hg
      obtain ⟨h1, h2, _, h3, _⟩ := getSandbox_touch hw hs (hN n List.mem_cons_self).2 hg
      have h1' := h1.mono (M := N) (by rintro m rfl; exact (hN m List.mem_cons_self).1)
      obtain ⟨g1, g2, g3⟩ := visitAll_ok h1.wf (h1.storage hs) (fun m hm => hN m (List.mem_cons_of_mem _ hm)) h
      refine ⟨h1'.trans g1, g2.trans h2, fun q m hq => ?_⟩
      rcases h3 q m hq with h | h
      · exact g3 q m h
      · exact .inr ⟨n, (hN n List.mem_cons_self).1, h⟩

theorem deleteEach_touch {fault : Fault} {storage : Path} {N : Name → Prop} : ∀ {names : List Name} {s : Sys}, s.fs.WF → s.fs.isDirAt storage = true →
    (∀ n ∈ names, N n ∧ NormalName n) → (∀ n ∈ names, ∀ m, s.fs.get (storage ++ [n]) = some m → m.isLnk = false) →
    Touch storage N s.fs (deleteEach fault storage names s).1.fs
  | [], s, hw, _, _, _ => .refl hw
  | n :: r, s, hw, hs, hN, hl => by
    unfold deleteEach
    obtain ⟨hNn, hnn⟩ := hN n List.mem_cons_self
    cases hg : getSandbox s storage n with
    | error e => exact .refl hw
    | ok x =>
      obtain ⟨s1, pid⟩ := x
      dsimp only
      obtain ⟨h1, _⟩ := getSandbox_touch hw hs hnn.2.1 hg
      have h1' := h1.mono (M := N) (by rintro m rfl; exact hNn)
      obtain ⟨h2, _⟩ := deleteSandbox_touch fault s1 storage n pid h1.wf (h1.storage hs) hnn (h1.nolink (hl n List.mem_cons_self))
      have h2' := h1'.trans (h2.mono (M := N) (by rintro m rfl; exact hNn))
      have ih := @deleteEach_touch fault storage N r (deleteSandbox fault s1 storage n pid).1 h2'.wf (h2'.storage hs)
        (fun m hm => hN m (List.mem_cons_of_mem _ hm)) (fun m hm => h2'.nolink (hl m (List.mem_cons_of_mem _ hm)))
      cases hd : deleteSandbox fault s1 storage n pid with
      | mk s2 e =>
        rw [hd] at ih h2'
        cases e with
        | none => exact h2'.trans ih
        | some e => exact h2'.trans ih

/-- **C54**, confirmation: without `-y`, unless the answer is `y` or `Y` (with blanks around it), no process is killed and every file stays except pid files of
selected sandboxes (stale ones are removed whenever a sandbox is looked at). -/
theorem C54_confirmation (fault : Fault) (glob : Str → Str → Bool) (storage : Path) (name : Name) (patterns : List Str) (answer : Str) (s : Sys)
    (hw : s.fs.WF) (hs : s.fs.isDirAt storage = true) (hn : '/' ∉ name) (ha : trim answer ≠ ['y'] ∧ trim answer ≠ ['Y']) :
    (deleteAction fault glob storage name patterns false answer s).2.1 = [] ∧
    (deleteAction fault glob storage name patterns false answer s).1.procs = s.procs ∧
    ∀ q n, s.fs.get q = some n → (deleteAction fault glob storage name patterns false answer s).1.fs.get q = some n ∨
      ∃ m, Spec.Selected s.fs glob storage name patterns m ∧ q = storage ++ [m ++ str ".pid"] := by
  have hc : confirmed answer = false := by
    unfold confirmed
    rw [decide_eq_false_iff_not]
    intro h
    unfold lower at h
    cases ht : trim answer with
    | nil => rw [ht] at h; cases h
    | cons c r =>
      rw [ht] at h ha
      simp only [List.map_cons, List.cons.injEq, List.map_eq_nil_iff] at h
      obtain ⟨h1, rfl⟩ := h
      have : c = 'y' ∨ c = 'Y' := by
        unfold lowerChar at h1
        split at h1
        · rename_i hr
          right
          have hall : ∀ k < 91, 65 ≤ k → Char.ofNat (k + 32) = 'y' → k = 89 := by decide +kernel
          have h4 : c.toNat = 89 := hall _ (by omega) hr.1 h1
          have := Char.ofNat_toNat c
          rw [h4] at this; rw [← this]
        · exact .inl h1
      rcases this with rfl | rfl
      · exact ha.1 rfl
      · exact ha.2 rfl
  unfold deleteAction
  cases ht : toDelete s glob storage name patterns with
  | error e => exact ⟨rfl, rfl, fun q n hq => .inl hq⟩
  | ok x =>
    obtain ⟨s1, names⟩ := x
    obtain ⟨h1, h2, h3, h4⟩ := toDelete_ok hw hs hn ht
    dsimp only
    split
    · exact ⟨rfl, h3, h4⟩
    · simp only [Bool.false_eq_true, if_false]
      cases hv : visitAll storage names s1 with
      | error e => exact ⟨rfl, h3, h4⟩
      | ok s2 =>
        obtain ⟨g1, g2, g3⟩ := visitAll_ok (N := Spec.Selected s.fs glob storage name patterns) h2.wf (h2.storage hs) h1 hv
        rw [hc]
        dsimp only
        refine ⟨rfl, g2.trans h3, fun q n hq => ?_⟩
        rcases h4 q n hq with h | h
        · exact g3 q n h
        · exact .inr h

/-- **C54**, scope (partial): whatever the options, the answer and the failures, a path is unchanged unless it is the directory, something inside it, the lock file
or the pid file of a selected sandbox (which is then deleted, or an empty lock file that was missing).
Missing: sandboxes called `""`, `.` or `..` (`C54_refuted_dot_lock`) and symbolic links as sandbox directories (`C41_refuted_symlink`). -/
theorem C54_scope_partial (fault : Fault) (glob : Str → Str → Bool) (storage : Path) (name : Name) (patterns : List Str) (force : Bool) (answer : Str) (s : Sys)
    (hw : s.fs.WF) (hs : s.fs.isDirAt storage = true) (hn : '/' ∉ name) (hsel : ∀ n, Spec.Selected s.fs glob storage name patterns n →
      (n ≠ [] ∧ n ≠ ['.'] ∧ n ≠ ['.', '.']) ∧ ∀ m, s.fs.get (storage ++ [n]) = some m → m.isLnk = false) (q : Path) :
    (deleteAction fault glob storage name patterns force answer s).1.fs.get q = s.fs.get q ∨
    ∃ n, Spec.Selected s.fs glob storage name patterns n ∧
      (((deleteAction fault glob storage name patterns force answer s).1.fs.get q = none ∧
          (storage ++ [n] <+: q ∨ q = storage ++ [n ++ str ".lock"] ∨ q = storage ++ [n ++ str ".pid"])) ∨
        (q = storage ++ [n ++ str ".lock"] ∧ ∃ m, (deleteAction fault glob storage name patterns force answer s).1.fs.get q = some m ∧ m.kind = .reg [])) := by
  have key : Touch storage (Spec.Selected s.fs glob storage name patterns) s.fs (deleteAction fault glob storage name patterns force answer s).1.fs := by
    unfold deleteAction
    cases ht : toDelete s glob storage name patterns with
    | error e => exact .refl hw
    | ok x =>
      obtain ⟨s1, names⟩ := x
      obtain ⟨h1, h2, h3, h4⟩ := toDelete_ok hw hs hn ht
      have hN : ∀ n ∈ names, Spec.Selected s.fs glob storage name patterns n ∧ NormalName n := fun n hn' =>
        ⟨(h1 n hn').1, (hsel n (h1 n hn').1).1.1, (h1 n hn').2, (hsel n (h1 n hn').1).1.2⟩
      dsimp only
      split
      · exact h2
      · split
        · exact h2.trans (deleteEach_touch h2.wf (h2.storage hs) hN (fun n hn' => h2.nolink (hsel n (h1 n hn').1).2))
        · cases hv : visitAll storage names s1 with
          | error e => exact h2
          | ok s2 =>
            obtain ⟨g1, _, _⟩ := visitAll_ok (N := Spec.Selected s.fs glob storage name patterns) h2.wf (h2.storage hs) h1 hv
            have h5 := h2.trans g1
            dsimp only
            split
            · exact h5.trans (deleteEach_touch h5.wf (h5.storage hs) hN (fun n hn' => h5.nolink (hsel n (h1 n hn').1).2))
            · exact h5
  rcases key.keep q with h | ⟨n, hsn, ⟨ho, h⟩ | ⟨hq, hm⟩⟩
  · exact .inl h
  · exact .inr ⟨n, hsn, .inl ⟨h, ho⟩⟩
  · exact .inr ⟨n, hsn, .inr ⟨hq, hm⟩⟩

/-- **C54**: an accepted name without patterns only concerns that name, and the answers that count as yes. -/
theorem C54_yes (answer : Str) (h : trim answer = ['y'] ∨ trim answer = ['Y']) : confirmed answer = true := by
  unfold confirmed
  rcases h with h | h <;> rw [h] <;> decide

/-- **C54**, order: whatever fails in the course of deleting a sandbox, if its lock file is gone afterwards then so are its directory with everything in it and its
pid file, and it was reported as deleted. -/
theorem C54_lock_last (fault : Fault) (s : Sys) (storage : Path) (name : Name) (pid : Option Nat) (hw : s.fs.WF) (hs : s.fs.isDirAt storage = true)
    (hn : NormalName name) (hl : ∀ p ∈ [storage ++ [name], storage ++ [name ++ str ".pid"]], ∀ n, s.fs.get p = some n → n.isLnk = false)
    (hex : s.fs.get (storage ++ [name ++ str ".lock"]) ≠ none) :
    (deleteSandbox fault s storage name pid).1.fs.get (storage ++ [name ++ str ".lock"]) = none →
      (∀ q, storage ++ [name] <+: q → (deleteSandbox fault s storage name pid).1.fs.get q = none) ∧
      (deleteSandbox fault s storage name pid).1.fs.get (storage ++ [name ++ str ".pid"]) = none := by
  intro h
  obtain ⟨_, _, hlast⟩ := deleteSandbox_touch fault s storage name pid hw hs hn (hl _ (by simp))
  obtain ⟨h1, _, h2⟩ := hlast (.inr ⟨h, hex⟩)
  exact ⟨h1, h2 (hl _ (by simp [pidFile]))⟩

/-- **C54**, effect: a sandbox reported as deleted is gone. -/
theorem C54_deleted (fault : Fault) (s : Sys) (storage : Path) (name : Name) (pid : Option Nat) (hw : s.fs.WF) (hs : s.fs.isDirAt storage = true)
    (hn : NormalName name) (hl : ∀ p ∈ [storage ++ [name], storage ++ [name ++ str ".pid"]], ∀ n, s.fs.get p = some n → n.isLnk = false)
    (hok : (deleteSandbox fault s storage name pid).2 = none) :
    (∀ q, storage ++ [name] <+: q → (deleteSandbox fault s storage name pid).1.fs.get q = none) ∧
    (deleteSandbox fault s storage name pid).1.fs.get (storage ++ [name ++ str ".lock"]) = none ∧
    (deleteSandbox fault s storage name pid).1.fs.get (storage ++ [name ++ str ".pid"]) = none := by
  obtain ⟨_, _, hlast⟩ := deleteSandbox_touch fault s storage name pid hw hs hn (hl _ (by simp))
  obtain ⟨h1, h3, h2⟩ := hlast (.inl hok)
  exact ⟨h1, h3, h2 (hl _ (by simp [pidFile]))⟩

/-- The sandbox has a file: its directory, its lock file or its pid file. -/
def Spec.HasFiles (fs : FS) (storage : Path) (n : Name) : Prop := ∃ p ∈ [storage ++ [n], storage ++ [n ++ str ".lock"], storage ++ [n ++ str ".pid"]], ∃ m, fs.get p = some m

/-- Nothing of the sandbox is left. -/
structure Spec.Gone (fs : FS) (storage : Path) (n : Name) : Prop where
  dir : ∀ q, storage ++ [n] <+: q → fs.get q = none
  lock : fs.get (storage ++ [n ++ str ".lock"]) = none
  pid : fs.get (storage ++ [n ++ str ".pid"]) = none

theorem lock_ne_pid (a b : Name) : a ++ str ".lock" ≠ b ++ str ".pid" := by
  intro h
  have := congrArg List.getLast? h
  rw [List.getLast?_append, List.getLast?_append, show (str ".lock").getLast? = some 'k' by decide, show (str ".pid").getLast? = some 'd' by decide] at this
  simp at this

theorem gone_touch {storage : Path} {N : Name → Prop} {a b : FS} {n : Name} (ht : Touch storage N a b) (hg : Spec.Gone a storage n) (hne : ∀ n', N n' → n' ≠ n ∧ n ≠ n' ++ str ".lock") :
    Spec.Gone b storage n := by
  have key : ∀ q, a.get q = none → (∀ n', N n' → q ≠ lockFile storage n') → b.get q = none := by
    intro q hq hn'
    rcases ht.keep q with h | ⟨n', hn1, ⟨_, h⟩ | ⟨h, _⟩⟩
    · rw [h]; exact hq
    · exact h
    · exact absurd h (hn' n' hn1)
  refine ⟨fun q hq => key q (hg.dir q hq) (fun n' hn1 he => ?_), key _ hg.lock (fun n' hn1 he => ?_), key _ hg.pid (fun n' hn1 he => ?_)⟩
  · subst he
    have := hq.eq_of_length (by simp [lockFile])
    simp only [lockFile, List.append_cancel_left_eq, List.cons.injEq, and_true] at this
    exact (hne n' hn1).2 this
  · simp only [lockFile, List.append_cancel_left_eq, List.cons.injEq, and_true, List.append_cancel_right_eq] at he
    exact (hne n' hn1).1 he.symm
  · simp only [lockFile, List.append_cancel_left_eq, List.cons.injEq, and_true] at he
    exact lock_ne_pid n' n he.symm

theorem deleteEach_all {fault : Fault} {storage : Path} : ∀ {names : List Name} {s : Sys}, s.fs.WF → s.fs.isDirAt storage = true → names.Nodup →
    (∀ n ∈ names, ∀ n' ∈ names, n ≠ n' ++ str ".lock") → (∀ n ∈ names, NormalName n) →
    (∀ n ∈ names, ∀ p ∈ [storage ++ [n], storage ++ [n ++ str ".pid"]], ∀ m, s.fs.get p = some m → m.isLnk = false) → (deleteEach fault storage names s).2.2.2 = none →
    (∀ n ∈ names, n ∈ (deleteEach fault storage names s).2.1 ∨ n ∈ (deleteEach fault storage names s).2.2.1) ∧
    (∀ n ∈ (deleteEach fault storage names s).2.1, n ∈ names ∧ n ∉ (deleteEach fault storage names s).2.2.1 ∧ Spec.Gone (deleteEach fault storage names s).1.fs storage n) ∧
    (∀ n ∈ (deleteEach fault storage names s).2.2.1, n ∈ names)
  | [], s, _, _, _, _, _, _, _ => ⟨by simp, by simp [deleteEach], by simp [deleteEach]⟩
  | n :: r, s, hw, hs, hnd, hap, hN, hl, hok => by
    unfold deleteEach at hok ⊢
    have hnn := hN n List.mem_cons_self
    obtain ⟨hnr, hndr⟩ := List.nodup_cons.1 hnd
    cases hg : getSandbox s storage n with
    | error e => rw [hg] at hok; cases hok
    | ok x =>
      obtain ⟨s1, pid⟩ := x
      rw [hg] at hok
      dsimp only at hok ⊢
      obtain ⟨h1, _⟩ := getSandbox_touch hw hs hnn.2.1 hg
      have hl1 : ∀ p ∈ [storage ++ [n], storage ++ [n ++ str ".pid"]], ∀ m, s1.fs.get p = some m → m.isLnk = false := fun p hp => h1.nolink (hl n List.mem_cons_self p hp)
      obtain ⟨h2, _⟩ := deleteSandbox_touch fault s1 storage n pid h1.wf (h1.storage hs) hnn (hl1 _ (by simp))
      have hgone := fun hok' => C54_deleted fault s1 storage n pid h1.wf (h1.storage hs) hnn hl1 hok'
      have h12 := h1.trans h2
      have ih := @deleteEach_all fault storage r (deleteSandbox fault s1 storage n pid).1 h12.wf (h12.storage hs) hndr
        (fun a ha b hb => hap a (List.mem_cons_of_mem _ ha) b (List.mem_cons_of_mem _ hb)) (fun m hm => hN m (List.mem_cons_of_mem _ hm))
        (fun m hm p hp => h12.nolink (hl m (List.mem_cons_of_mem _ hm) p hp))
      have htr := @deleteEach_touch fault storage (· ∈ r) r (deleteSandbox fault s1 storage n pid).1 h12.wf (h12.storage hs) (fun m hm => ⟨hm, hN m (List.mem_cons_of_mem _ hm)⟩)
        (fun m hm => h12.nolink (hl m (List.mem_cons_of_mem _ hm) _ (by simp)))
      cases hd : deleteSandbox fault s1 storage n pid with
      | mk s2 e =>
        rw [hd] at ih htr hgone hok
        dsimp only at ih htr hok
        cases e with
        | none =>
          dsimp only at hok ⊢
          obtain ⟨i1, i2, i3⟩ := ih hok
          refine ⟨fun m hm => ?_, fun m hm => ?_, fun m hm => List.mem_cons_of_mem _ (i3 m hm)⟩
          · rcases List.mem_cons.1 hm with rfl | hm
            · exact Or.inl List.mem_cons_self
            · exact (i1 m hm).imp (List.mem_cons_of_mem _) id
          · rcases List.mem_cons.1 hm with rfl | hm
            · obtain ⟨g1, g2, g3⟩ := hgone rfl
              exact ⟨List.mem_cons_self, fun hc => hnr (i3 _ hc), gone_touch htr ⟨g1, g2, g3⟩ (fun n' hn' =>
                ⟨fun e => hnr (e ▸ hn'), hap _ List.mem_cons_self n' (List.mem_cons_of_mem _ hn')⟩)⟩
            · obtain ⟨j1, j2, j3⟩ := i2 m hm
              exact ⟨List.mem_cons_of_mem _ j1, j2, j3⟩
        | some e =>
          dsimp only at hok ⊢
          obtain ⟨i1, i2, i3⟩ := ih hok
          refine ⟨fun m hm => ?_, fun m hm => ?_, fun m hm => ?_⟩
          · rcases List.mem_cons.1 hm with rfl | hm
            · exact Or.inr List.mem_cons_self
            · exact (i1 m hm).imp id (List.mem_cons_of_mem _)
          · obtain ⟨j1, j2, j3⟩ := i2 m hm
            refine ⟨List.mem_cons_of_mem _ j1, fun hc => ?_, j3⟩
            rcases List.mem_cons.1 hc with rfl | hc
            · exact hnr j1
            · exact j2 hc
          · rcases List.mem_cons.1 hm with rfl | hm
            · exact List.mem_cons_self
            · exact List.mem_cons_of_mem _ (i3 m hm)

theorem toDelete_all {s s' : Sys} {glob : Str → Str → Bool} {storage : Path} {name : Name} {patterns : List Str} {names : List Name} (hw : s.fs.WF)
    (hs : s.fs.isDirAt storage = true) (hnn : ∀ n, Spec.Selected s.fs glob storage name patterns n → NormalName n)
    (hl : ∀ n, Spec.Selected s.fs glob storage name patterns n → ∀ p ∈ [storage ++ [n], storage ++ [n ++ str ".lock"], storage ++ [n ++ str ".pid"]], ∀ m, s.fs.get p = some m → m.isLnk = false)
    (h : toDelete s glob storage name patterns = .ok (s', names)) :
    names.Nodup ∧ ∀ n, Spec.Selected s.fs glob storage name patterns n → Spec.HasFiles s.fs storage n → n ∈ names := by
  unfold toDelete at h
  split at h
  · rename_i hp
    have hse : ∀ n, Spec.Selected s.fs glob storage name patterns n ↔ n = name := fun n => by unfold Spec.Selected; rw [if_pos hp]
    split at h
    · split at h
      · cases h
      · cases h
        exact ⟨by simp, fun n hn _ => by rw [(hse n).1 hn]; simp⟩
    · next hex =>
      cases h
      refine ⟨by simp, fun n hn hf => ?_⟩
      exfalso
      have hn' := hnn n hn
      have hl' := hl n hn
      rw [(hse n).1 hn] at hf hl' hn'
      apply hex
      obtain ⟨p, hp1, m, hm⟩ := hf
      unfold sandboxExists
      rw [sandboxDir_normal hn', pexists_child hw hs hn' (hl' _ (by simp)),
        show pidFile storage name = storage ++ [name ++ str ".pid"] from rfl, pexists_child hw hs (normal_pid hn'.2.1) (hl' _ (by simp)),
        show lockFile storage name = storage ++ [name ++ str ".lock"] from rfl, pexists_child hw hs (normal_lock hn'.2.1) (hl' _ (by simp))]
      simp only [List.mem_cons, List.not_mem_nil, or_false] at hp1
      rcases hp1 with rfl | rfl | rfl <;> rw [hm] <;> simp
  · rename_i hp
    split at h
    · cases h
    · rename_i run stop hg
      cases h
      obtain ⟨h1, h2, h3, _⟩ := C55_list s glob storage patterns run stop hw hg
      refine ⟨h3, fun n hn _ => ?_⟩
      unfold Spec.Selected at hn
      rw [if_neg hp] at hn
      have hm : Spec.Matching s.fs glob storage patterns n := ⟨hn.1, Or.inr hn.2⟩
      by_cases ha : Spec.Alive s storage n
      · exact List.mem_append_left _ ((h1 n).2 ⟨hm, ha⟩)
      · exact List.mem_append_right _ ((h2 n).2 ⟨hm, ha⟩)

/-- **C54**, completeness (partial): if the user agrees and the command does not end with an error, every selected sandbox of which there is anything is either reported as deleted or reported as an
error, not both; and of those reported as deleted nothing is left when the command ends.
Missing: names like `a` and `a.lock` together (`C42_refuted`), the names `""`, `.` and `..`, and links in the storage directory. -/
theorem C54_complete_partial (fault : Fault) (glob : Str → Str → Bool) (storage : Path) (name : Name) (patterns : List Str) (force : Bool) (answer : Str) (s : Sys)
    (hw : s.fs.WF) (hs : s.fs.isDirAt storage = true) (hnn : ∀ n, Spec.Selected s.fs glob storage name patterns n → NormalName n) (hn : '/' ∉ name)
    (hl : ∀ n, Spec.Selected s.fs glob storage name patterns n → ∀ p ∈ [storage ++ [n], storage ++ [n ++ str ".lock"], storage ++ [n ++ str ".pid"]], ∀ m, s.fs.get p = some m → m.isLnk = false)
    (hap : ∀ n n', Spec.Selected s.fs glob storage name patterns n → Spec.Selected s.fs glob storage name patterns n' → n ≠ n' ++ str ".lock")
    (hyes : force = true ∨ trim answer = ['y'] ∨ trim answer = ['Y']) (hok : (deleteAction fault glob storage name patterns force answer s).2.2.2 = none) :
    (∀ n, Spec.Selected s.fs glob storage name patterns n → Spec.HasFiles s.fs storage n →
      n ∈ (deleteAction fault glob storage name patterns force answer s).2.1 ∨ n ∈ (deleteAction fault glob storage name patterns force answer s).2.2.1) ∧
    (∀ n ∈ (deleteAction fault glob storage name patterns force answer s).2.1, Spec.Selected s.fs glob storage name patterns n ∧
      n ∉ (deleteAction fault glob storage name patterns force answer s).2.2.1 ∧ Spec.Gone (deleteAction fault glob storage name patterns force answer s).1.fs storage n) := by
  unfold deleteAction at hok ⊢
  cases ht : toDelete s glob storage name patterns with
  | error e => rw [ht] at hok; cases hok
  | ok x =>
    obtain ⟨s1, names⟩ := x
    rw [ht] at hok
    dsimp only at hok ⊢
    obtain ⟨h1, h2, _, _⟩ := toDelete_ok hw hs hn ht
    obtain ⟨a1, a2⟩ := toDelete_all hw hs hnn hl ht
    have each : ∀ s2 : Sys, Touch storage (Spec.Selected s.fs glob storage name patterns) s.fs s2.fs → (deleteEach fault storage names s2).2.2.2 = none →
        (∀ n, Spec.Selected s.fs glob storage name patterns n → Spec.HasFiles s.fs storage n →
          n ∈ (deleteEach fault storage names s2).2.1 ∨ n ∈ (deleteEach fault storage names s2).2.2.1) ∧
        (∀ n ∈ (deleteEach fault storage names s2).2.1, Spec.Selected s.fs glob storage name patterns n ∧ n ∉ (deleteEach fault storage names s2).2.2.1 ∧
          Spec.Gone (deleteEach fault storage names s2).1.fs storage n) := by
      intro s2 ht2 hok2
      obtain ⟨b1, b2, _⟩ := deleteEach_all ht2.wf (ht2.storage hs) a1 (fun a ha b hb => hap a b (h1 a ha).1 (h1 b hb).1) (fun a ha => hnn a (h1 a ha).1)
        (fun a ha p hp => ht2.nolink (hl a (h1 a ha).1 p (by
          simp only [List.mem_cons, List.not_mem_nil, or_false] at hp ⊢
          rcases hp with hp | hp <;> simp [hp]))) hok2
      exact ⟨fun n hn1 hn2 => b1 n (a2 n hn1 hn2), fun n hn1 => ⟨(h1 n (b2 n hn1).1).1, (b2 n hn1).2⟩⟩
    split at hok
    · next he =>
      rw [if_pos he]
      refine ⟨fun n hn1 hn2 => ?_, fun n hn1 => by cases hn1⟩
      have := a2 n hn1 hn2
      rw [he] at this; cases this
    · next he =>
      rw [if_neg he]
      split at hok
      · next hf => rw [if_pos hf]; exact each s1 h2 hok
      · next hf =>
        rw [if_neg hf]
        have hc := C54_yes answer (hyes.resolve_left hf)
        cases hv : visitAll storage names s1 with
        | error e => rw [hv] at hok; cases hok
        | ok s2 =>
          rw [hv] at hok
          obtain ⟨g1, _, _⟩ := visitAll_ok (N := Spec.Selected s.fs glob storage name patterns) h2.wf (h2.storage hs) h1 hv
          dsimp only at hok ⊢
          rw [hc, if_pos rfl] at hok ⊢
          exact each s2 (h2.trans g1) hok

-- the conditions can be met: `delete -y 'a*' b`, and `delete` of the sandbox `c` of which only the lock file is left
example : (∀ n ∈ [str "a", str "b"], NormalName n ∧ ∀ p ∈ [exSb ++ [n], exSb ++ [n ++ str ".lock"], exSb ++ [n ++ str ".pid"]], ∀ m ∈ exSys.fs.get p, m.isLnk = false) ∧
    (deleteAction noFault globRef exSb (str "b") [] true [] exSys).2 = ([str "b"], [], none) ∧
    (deleteAction noFault globRef exSb (str "c") [] true [] { exSys with fs := exSysFs ++ [(exSb ++ [str "c.lock"], { kind := .reg [] })] }).2 = ([str "c"], [], none) ∧
    (deleteAction (fun q => if q = exSb ++ [str "b", str "upper"] then some .EBUSY else none) globRef exSb (str "b") [] true [] exSys).2 = ([], [str "b"], none) := by decide +kernel

/-- Non-vacuity: `delete -y 'a*' b` deletes `a` and `b` (killing the processes of `b`), not `x`; answering no deletes nothing. -/
example : (deleteAction noFault globRef exSb [] [str "a*", str "b"] true [] exSys).2 = ([str "b", str "a"], [], none) ∧
    (deleteAction noFault globRef exSb [] [str "a*", str "b"] true [] exSys).1.procs.map Proc.pid = [1, 7] ∧
    (deleteAction noFault globRef exSb [] [str "a*", str "b"] true [] exSys).1.fs.get (exSb ++ [str "x.lock"]) ≠ none ∧
    (deleteAction noFault globRef exSb [] [str "a*", str "b"] true [] exSys).1.fs.get (exSb ++ [str "b.lock"]) = none := by decide +kernel
example : (deleteAction noFault globRef exSb [] [str "a*"] false (str " no\n") exSys).2 = ([], [], none) ∧
    (deleteAction noFault globRef exSb [] [str "a*"] false (str " no\n") exSys).1.fs.length + 1 = exSys.fs.length := by decide +kernel
example : (deleteAction noFault globRef exSb [] [str "a*"] false (str " Y\n") exSys).2 = ([str "a"], [], none) := by decide +kernel
example : ∀ n ∈ [str "a", str "b"], ∀ m, exSys.fs.get (exSb ++ [n]) = some m → m.isLnk = false := by
  intro n hn m hm
  simp only [List.mem_cons, List.not_mem_nil, or_false] at hn
  rcases hn with rfl | rfl <;> (revert m; decide +kernel)
/-- A failure while the directory is being removed leaves the lock file. -/
example : (deleteSandbox (fun q => if q = exSb ++ [str "a", str "upper"] then some .EBUSY else none) exSys exSb (str "a") none).2 = some (.os .EBUSY) ∧
    (deleteSandbox (fun q => if q = exSb ++ [str "a", str "upper"] then some .EBUSY else none) exSys exSb (str "a") none).1.fs.get (lockFile exSb (str "a")) ≠ none := by
  decide +kernel

/-- **C54 is refuted** for a lock file called `.lock` (the sandbox with the empty name, see C41): a pattern that matches everything deletes the storage directory with
all sandboxes, including those a more special pattern was meant to keep. -/
theorem C54_refuted_dot_lock : (deleteAction noFault globRef exSb [] [str "?", []] true [] ⟨exSysFs ++ [(exSb ++ [str ".lock"], { kind := .reg [] }),
    (exSb ++ [str "keep"], { kind := .dir }), (exSb ++ [str "keep.lock"], { kind := .reg [] })], [], fun _ => false⟩).1.fs.get (exSb ++ [str "keep"]) = none ∧
    globRef (str "?") (str "keep") = false ∧ globRef [] (str "keep") = false := by decide +kernel

/-- **C54 is refuted** for what success means: when a file of a sandbox cannot be removed, `delete` prints the error and ends with exit code 0 and `"status": "success"`, and the sandbox is still there. -/
theorem C54_refuted_success : let r := deleteAction (fun q => if q = exSb ++ [str "b", str "upper"] then some .EBUSY else none) globRef exSb (str "b") [] true [] exSys
    r.2.2.2 = none ∧ r.2.1 = [] ∧ r.1.fs.isDirAt (exSb ++ [str "b", str "upper"]) = true ∧ (r.1.fs.get (exSb ++ [str "b.lock"])).isSome = true := by decide +kernel

end SB
