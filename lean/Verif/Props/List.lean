import Verif.Props.Names
import Verif.Lib.Words

/-! # C55: `sandbox list` -/

namespace SB

theorem lockOwner_iff {f n : Name} : lockOwner f = some n ↔ f = n ++ str ".lock" := by
  unfold lockOwner
  constructor
  · intro h
    split at h
    · rename_i hs
      cases h
      rw [List.isSuffixOf_iff_suffix] at hs
      obtain ⟨t, ht⟩ := hs
      subst ht
      simp [str]
    · cases h
  · rintro rfl
    rw [if_pos (by rw [List.isSuffixOf_iff_suffix]; exact List.suffix_append _ _)]
    simp [str]

theorem mem_dirNames {fs : FS} {d : Path} {x : Name} : x ∈ dirNames fs d ↔ ∃ n, fs.get (d ++ [x]) = some n := by
  unfold dirNames
  simp only [List.mem_map, mem_children]
  constructor
  · rintro ⟨q, ⟨hk, h0, rfl⟩, rfl⟩
    obtain ⟨n, hn⟩ := FS.mem_keys.1 hk
    refine ⟨n, ?_⟩
    rcases List.eq_nil_or_concat q with rfl | ⟨p, l, rfl⟩
    · exact absurd rfl h0
    · simpa using hn
  · rintro ⟨n, hn⟩
    exact ⟨d ++ [x], ⟨FS.mem_keys.2 ⟨n, hn⟩, by simp, by simp⟩, by simp⟩

theorem dirNames_nodup {fs : FS} (hw : fs.WF) (d : Path) : (dirNames fs d).Nodup := by
  unfold dirNames
  rw [List.nodup_map_iff_inj_on (by unfold FS.children; exact List.Nodup.filter _ hw.nodup)]
  intro p hp q hq h
  obtain ⟨_, hp0, hpd⟩ := mem_children.1 hp
  obtain ⟨_, hq0, hqd⟩ := mem_children.1 hq
  rcases List.eq_nil_or_concat p with rfl | ⟨p', l, rfl⟩
  · exact absurd rfl hp0
  · rcases List.eq_nil_or_concat q with rfl | ⟨q', l', rfl⟩
    · exact absurd rfl hq0
    · simp at hpd hqd h; subst hpd; subst hqd; rw [h]

theorem listLoop_ok {s : Sys} {glob : Str → Str → Bool} {storage : Path} {patterns : List Str} : ∀ {files : List Name} {run stop : List Name},
    listLoop s glob storage patterns files = .ok (run, stop) →
    (∀ n, n ∈ run ↔ n ++ str ".lock" ∈ files ∧ (patterns = [] ∨ ∃ p ∈ patterns, glob p n = true) ∧ listRunning s storage n = .ok true) ∧
    (∀ n, n ∈ stop ↔ n ++ str ".lock" ∈ files ∧ (patterns = [] ∨ ∃ p ∈ patterns, glob p n = true) ∧ listRunning s storage n = .ok false) ∧
    (files.Nodup → run.Nodup ∧ stop.Nodup)
  | [], run, stop, h => by cases h; simp
  | f :: r, run, stop, h => by
    unfold listLoop at h
    cases ho : lockOwner f with
    | none =>
      rw [ho] at h
      dsimp only at h
      have hne : ∀ n, n ++ str ".lock" ≠ f := fun n he => by rw [lockOwner_iff.2 he.symm] at ho; cases ho
      obtain ⟨h1, h2, h3⟩ := listLoop_ok h
      refine ⟨fun n => ?_, fun n => ?_, fun hn => h3 (List.nodup_cons.1 hn).2⟩
      · rw [h1, List.mem_cons]; simp [hne n]
      · rw [h2, List.mem_cons]; simp [hne n]
    | some m =>
      rw [ho] at h
      dsimp only at h
      have hf := lockOwner_iff.1 ho
      split at h
      · rename_i hp
        have hp' : patterns = [] ∨ ∃ p ∈ patterns, glob p m = true := by simpa using hp
        split at h
        · cases h
        · rename_i b hb
          split at h
          · cases h
          · rename_i run' stop' hr
            obtain ⟨h1, h2, h3⟩ := listLoop_ok hr
            have hnd : ∀ {x : Name} {l : List Name}, (∀ n, n ∈ l → n ++ str ".lock" ∈ r) → (f :: r).Nodup → m ∉ l := by
              intro x l hl hnd hm
              exact (List.nodup_cons.1 hnd).1 (hf ▸ hl m hm)
            have hcons : ∀ n, n ++ str ".lock" ∈ f :: r ↔ n = m ∨ n ++ str ".lock" ∈ r := by
              intro n; rw [List.mem_cons, hf]
              constructor
              · rintro (h | h)
                · exact .inl (List.append_cancel_right h)
                · exact .inr h
              · rintro (rfl | h)
                · exact .inl rfl
                · exact .inr h
            cases b with
            | true =>
              simp only [if_true, Except.ok.injEq, Prod.mk.injEq] at h
              obtain ⟨rfl, rfl⟩ := h
              refine ⟨fun n => ?_, fun n => ?_, fun hn => ⟨List.nodup_cons.2 ⟨hnd (x := m) (fun n hn => ((h1 n).1 hn).1) hn, (h3 (List.nodup_cons.1 hn).2).1⟩, (h3 (List.nodup_cons.1 hn).2).2⟩⟩
              · rw [List.mem_cons, h1, hcons]
                constructor
                · rintro (rfl | ⟨a, b, c⟩)
                  · exact ⟨.inl rfl, hp', hb⟩
                  · exact ⟨.inr a, b, c⟩
                · rintro ⟨rfl | a, b, c⟩
                  · exact .inl rfl
                  · exact .inr ⟨a, b, c⟩
              · rw [h2, hcons]
                constructor
                · rintro ⟨a, b, c⟩; exact ⟨.inr a, b, c⟩
                · rintro ⟨rfl | a, b, c⟩
                  · rw [hb] at c; cases c
                  · exact ⟨a, b, c⟩
            | false =>
              simp only [Bool.false_eq_true, if_false, Except.ok.injEq, Prod.mk.injEq] at h
              obtain ⟨rfl, rfl⟩ := h
              refine ⟨fun n => ?_, fun n => ?_, fun hn => ⟨(h3 (List.nodup_cons.1 hn).2).1, List.nodup_cons.2 ⟨hnd (x := m) (fun n hn => ((h2 n).1 hn).1) hn, (h3 (List.nodup_cons.1 hn).2).2⟩⟩⟩
              · rw [h1, hcons]
                constructor
                · rintro ⟨a, b, c⟩; exact ⟨.inr a, b, c⟩
                · rintro ⟨rfl | a, b, c⟩
                  · rw [hb] at c; cases c
                  · exact ⟨a, b, c⟩
              · rw [List.mem_cons, h2, hcons]
                constructor
                · rintro (rfl | ⟨a, b, c⟩)
                  · exact ⟨.inl rfl, hp', hb⟩
                  · exact ⟨.inr a, b, c⟩
                · rintro ⟨rfl | a, b, c⟩
                  · exact .inl rfl
                  · exact .inr ⟨a, b, c⟩
      · rename_i hp
        have hp' : ¬ (patterns = [] ∨ ∃ p ∈ patterns, glob p m = true) := by simpa using hp
        obtain ⟨h1, h2, h3⟩ := listLoop_ok h
        refine ⟨fun n => ?_, fun n => ?_, fun hn => h3 (List.nodup_cons.1 hn).2⟩
        · rw [h1, List.mem_cons]
          constructor
          · rintro ⟨a, b, c⟩; exact ⟨.inr a, b, c⟩
          · rintro ⟨a | a, b, c⟩
            · rw [hf] at a; have := List.append_cancel_right a; subst this; exact absurd b hp'
            · exact ⟨a, b, c⟩
        · rw [h2, List.mem_cons]
          constructor
          · rintro ⟨a, b, c⟩; exact ⟨.inr a, b, c⟩
          · rintro ⟨a | a, b, c⟩
            · rw [hf] at a; have := List.append_cancel_right a; subst this; exact absurd b hp'
            · exact ⟨a, b, c⟩

/-- A sandbox a user can refer to: one with a lock file in the storage directory, matched by the patterns. -/
def Spec.Matching (fs : FS) (glob : Str → Str → Bool) (storage : Path) (patterns : List Str) (n : Name) : Prop :=
  (∃ m, fs.get (storage ++ [n ++ str ".lock"]) = some m) ∧ (patterns = [] ∨ ∃ p ∈ patterns, glob p n = true)

/-- The pid file holds the number of something that can be signalled: a process, or for numbers ≤ 0 (which `kill(2)` takes for groups) whatever the group of callers finds. -/
def Spec.Alive (s : Sys) (storage : Path) (n : Name) : Prop :=
  ∃ t i, readText s.fs (storage ++ [n ++ str ".pid"]) = some t ∧ Spec.Numeral t i ∧
    ((0 < i ∧ ∃ p ∈ s.procs, (p.pid : Int) = i) ∨ (i ≤ 0 ∧ s.group i = true))

theorem signalable_iff (s : Sys) (i : Int) : s.signalable i = true ↔ (0 < i ∧ ∃ p ∈ s.procs, (p.pid : Int) = i) ∨ (i ≤ 0 ∧ s.group i = true) := by
  unfold Sys.signalable
  split
  · rename_i h
    simp [h, Int.not_le.2 h]
  · rename_i h
    simp [h, Int.not_lt.1 h]

theorem listRunning_true {s : Sys} {storage : Path} {n : Name} {b : Bool} (h : listRunning s storage n = .ok b) : b = true ↔ Spec.Alive s storage n := by
  unfold listRunning at h
  have hpid : pidFile storage n = storage ++ [n ++ str ".pid"] := rfl
  simp only [Spec.Alive, ← parseI32_iff, ← signalable_iff]
  split at h
  · split at h
    · cases h
    · rename_i t ht
      rw [hpid] at ht
      split at h
      · rename_i i hi
        cases h
        constructor
        · intro hb; exact ⟨t, i, ht, hi, hb⟩
        · rintro ⟨t', i', ht', hi', hs⟩
          rw [ht] at ht'; cases ht'; rw [hi] at hi'; cases hi'; exact hs
      · rename_i hi
        cases h
        constructor
        · intro hb; cases hb
        · rintro ⟨t', i', ht', hi', hs⟩
          rw [ht] at ht'; cases ht'; rw [hi] at hi'; cases hi'
  · rename_i hp
    cases h
    constructor
    · intro hb; cases hb
    · rintro ⟨t', i', ht', _⟩
      rw [← hpid] at ht'
      unfold readText at ht'
      unfold FS.pexists at hp
      cases hs : s.fs.stat (pidFile storage n) with
      | error e => rw [hs] at ht'; cases ht'
      | ok m => rw [hs] at hp; simp at hp

theorem sortNames_sorted (l : List Name) : (sortNames l).Pairwise (· ≤ ·) := by
  have := pairwise_stableSort (le := fun a b : Name => decide (a ≤ b)) (fun a b => by simp [le_total]) (fun a b c h1 h2 => by simp at *; exact le_trans h1 h2) l
  exact this.imp (by intro a b h; simpa using h)

theorem listLoop_total {s : Sys} {glob : Str → Str → Bool} {storage : Path} {patterns : List Str} {n : Name} : ∀ {files : List Name} {r : List Name × List Name},
    listLoop s glob storage patterns files = .ok r → n ++ str ".lock" ∈ files → (patterns = [] ∨ ∃ p ∈ patterns, glob p n = true) →
    ∃ b, listRunning s storage n = .ok b
  | [], _, _, hm, _ => by cases hm
  | f :: rest, r, h, hm, hp => by
    unfold listLoop at h
    cases ho : lockOwner f with
    | none =>
      rw [ho] at h
      rcases List.mem_cons.1 hm with he | he
      · rw [lockOwner_iff.2 he.symm] at ho; cases ho
      · exact listLoop_total h he hp
    | some m =>
      rw [ho] at h
      dsimp only at h
      have hf := lockOwner_iff.1 ho
      rcases List.mem_cons.1 hm with he | he
      · rw [hf] at he; have := List.append_cancel_right he; subst this
        rw [if_pos (by simpa using hp)] at h
        cases hr : listRunning s storage n with
        | error e => rw [hr] at h; cases h
        | ok b => exact ⟨b, rfl⟩
      · split at h
        · split at h
          · cases h
          · split at h
            · cases h
            · rename_i hrest; exact listLoop_total hrest he hp
        · exact listLoop_total h he hp

/-- **C55**: the names listed are exactly the matching sandboxes, each once; running ones are those whose process exists, the others are stopped; both lists are in
strictly increasing order. -/
theorem C55_list (s : Sys) (glob : Str → Str → Bool) (storage : Path) (patterns : List Str) (run stop : List Name) (hw : s.fs.WF)
    (h : getSandboxes s glob storage patterns = .ok (run, stop)) :
    (∀ n, n ∈ run ↔ Spec.Matching s.fs glob storage patterns n ∧ Spec.Alive s storage n) ∧
    (∀ n, n ∈ stop ↔ Spec.Matching s.fs glob storage patterns n ∧ ¬ Spec.Alive s storage n) ∧
    (run ++ stop).Nodup ∧ run.Pairwise (· < ·) ∧ stop.Pairwise (· < ·) := by
  unfold getSandboxes at h
  split at h
  · cases h
  · split at h
    · cases h
    · rename_i run' stop' hl
      cases h
      obtain ⟨h1, h2, h3⟩ := listLoop_ok hl
      obtain ⟨n1, n2⟩ := h3 (dirNames_nodup hw storage)
      have m1 : ∀ n, n ∈ sortNames run' ↔ n ∈ run' := fun n => mem_stableSort
      have m2 : ∀ n, n ∈ sortNames stop' ↔ n ∈ stop' := fun n => mem_stableSort
      have d1 : (sortNames run').Nodup := (perm_stableSort _ _).nodup_iff.2 n1
      have d2 : (sortNames stop').Nodup := (perm_stableSort _ _).nodup_iff.2 n2
      have lt : ∀ l : List Name, (sortNames l).Nodup → (sortNames l).Pairwise (· < ·) := fun l hd =>
        (sortNames_sorted l).imp₂ (fun a b hle hne => lt_of_le_of_ne hle hne) hd
      have a1 : ∀ n, n ∈ sortNames run' ↔ Spec.Matching s.fs glob storage patterns n ∧ listRunning s storage n = .ok true := by
        intro n; rw [m1, h1, mem_dirNames, ← and_assoc]; exact Iff.rfl
      have a2 : ∀ n, n ∈ sortNames stop' ↔ Spec.Matching s.fs glob storage patterns n ∧ listRunning s storage n = .ok false := by
        intro n; rw [m2, h2, mem_dirNames, ← and_assoc]; exact Iff.rfl
      have tot : ∀ n, Spec.Matching s.fs glob storage patterns n → ∃ b, listRunning s storage n = .ok b := by
        intro n ⟨hm, hp⟩
        exact listLoop_total hl (mem_dirNames.2 hm) hp
      refine ⟨fun n => ?_, fun n => ?_, ?_, lt _ d1, lt _ d2⟩
      · rw [a1]
        constructor
        · rintro ⟨a, b⟩; exact ⟨a, (listRunning_true b).1 rfl⟩
        · rintro ⟨a, b⟩
          obtain ⟨c, hc⟩ := tot n a
          have := (listRunning_true hc).2 b
          rw [this] at hc; exact ⟨a, hc⟩
      · rw [a2]
        constructor
        · rintro ⟨a, b⟩; exact ⟨a, fun hA => by have := (listRunning_true b).2 hA; cases this⟩
        · rintro ⟨a, b⟩
          obtain ⟨c, hc⟩ := tot n a
          cases c with
          | true => exact absurd ((listRunning_true hc).1 rfl) b
          | false => exact ⟨a, hc⟩
      · rw [List.nodup_append]
        refine ⟨d1, d2, ?_⟩
        rintro n hn m hm rfl
        have b1 := ((a1 n).1 hn).2
        rw [((a2 n).1 hm).2] at b1; cases b1

/-- **C55**: it succeeds if the storage directory exists and every pid file of a matching sandbox can be read. -/
theorem C55_succeeds (s : Sys) (glob : Str → Str → Bool) (storage : Path) (patterns : List Str) (hd : s.fs.isDirAt storage = true)
    (hr : ∀ n, Spec.Matching s.fs glob storage patterns n → s.fs.pexists (storage ++ [n ++ str ".pid"]) = true →
      ∃ t, readText s.fs (storage ++ [n ++ str ".pid"]) = some t) : ∃ run stop, getSandboxes s glob storage patterns = .ok (run, stop) := by
  have key : ∀ files : List Name, (∀ f ∈ files, f ∈ dirNames s.fs storage) → ∃ r, listLoop s glob storage patterns files = .ok r := by
    intro files
    induction files with
    | nil => intro _; exact ⟨_, rfl⟩
    | cons f rest ih =>
      intro hf
      obtain ⟨⟨ru, st⟩, hih⟩ := ih (fun x hx => hf x (List.mem_cons_of_mem _ hx))
      unfold listLoop
      cases ho : lockOwner f with
      | none => exact ⟨_, hih⟩
      | some m =>
        dsimp only
        split
        · rename_i hp
          have hm : Spec.Matching s.fs glob storage patterns m :=
            ⟨mem_dirNames.1 (lockOwner_iff.1 ho ▸ hf f List.mem_cons_self), by simpa using hp⟩
          have : ∃ b, listRunning s storage m = .ok b := by
            unfold listRunning
            split
            · rename_i hpe
              obtain ⟨t, ht⟩ := hr m hm hpe
              have ht' : readText s.fs (pidFile storage m) = some t := ht
              rw [ht']
              dsimp only
              cases parseI32 t with
              | none => exact ⟨_, rfl⟩
              | some i => exact ⟨_, rfl⟩
            · exact ⟨_, rfl⟩
          obtain ⟨b, hb⟩ := this
          rw [hb, hih]
          exact ⟨_, rfl⟩
        · exact ⟨_, hih⟩
  obtain ⟨⟨ru, st⟩, h⟩ := key _ (fun _ h => h)
  unfold getSandboxes
  rw [hd, h]
  exact ⟨_, _, rfl⟩

/-- Non-vacuity: `a` has a stale pid file, `b` is running, `x` never ran; a directory without lock file and other files are not listed. -/
example : exSys.fs.WF ∧ getSandboxes exSys globRef exSb [] = .ok ([str "b"], [str "a", str "x"]) ∧
    getSandboxes exSys globRef exSb [str "?", str "q*"] = .ok ([str "b"], [str "a", str "x"]) ∧ getSandboxes exSys globRef exSb [str "a*"] = .ok ([], [str "a"]) := by decide +kernel

end SB
