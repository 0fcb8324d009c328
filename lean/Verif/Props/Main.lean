import Verif.Props.Cli
import Verif.Props.StopAll
import Verif.Props.List
import Verif.Model.Main

/-! # C112: an invocation does what its words say, to the sandbox they name -/

namespace SB
open SB.Cli

/-- A command line with an action as its author sees it: options, the action, and options and patterns in any order. -/
structure Spec.ActionLine (words : List Str) (act : Action) (before after : List Spec.Item) (patterns : List Str) : Prop where
  written : ∃ pre post, Spec.Options before pre ∧ Spec.Mixed act after patterns post ∧ words = pre ++ Spec.actionName act :: post
  sensible : Spec.Sensible before ∧ Spec.Sensible after
  noConflict : Spec.NoConflict before ∧ Spec.NoConflict after
  all : .flag .all ∈ after → patterns = []
  sync : act = .sync → patterns = []

/-- The same for a command to be run in the sandbox; without one (`[]`) the shell is run. -/
structure Spec.CommandLine (words : List Str) (before : List Spec.Item) (command : List Str) : Prop where
  written : ∃ pre, Spec.Options before pre ∧
    ((words = pre ++ command ∧ ∀ w ∈ command.head?, Spec.BeginsCommand w) ∨ (words = pre ++ str "--" :: command ∧ ∀ w ∈ command.head?, w.head? ≠ some '-' ∨ w = str "--"))
  sensible : Spec.Sensible before
  noConflict : Spec.NoConflict before

/-- The settings in force for options on both sides of an action: what the options mean (the later ones count), completed by environment and files (C34, C35, C43, C59). -/
def Spec.InForce (w : World) (before after : List Spec.Item) (c : Config) : Prop :=
  ∃ a1 j1 a2 j2 a, Spec.Means before a1 j1 ∧ Spec.Means after a2 j2 ∧ Spec.Later a1 a2 a ∧ resolveConfig w a = .ok c

/-- Nothing in the way of the action: the caller is known, has root's rights, and no tab completion is asked for. -/
structure Spec.Ready (m : Caller) : Prop where
  identity : m.identity = true
  root : m.root = true
  noCompletion : m.complete = false

theorem actionTask_not_run (c : Config) (act : Action) (ps : Option (List Str)) (all yes : Bool) (c' : Config) (w : List Str) : actionTask c act ps all yes ≠ .run c' w := by
  cases act <;> simp only [actionTask, ne_eq, reduceCtorEq, not_false_eq_true]
  split <;> (try split) <;> simp

theorem actionTask_not_completion (c : Config) (act : Action) (ps : Option (List Str)) (all yes : Bool) : actionTask c act ps all yes ≠ .completion := by
  cases act <;> simp only [actionTask, ne_eq, reduceCtorEq, not_false_eq_true]
  split <;> (try split) <;> simp

/-- The dispatch, in the terms of C110. -/
theorem mainTask_action (m : Caller) (words : List Str) (t : Task) :
    (∃ c act ps all yes, mainTask m words = .ok (some t) ∧ t = actionTask c act ps all yes ∧ ∃ a j, parseArgs words = .run a j (.action act ps all yes) ∧ resolveConfig m.world a = .ok c) ↔
    Spec.Ready m ∧ ∃ act before after patterns c, Spec.ActionLine words act before after patterns ∧ Spec.InForce m.world before after c ∧
      t = actionTask c act (if patterns = [] then none else some patterns) (decide (.flag .all ∈ after)) (decide (.flag .yes ∈ after)) := by
  constructor
  · rintro ⟨c, act, ps, all, yes, h, ht, a, j, hp, hc⟩
    unfold mainTask at h
    rw [hp] at h
    dsimp only at h
    rw [hc] at h
    dsimp only at h
    have hr : Spec.Ready m := by
      rcases hi : m.identity with _ | _ <;> rcases hco : m.complete with _ | _ <;> rcases hro : m.root with _ | _ <;> rw [hi, hco, hro] at h <;>
        simp at h <;> first | exact ⟨hi, hro, hco⟩ | (subst h; exact absurd ht.symm (actionTask_not_completion _ _ _ _ _))
    obtain ⟨i1, i2, pre, post, qs, a1, a2, j1, j2, h1, h2, h3, h4, h5, h6, h7, h8, h9, h10, _, h12, h13, h14, h15, h16⟩ := (C110_action _ _ _ _ _ _ _).mp hp
    refine ⟨hr, act, i1, i2, qs, c, ⟨⟨pre, post, h1, h2, h3⟩, ⟨h4, h5⟩, ⟨h6, h7⟩, fun hh => h15 (h13.mpr hh), h16⟩, ⟨a1, j1, a2, j2, a, h8, h9, h10, hc⟩, ?_⟩
    rw [ht, h12]
    have e1 : all = decide (.flag .all ∈ i2) := by rw [Bool.eq_iff_iff]; simpa using h13
    have e2 : yes = decide (.flag .yes ∈ i2) := by rw [Bool.eq_iff_iff]; simpa using h14
    rw [e1, e2]
  · rintro ⟨hr, act, i1, i2, qs, c, ⟨⟨pre, post, h1, h2, h3⟩, ⟨h4, h5⟩, ⟨h6, h7⟩, h8, h9⟩, ⟨a1, j1, a2, j2, a, m1, m2, hl, hc⟩, rfl⟩
    have hp : parseArgs words = .run a (j1 || j2) (.action act (if qs = [] then none else some qs) (decide (.flag .all ∈ i2)) (decide (.flag .yes ∈ i2))) :=
      (C110_action _ _ _ _ _ _ _).mpr ⟨i1, i2, pre, post, qs, a1, a2, j1, j2, h1, h2, h3, h4, h5, h6, h7, m1, m2, hl, rfl, rfl, by simp, by simp, by simpa using h8, h9⟩
    refine ⟨c, act, _, _, _, ?_, rfl, a, _, hp, hc⟩
    unfold mainTask
    rw [hp]
    dsimp only
    rw [hc]
    simp [hr.identity, hr.root, hr.noCompletion]

/-- Every task but a command and tab completion comes from an action. -/
theorem mainTask_from {m : Caller} {words : List Str} {t : Task} (h : mainTask m words = .ok (some t)) (hr : ∀ c w, t ≠ .run c w) (hc : t ≠ .completion) :
    ∃ c act ps all yes, mainTask m words = .ok (some t) ∧ t = actionTask c act ps all yes ∧ ∃ a j, parseArgs words = .run a j (.action act ps all yes) ∧ resolveConfig m.world a = .ok c := by
  have h' := h
  unfold mainTask at h'
  split at h'
  · cases h'
  · cases h'
  · cases h'
  · rename_i a j what hp
    split at h'
    · cases h'
    · rename_i c hcfg
      split at h'
      · cases h'
      · split at h'
        · cases h'; exact absurd rfl hc
        · split at h'
          · cases h'
          · split at h'
            · rename_i act ps all yes
              cases h'
              exact ⟨c, act, ps, all, yes, h, rfl, a, j, hp, hcfg⟩
            · cases h'; exact absurd rfl (hr _ _)

theorem task_iff {m : Caller} {words : List Str} {t : Task} (hr : ∀ c w, t ≠ .run c w) (hc : t ≠ .completion) : mainTask m words = .ok (some t) ↔
    Spec.Ready m ∧ ∃ act before after patterns c, Spec.ActionLine words act before after patterns ∧ Spec.InForce m.world before after c ∧
      t = actionTask c act (if patterns = [] then none else some patterns) (decide (.flag .all ∈ after)) (decide (.flag .yes ∈ after)) := by
  rw [← mainTask_action]
  exact ⟨fun h => mainTask_from h hr hc, fun ⟨_, _, _, _, _, h, _⟩ => h⟩

theorem getD_patterns (ps : List Str) : (if ps = [] then none else some ps : Option (List Str)).getD [] = ps := by
  by_cases h : ps = []
  · simp [h]
  · simp [h]

/-- **C112, the changes of a sandbox**: `status`, `diff`, `reject` and `accept` are carried out exactly if the words say so, with the patterns written, on the sandbox with the
name and in the directory that the settings in force name, hiding ignored files unless these settings say otherwise. -/
theorem C112_changes (m : Caller) (words : List Str) (act : Action) (storage : Path) (name : Name) (ignored : Bool) (patterns : List Str) :
    mainTask m words = .ok (some (.changes act storage name ignored patterns)) ↔
    Spec.Ready m ∧ (act = .status ∨ act = .diff ∨ act = .reject ∨ act = .accept) ∧
      ∃ before after c, Spec.ActionLine words act before after patterns ∧ Spec.InForce m.world before after c ∧ c.storageDir = storage ∧ c.name = name ∧ c.ignored = ignored := by
  rw [task_iff (by intros; simp) (by simp)]
  constructor
  · rintro ⟨hr, a, i1, i2, qs, c, hl, hf, ht⟩
    cases a <;> simp only [actionTask, getD_patterns, Task.changes.injEq, reduceCtorEq] at ht
    case stop => revert ht; split <;> (try split) <;> simp
    all_goals
      obtain ⟨rfl, rfl, rfl, rfl, rfl⟩ := ht
      exact ⟨hr, by simp, i1, i2, c, hl, hf, rfl, rfl, rfl⟩
  · rintro ⟨hr, ha, i1, i2, c, hl, hf, rfl, rfl, rfl⟩
    refine ⟨hr, act, i1, i2, patterns, c, hl, hf, ?_⟩
    rcases ha with rfl | rfl | rfl | rfl <;> simp [actionTask, getD_patterns]

/-- **C112, deleting**: sandboxes are deleted exactly if the words say so; the question is left out exactly if `--yes` (or `-y`) is among the options after the action. -/
theorem C112_delete (m : Caller) (words : List Str) (storage : Path) (name : Name) (patterns : List Str) (yes : Bool) :
    mainTask m words = .ok (some (.delete storage name patterns yes)) ↔
    Spec.Ready m ∧ ∃ before after c, Spec.ActionLine words .delete before after patterns ∧ Spec.InForce m.world before after c ∧ c.storageDir = storage ∧ c.name = name ∧
      (yes = true ↔ .flag .yes ∈ after) := by
  rw [task_iff (by intros; simp) (by simp)]
  constructor
  · rintro ⟨hr, a, i1, i2, qs, c, hl, hf, ht⟩
    cases a <;> simp only [actionTask, getD_patterns, Task.delete.injEq, reduceCtorEq] at ht
    case stop => revert ht; split <;> (try split) <;> simp
    all_goals
      obtain ⟨rfl, rfl, rfl, rfl⟩ := ht
      exact ⟨hr, i1, i2, c, hl, hf, rfl, rfl, by simp⟩
  · rintro ⟨hr, i1, i2, c, hl, hf, rfl, rfl, hy⟩
    refine ⟨hr, .delete, i1, i2, patterns, c, hl, hf, ?_⟩
    have e : yes = decide (.flag .yes ∈ i2) := by rw [Bool.eq_iff_iff]; simpa using hy
    simp [actionTask, getD_patterns, e]

/-- **C112, stopping**: `stop` without patterns and without `--all` is about the sandbox the settings name. -/
theorem C112_stop_one (m : Caller) (words : List Str) (storage : Path) (name : Name) :
    mainTask m words = .ok (some (.stopOne storage name)) ↔
    Spec.Ready m ∧ ∃ before after c, Spec.ActionLine words .stop before after [] ∧ .flag .all ∉ after ∧ Spec.InForce m.world before after c ∧ c.storageDir = storage ∧ c.name = name := by
  rw [task_iff (by intros; simp) (by simp)]
  constructor
  · rintro ⟨hr, a, i1, i2, qs, c, hl, hf, ht⟩
    cases a <;> simp only [actionTask, reduceCtorEq] at ht
    by_cases hall : Spec.Item.flag .all ∈ i2
    · simp [hall] at ht
    · by_cases hq : qs = []
      · subst hq
        simp only [hall, decide_false, Bool.false_eq_true, if_false, if_true, Task.stopOne.injEq] at ht
        exact ⟨hr, i1, i2, c, hl, hall, hf, ht.1.symm, ht.2.symm⟩
      · simp [hall, hq] at ht
  · rintro ⟨hr, i1, i2, c, hl, hall, hf, rfl, rfl⟩
    exact ⟨hr, .stop, i1, i2, [], c, hl, hf, by simp [actionTask, hall]⟩

/-- **C112, stopping many**: with `--all` or patterns `stop` is about all sandboxes of the storage directory (`*`), or about those that match. -/
theorem C112_stop_many (m : Caller) (words : List Str) (storage : Path) (patterns : List Str) :
    mainTask m words = .ok (some (.stopMany storage patterns)) ↔
    Spec.Ready m ∧ ∃ before after c, Spec.InForce m.world before after c ∧ c.storageDir = storage ∧
      ((Spec.ActionLine words .stop before after [] ∧ .flag .all ∈ after ∧ patterns = [str "*"]) ∨ (Spec.ActionLine words .stop before after patterns ∧ .flag .all ∉ after ∧ patterns ≠ [])) := by
  rw [task_iff (by intros; simp) (by simp)]
  constructor
  · rintro ⟨hr, a, i1, i2, qs, c, hl, hf, ht⟩
    cases a <;> simp only [actionTask, reduceCtorEq] at ht
    by_cases hall : Spec.Item.flag .all ∈ i2
    · have := hl.all hall
      subst this
      simp only [hall, decide_true, if_true, Task.stopMany.injEq] at ht
      exact ⟨hr, i1, i2, c, hf, ht.1.symm, .inl ⟨hl, hall, ht.2⟩⟩
    · by_cases hq : qs = []
      · simp [hall, hq] at ht
      · simp only [hall, hq, decide_false, Bool.false_eq_true, if_false, Task.stopMany.injEq] at ht
        obtain ⟨rfl, rfl⟩ := ht
        exact ⟨hr, i1, i2, c, hf, rfl, .inr ⟨hl, hall, hq⟩⟩
  · rintro ⟨hr, i1, i2, c, hf, rfl, ⟨hl, hall, rfl⟩ | ⟨hl, hall, hq⟩⟩
    · exact ⟨hr, .stop, i1, i2, [], c, hl, hf, by simp [actionTask, hall]⟩
    · exact ⟨hr, .stop, i1, i2, patterns, c, hl, hf, by simp [actionTask, hall, hq]⟩

/-- **C112, listing**. -/
theorem C112_listing (m : Caller) (words : List Str) (storage : Path) (patterns : List Str) :
    mainTask m words = .ok (some (.list storage patterns)) ↔
    Spec.Ready m ∧ ∃ before after c, Spec.ActionLine words .list before after patterns ∧ Spec.InForce m.world before after c ∧ c.storageDir = storage := by
  rw [task_iff (by intros; simp) (by simp)]
  constructor
  · rintro ⟨hr, a, i1, i2, qs, c, hl, hf, ht⟩
    cases a <;> simp only [actionTask, getD_patterns, Task.list.injEq, reduceCtorEq] at ht
    case stop => revert ht; split <;> (try split) <;> simp
    all_goals
      obtain ⟨rfl, rfl⟩ := ht
      exact ⟨hr, i1, i2, c, hl, hf, rfl⟩
  · rintro ⟨hr, i1, i2, c, hl, hf, rfl⟩
    exact ⟨hr, .list, i1, i2, patterns, c, hl, hf, by simp [actionTask, getD_patterns]⟩

/-- **C112, settings and caches**: `config` shows the settings in force, for the keys written (all without keys); `sync` has nothing to choose. -/
theorem C112_others (m : Caller) (words : List Str) :
    (∀ c keys, mainTask m words = .ok (some (.config c keys)) ↔ Spec.Ready m ∧ ∃ before after ks, Spec.ActionLine words .config before after ks ∧ Spec.InForce m.world before after c ∧
      keys = if ks = [] then none else some ks) ∧
    (mainTask m words = .ok (some .sync) ↔ Spec.Ready m ∧ ∃ before after c, Spec.ActionLine words .sync before after [] ∧ Spec.InForce m.world before after c) := by
  constructor
  · intro c keys
    rw [task_iff (by intros; simp) (by simp)]
    constructor
    · rintro ⟨hr, a, i1, i2, qs, c, hl, hf, ht⟩
      cases a <;> simp only [actionTask, Task.config.injEq, reduceCtorEq] at ht
      case stop => revert ht; split <;> (try split) <;> simp
      all_goals
        obtain ⟨rfl, rfl⟩ := ht
        exact ⟨hr, i1, i2, qs, hl, hf, rfl⟩
    · rintro ⟨hr, i1, i2, ks, hl, hf, rfl⟩
      exact ⟨hr, .config, i1, i2, ks, c, hl, hf, by simp [actionTask]⟩
  · rw [task_iff (by intros; simp) (by simp)]
    constructor
    · rintro ⟨hr, a, i1, i2, qs, c, hl, hf, ht⟩
      cases a <;> simp only [actionTask, reduceCtorEq] at ht
      case stop => revert ht; split <;> (try split) <;> simp
      all_goals
        have := hl.sync rfl
        subst this
        exact ⟨hr, i1, i2, c, hl, hf⟩
    · rintro ⟨hr, i1, i2, c, hl, hf⟩
      exact ⟨hr, .sync, i1, i2, [], c, hl, hf, by simp [actionTask]⟩

/-- **C112, commands**: a command is run in a sandbox exactly if the words are options and a command that is no action; the words of the command are handed on as they are; without
one it is the program that `SHELL` names, or `sh`. -/
theorem C112_run (m : Caller) (words : List Str) (c : Config) (command : List Str) :
    mainTask m words = .ok (some (.run c command)) ↔
    Spec.Ready m ∧ ∃ before given a j, Spec.CommandLine words before given ∧ Spec.Means before a j ∧ resolveConfig m.world a = .ok c ∧
      ((given ≠ [] ∧ command = given) ∨ (given = [] ∧ ((∃ s, getVar (str "SHELL") m.env = some (.text s) ∧ command = [s]) ∨
        ((∀ s, getVar (str "SHELL") m.env ≠ some (.text s)) ∧ command = [str "sh"])))) := by
  have key : ∀ ws : List Str, commandOf m.env (if ws = [] then none else some ws) = command ↔ ((ws ≠ [] ∧ command = ws) ∨ (ws = [] ∧
      ((∃ s, getVar (str "SHELL") m.env = some (.text s) ∧ command = [s]) ∨ ((∀ s, getVar (str "SHELL") m.env ≠ some (.text s)) ∧ command = [str "sh"])))) := by
    intro ws
    by_cases h : ws = []
    · simp only [h, if_true, ne_eq, not_true_eq_false, false_and, true_and, false_or, commandOf]
      split
      · rename_i s hs; simp [hs, eq_comm]
      · rename_i hs
        constructor
        · rintro rfl; exact .inr ⟨fun s hh => hs s hh, rfl⟩
        · rintro (⟨s, hh, _⟩ | ⟨_, rfl⟩)
          · exact absurd hh (hs s)
          · rfl
    · simp [h, commandOf, eq_comm]
  constructor
  · intro h
    unfold mainTask at h
    split at h
    · cases h
    · cases h
    · cases h
    · rename_i a j what hp
      split at h
      · cases h
      · rename_i c' hcfg
        split at h
        · cases h
        · rename_i hi
          split at h
          · cases h
          · rename_i hco
            split at h
            · cases h
            · rename_i hro
              split at h
              · simp only [Except.ok.injEq, Option.some.injEq] at h; exact absurd h (actionTask_not_run _ _ _ _ _ _ _)
              · cases h
                obtain ⟨items, pre, ws, h1, h2, h3, h4, h5, h6⟩ := (C110_command _ _ _ _).mp hp
                refine ⟨⟨by simpa using hi, by simpa using hro, by simpa using hco⟩, items, ws, a, j, ⟨⟨pre, h1, h6⟩, h2, h3⟩, h4, hcfg, ?_⟩
                exact (key ws).mp (by rw [h5])
  · rintro ⟨hr, items, ws, a, j, ⟨⟨pre, h1, h6⟩, h2, h3⟩, h4, hcfg, hk⟩
    have hp : parseArgs words = .run a j (.command (if ws = [] then none else some ws)) := (C110_command _ _ _ _).mpr ⟨items, pre, ws, h1, h2, h3, h4, rfl, h6⟩
    unfold mainTask
    rw [hp]
    dsimp only
    rw [hcfg]
    simp [hr.identity, hr.root, hr.noCompletion, (key ws).mpr hk]

/-- **C112, the name given**: with `--name=v` (after the action, or before it and not again after it) and neither `--new` nor `--last` the name in force is `v`. -/
theorem C112_named (w : World) (before after : List Spec.Item) (c : Config) (v : Str) (h : Spec.InForce w before after c)
    (hv : .value .name v ∈ after ∨ .value .name v ∈ before ∧ ∀ x, .value .name x ∉ after) (hn : .flag .new ∉ before ∧ .flag .new ∉ after) (hl : .flag .last ∉ before ∧ .flag .last ∉ after) :
    c.name = v := by
  obtain ⟨a1, j1, a2, j2, a, m1, m2, hm, hc⟩ := h
  have e1 : a.name = some v := by
    rw [hm.name]
    rcases hv with hv | ⟨hv, hno⟩
    · rw [(m2.name v).mpr hv]; rfl
    · rw [(m1.name v).mpr hv]
      cases h2 : a2.name with
      | none => rfl
      | some x => exact absurd ((m2.name x).mp h2) (hno x)
  have no : ∀ {b : Bool} {p : Prop}, (b = true ↔ p) → ¬ p → b = false := by
    intro b p hb hp; cases b
    · rfl
    · exact absurd (hb.mp rfl) hp
  have e2 : a.new = false := by rw [hm.new, no m1.new hn.1, no m2.new hn.2]; rfl
  have e3 : a.last = false := by rw [hm.last, no m1.last hl.1, no m2.last hl.2]; rfl
  have := C34_name w a c hc e2 e3
  rw [e1] at this
  exact this.1

/-- **C112, nothing without its word**: whatever the other words are, changes are accepted or rejected, sandboxes stopped or deleted only if the word for it is there, and only options
stand before it. -/
theorem C112_word (m : Caller) (words : List Str) (t : Task) (h : mainTask m words = .ok (some t)) (act : Action)
    (ht : (∃ s n i p, t = .changes act s n i p) ∨ (act = .delete ∧ ∃ s n p y, t = .delete s n p y) ∨ (act = .stop ∧ ((∃ s n, t = .stopOne s n) ∨ ∃ s p, t = .stopMany s p))) :
    ∃ items pre post, Spec.Options items pre ∧ words = pre ++ Spec.actionName act :: post := by
  rcases ht with ⟨s, n, i, p, rfl⟩ | ⟨rfl, s, n, p, y, rfl⟩ | ⟨rfl, ⟨s, n, rfl⟩ | ⟨s, p, rfl⟩⟩
  · obtain ⟨_, _, i1, _, _, ⟨⟨pre, post, h1, _, h3⟩, _, _, _, _⟩, _⟩ := (C112_changes ..).mp h
    exact ⟨i1, pre, post, h1, h3⟩
  · obtain ⟨_, i1, _, _, ⟨⟨pre, post, h1, _, h3⟩, _, _, _, _⟩, _⟩ := (C112_delete ..).mp h
    exact ⟨i1, pre, post, h1, h3⟩
  · obtain ⟨_, i1, _, _, ⟨⟨pre, post, h1, _, h3⟩, _, _, _, _⟩, _⟩ := (C112_stop_one ..).mp h
    exact ⟨i1, pre, post, h1, h3⟩
  · obtain ⟨_, i1, _, _, _, _, ⟨⟨⟨pre, post, h1, _, h3⟩, _, _, _, _⟩, _⟩ | ⟨⟨⟨pre, post, h1, _, h3⟩, _, _, _, _⟩, _⟩⟩ := (C112_stop_many ..).mp h
    · exact ⟨i1, pre, post, h1, h3⟩
    · exact ⟨i1, pre, post, h1, h3⟩

/-- **C112, `stop --all`**: no process of any running sandbox of the storage directory is left, if three stars match every name (they do: `stars_match`) and nothing fails. -/
theorem C112_stop_all (m : Caller) (words : List Str) (before after : List Spec.Item) (c : Config) (glob : Str → Str → Bool) (s : Sys)
    (hr : Spec.Ready m) (hl : Spec.ActionLine words .stop before after []) (ha : .flag .all ∈ after) (hf : Spec.InForce m.world before after c)
    (hg : ∀ n, '/' ∉ n → glob (str "***") n = true) (hw : s.fs.WF) (hs : s.fs.isDirAt c.storageDir = true)
    (hpid : ∀ n k, s.fs.get (c.storageDir ++ [n ++ str ".pid"]) = some k → k.isLnk = false ∧ k.isDir = false) :
    ∃ t, mainTask m words = .ok (some t) ∧ stopReports noFault t s = true ∧
      ∀ n p, Spec.Runs s c.storageDir n p → ∀ q ∈ (stopTask noFault glob t s).procs, q.ns ≠ p.ns := by
  refine ⟨.stopMany c.storageDir [str "*"], (C112_stop_many ..).mpr ⟨hr, before, after, c, hf, rfl, .inl ⟨hl, ha, rfl⟩⟩, hs, fun n p hrun => ?_⟩
  obtain ⟨k, hk, _⟩ := hrun.lock
  exact C61_complete glob c.storageDir [str "*"] s hw hs hpid n p hrun ⟨⟨k, hk⟩, .inr ⟨_, List.mem_cons_self, hg n hrun.plain.2.1⟩⟩

theorem wild_star (p s : Str) : wild ('*' :: p) s = s.tails.any (wild p) := by
  rw [wild.eq_def]; rfl

theorem wild_stars (s : Str) : wild (str "***") s = true := by
  have h0 : ∀ s : Str, wild ['*'] s = true := by
    intro s; rw [wild_star, List.any_eq_true]; exact ⟨[], by simp, by rw [wild]; rfl⟩
  have step : ∀ p, (∀ s : Str, wild p s = true) → ∀ s : Str, wild ('*' :: p) s = true := by
    intro p hp s; rw [wild_star, List.any_eq_true]; exact ⟨[], by simp, hp _⟩
  exact step _ (step _ h0) s

theorem splitSlash_no {n : Str} (h : '/' ∉ n) : splitSlash n = [n] := by
  induction n with
  | nil => rfl
  | cons c r ih =>
    have hc : c ≠ '/' := fun e => h (by simp [e])
    rw [splitSlash, if_neg hc, ih (fun hh => h (List.mem_cons_of_mem _ hh))]

theorem stars_match (n : Name) (h : '/' ∉ n) : globRef (str "***") n = true := by
  rw [globRef_literal_head (by decide), show splitSlash (str "***") = [str "***"] by decide, splitSlash_no h]
  rw [globComps, if_neg (by decide)]
  simp [wild_stars, globComps]

/-! ### Refutations -/

/-- **C112 refuted** with the variable `COMPLETE` in the environment, whatever its value: no action is carried out and no command is run. -/
theorem C112_refuted_complete (m : Caller) (words : List Str) (t : Task) (hc : m.complete = true) (h : mainTask m words = .ok (some t)) : t = .completion := by
  unfold mainTask at h
  split at h
  · cases h
  · cases h
  · cases h
  · split at h
    · cases h
    · split at h
      · cases h
      · cases h; rfl

def exMainCaller : Caller := ⟨exNewWorld, true, false, true, [(str "SHELL", .text (str "/bin/zsh"))]⟩

def exMainDir : Path := [str "home", str "u", str "data"]

/-- **C112 refuted**, `--name` with patterns: the name is not looked at, though it says which sandbox is meant. -/
theorem C112_refuted_name :
    mainTask exMainCaller [str "--no-config", str "--storage-dir=/home/u/data", str "--name=o", str "stop", str "p"] = .ok (some (.stopMany exMainDir [str "p"])) := by decide +kernel

/-- **C112 refuted**, stopping a sandbox that does not exist (a misspelt name, say): it is reported as done, and from then on a sandbox of that name is listed (an empty lock file was made). -/
theorem C112_refuted_typo :
    let s : Sys := ⟨exNewWorld.fs, [], fun _ => false⟩
    let t : Task := .stopOne exMainDir (str "typo")
    mainTask exMainCaller [str "--no-config", str "--storage-dir=/home/u/data", str "--name=typo", str "stop"] = .ok (some t) ∧
    sandboxExists s.fs exMainDir (str "typo") = false ∧ stopReports noFault t s = true ∧
    (getSandboxes s globRef exMainDir []).toOption = some ([], []) ∧ (getSandboxes (stopTask noFault globRef t s) globRef exMainDir []).toOption = some ([], [str "typo"]) := by decide +kernel

/-- **C112 refuted**, what success of `stop PATTERN` means: that a sandbox could not be stopped is only a warning; `stop` of this sandbox alone fails. -/
theorem C112_refuted_success :
    let fault : Fault := fun q => if q = exSb ++ [str "b.pid"] then some .EBUSY else none
    stopReports fault (.stopOne exSb (str "b")) exSys = false ∧ stopReports fault (.stopMany exSb [str "b"]) exSys = true ∧
    (stopTask fault globRef (.stopMany exSb [str "b"]) exSys).fs = (stopTask fault globRef (.stopOne exSb (str "b")) exSys).fs := by decide +kernel

/-! ### Non-vacuity -/

example : mainTask exMainCaller [str "--no-config", str "accept", str "--storage-dir", str "/home/u/data", str "--name=o", str "--ignored", str "src", str "--", str "-x"] =
    .ok (some (.changes .accept exMainDir (str "o") true [str "src", str "-x"])) := by decide +kernel
example : mainTask exMainCaller [str "--no-config", str "--storage-dir=/home/u/data", str "delete", str "--last", str "-y"] = .ok (some (.delete exMainDir (str "n1") [] true)) := by decide +kernel
example : mainTask exMainCaller [str "--no-config", str "--storage-dir=/home/u/data", str "stop", str "--all"] = .ok (some (.stopMany exMainDir [str "*"])) := by decide +kernel
example : mainTask exMainCaller [str "--no-config", str "--storage-dir=/home/u/data", str "list"] = .ok (some (.list exMainDir [])) := by decide +kernel
example : mainTask exMainCaller [str "sync"] = .ok (some .sync) ∧ mainTask { exMainCaller with root := false } [str "sync"] = .error .notRoot ∧
    mainTask { exMainCaller with identity := false } [str "sync"] = .error .identity ∧ mainTask exMainCaller [str "sync", str "x"] = .error .usage ∧ mainTask exMainCaller [str "help"] = .ok none := by decide +kernel
example : (match mainTask exMainCaller [] with | .ok (some (.run _ ws)) => ws | _ => []) = [str "/bin/zsh"] ∧
    (match mainTask { exMainCaller with env := [] } [str "--no-config", str "rm", str "-r", str "delete"] with | .ok (some (.run c ws)) => c.name :: ws | _ => []) =
      [str "sandbox", str "rm", str "-r", str "delete"] := by decide +kernel

/-- The hypotheses of `C112_stop_all` and `C112_named`. -/
theorem exAll_line : Spec.ActionLine [str "--name=o", str "stop", str "--all"] .stop [.value .name (str "o")] [.flag .all] [] where
  written := ⟨[str "--name=o"], [str "--all"], .more (.equals .name (str "o")) .nil, .option (.flag .all rfl) .nil, rfl⟩
  sensible := ⟨(applied [.value .name (str "o")] { args := { name := some (str "o") } } (by decide +kernel)).1, (applied [.flag .all] { all := true } (by decide +kernel)).1⟩
  noConflict := ⟨by constructor <;> decide, by constructor <;> decide⟩
  all := fun _ => rfl
  sync := fun _ => rfl

example : ∃ c, Spec.InForce exNewWorld [.value .name (str "o")] [.flag .all] c ∧ c.name = str "o" := by
  have hm1 := (applied [.value .name (str "o")] { args := { name := some (str "o") } } (by decide +kernel)).2.means
  have hm2 := (applied [.flag .all] { all := true } (by decide +kernel)).2.means
  cases hc : resolveConfig exNewWorld { name := some (str "o") } with
  | error e => exact absurd (show (resolveConfig exNewWorld { name := some (str "o") }).toOption.isSome = true by decide +kernel) (by rw [hc]; simp [Except.toOption])
  | ok c =>
    have hf : Spec.InForce exNewWorld [.value .name (str "o")] [.flag .all] c := ⟨_, _, _, _, { name := some (str "o") }, hm1, hm2, (later_merge _ _ _).mpr rfl, hc⟩
    exact ⟨c, hf, C112_named _ _ _ c _ hf (.inr ⟨by simp, by simp⟩) (by simp) (by simp)⟩

end SB
