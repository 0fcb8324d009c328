import Verif.Model.Caches
import Verif.Props.During
import Verif.Props.Undo

/-! # C111: what running sandboxes show after `sync`, `accept` and `reject` -/

namespace SB

/-- Specification: a look-up of `sub` in the mount `m` of a running sandbox may find this. -/
def Spec.MayShow (r : Running) (m : Name) (mp sub : Path) (what : Option Node) : Prop := ∃ s, r.Answers s ∧ Spec.view s m mp sub = what

theorem drop_answers {able : Bool} {r : Running} (h : (dropCaches able r).2 = true) (s : State) : (dropCaches able r).1.Answers s ↔ s = r.now := by
  cases able with
  | false => cases h
  | true => simp [dropCaches, Running.Answers]

/-- **C111, sync**: if it reports success, a running sandbox shows the files of the host and of the storage as they are now, whatever was changed and remembered before; it does not change any of them. -/
theorem C111_sync (able : Bool) (r : Running) (m : Name) (mp sub : Path) :
    (syncRunning able r).1.now = r.now ∧
    ((syncRunning able r).2 = true → ∀ what, Spec.MayShow (syncRunning able r).1 m mp sub what ↔ what = Spec.view r.now m mp sub) := by
  refine ⟨by cases able <;> rfl, fun h what => ?_⟩
  constructor
  · rintro ⟨s, hs, hv⟩
    rw [(drop_answers h s).mp hs] at hv; exact hv.symm
  · rintro rfl
    exact ⟨r.now, (drop_answers h _).mpr rfl, rfl⟩

theorem acceptRunning_true {env : Env} {able : Bool} {r : Running} (h : (acceptRunning env able r).2 = true) :
    (accept env r.now).error = none ∧ ∀ s, (acceptRunning env able r).1.Answers s ↔ s = (accept env r.now).state := by
  unfold acceptRunning at h ⊢
  dsimp only at h ⊢
  split at h
  · cases h
  · rename_i he
    have he' : (accept env r.now).error = none := by simpa using he
    refine ⟨he', fun s => ?_⟩
    rw [if_neg he]
    exact drop_answers h s

/-- **C111, accept**: if it reports success, the changes were made and a running sandbox shows only the new state. -/
theorem C111_accept (env : Env) (able : Bool) (r : Running) (h : (acceptRunning env able r).2 = true) :
    (accept env r.now).error = none ∧
    ∀ m mp sub what, Spec.MayShow (acceptRunning env able r).1 m mp sub what ↔ what = Spec.view (accept env r.now).state m mp sub := by
  obtain ⟨h1, h2⟩ := acceptRunning_true h
  refine ⟨h1, fun m mp sub what => ⟨?_, ?_⟩⟩
  · rintro ⟨s, hs, hv⟩
    rw [(h2 s).mp hs] at hv; exact hv.symm
  · rintro rfl
    exact ⟨_, (h2 _).mpr rfl, rfl⟩

/-- **C111, reject**: if it reports success, a running sandbox shows only the new state. -/
theorem C111_reject (env : Env) (able : Bool) (r : Running) (h : (rejectRunning env able r).2 = true) :
    (reject env r.now).2 = none ∧
    ∀ m mp sub what, Spec.MayShow (rejectRunning env able r).1 m mp sub what ↔ what = Spec.view (reject env r.now).1 m mp sub := by
  unfold rejectRunning at h ⊢
  dsimp only at h ⊢
  split at h
  · cases h
  · rename_i he
    rw [if_neg he]
    refine ⟨by simpa using he, fun m mp sub what => ⟨?_, ?_⟩⟩
    · rintro ⟨s, hs, hv⟩
      rw [(drop_answers h s).mp hs] at hv; exact hv.symm
    · rintro rfl
      exact ⟨_, (drop_answers h _).mpr rfl, rfl⟩

/-- **C111, rejected changes** (partial: plain storages): after a successful reject a running sandbox shows the host's version of what was rejected with everything above it, and nothing else. -/
theorem C111_rejected_partial (env : Env) (able : Bool) (r : Running) (hw : r.now.lower.WF) (hp : Spec.PlainStorage env r.now) (m : Name) (mp sub : Path)
    (hm : Spec.MountAt env r.now m mp) (hne : sub ≠ []) (hall : ∀ e ∈ changes { env with includeIgnored := true } r.now, e.dest <+: mp ++ sub → e ∈ selected env r.now)
    (h : (rejectRunning env able r).2 = true) (what : Option Node) : Spec.MayShow (rejectRunning env able r).1 m mp sub what ↔ what = r.now.lower.get (mp ++ sub) := by
  obtain ⟨h1, h2⟩ := C111_reject env able r h
  rw [h2 m mp sub what, C109_rejected_partial env r.now hw hp m mp sub hm hne hall h1]

/-- **C111, accepting while a sandbox runs** (partial: plain storages without new directories, everything selected): even if accept fails or the caches cannot be dropped, a running sandbox that showed
nothing stale before shows at every path what it showed before. -/
theorem C111_accepting_partial (env : Env) (able : Bool) (r : Running) (hfresh : ∀ s, ¬ r.old s) (ho : Spec.Ordinary env r.now) (hp : Spec.PlainStorage env r.now)
    (hall : Spec.AllSelected env r.now) (hopq : ∀ q n, r.now.upper.get q = some n → n.opq = false)
    (hwho : ∀ m mp sub n, env.decode m = some mp → sub ≠ [] → r.now.upper.get (m :: sub) = some n → Spec.isWhiteout n = true → ∃ k, r.now.lower.get (mp ++ sub) = some k)
    (m : Name) (mp sub : Path) (hs : Spec.Seen env r.now m mp (mp ++ sub)) (ht : ¬ Spec.Temp env (selected env r.now) (mp ++ sub)) (what : Option Node)
    (hsh : Spec.MayShow (acceptRunning env able r).1 m mp sub what) :
    (Spec.view r.now m mp sub = none → what = none) ∧ (∀ n, Spec.view r.now m mp sub = some n → ∃ n', what = some n' ∧ Spec.SameNode n' n) := by
  obtain ⟨s, hans, rfl⟩ := hsh
  have hst : AcceptState env r.now s := by
    have hcases : s = (accept env r.now).state ∨ r.old s ∨ AcceptState env r.now s := by
      unfold acceptRunning at hans
      dsimp only at hans
      split at hans
      · exact hans
      · cases able with
        | true =>
          rcases hans with h | h
          · exact .inl h
          · exact h.elim
        | false => exact hans
    rcases hcases with h | h | h
    · rw [h]; exact accept_final env r.now
    · exact absurd h (hfresh s)
    · exact h
  exact C106_clearing_partial env r.now s ho hp hall hst hopq hwho m mp sub hs ht

theorem rejectRunning_failed {env : Env} {r : Running} (able : Bool) (h : (reject env r.now).2.isSome = true) :
    (rejectRunning env able r).2 = false ∧ (rejectRunning env able r).1.now = (reject env r.now).1 ∧ (rejectRunning env able r).1.old r.now := by
  unfold rejectRunning
  dsimp only
  rw [if_pos h]
  exact ⟨rfl, rfl, .inr ⟨0, rfl⟩⟩

theorem rejectRunning_ok {env : Env} {r : Running} (h : (reject env r.now).2 = none) : (rejectRunning env true r).2 = true := by
  unfold rejectRunning
  dsimp only
  rw [if_neg (by rw [h]; simp)]
  rfl

theorem acceptRunning_ok {env : Env} {r : Running} (able : Bool) (h : (accept env r.now).error = none) :
    (acceptRunning env able r).2 = able ∧ (acceptRunning env able r).1.now = (accept env r.now).state := by
  unfold acceptRunning
  dsimp only
  rw [if_neg (by rw [h]; simp)]
  cases able <;> exact ⟨rfl, rfl⟩

/-! ### Where it does not hold -/

/-- **C111 refuted** for commands that fail: a reject that removed something and then fails returns without dropping the caches; the running sandbox may go on showing what was rejected. -/
theorem C111_refuted_failed :
    let r := rejectRunning exViewEnv true ⟨exStuck, fun _ => False⟩
    r.2 = false ∧ Spec.view r.1.now (str "F4") [] [str "d", str "g"] = none ∧
    Spec.MayShow r.1 (str "F4") [] [str "d", str "g"] (some { kind := .reg (str "g") }) := by
  obtain ⟨h1, h2, h3⟩ := rejectRunning_failed (env := exViewEnv) (r := ⟨exStuck, fun _ => False⟩) true (by decide +kernel)
  refine ⟨h1, ?_, exStuck, .inr h3, by decide +kernel⟩
  rw [h2]
  show Spec.view (reject exViewEnv exStuck).1 (str "F4") [] [str "d", str "g"] = none
  decide +kernel

/-- **C111 refuted**: if the caches cannot be dropped (for example `/proc/sys` is read-only, in a container), accept reports failure although everything was accepted. -/
theorem C111_refuted_unable :
    let r := acceptRunning exViewEnv false ⟨exDuring, fun _ => False⟩
    r.2 = false ∧ (accept exViewEnv exDuring).error = none ∧ r.1.now = (accept exViewEnv exDuring).state ∧ r.1.now.lower.get [str "d", str "x"] = none ∧
    exDuring.lower.get [str "d", str "x"] = some { kind := .reg (str "old") } := by
  have he : (accept exViewEnv exDuring).error = none := by decide +kernel
  obtain ⟨h1, h2⟩ := acceptRunning_ok (r := ⟨exDuring, fun _ => False⟩) false he
  refine ⟨h1, he, h2, ?_, by decide +kernel⟩
  rw [h2]
  show (accept exViewEnv exDuring).state.lower.get [str "d", str "x"] = none
  decide +kernel

/-- Without `sync`, a change of the host may be invisible in the running sandbox, which is why there is the command. -/
example : Spec.MayShow (hostChange (exDuring.lower.set [str "h"] { kind := .reg [] }) ⟨exDuring, fun _ => False⟩) (str "F4") [] [str "h"] none ∧
    ¬ Spec.MayShow (syncRunning true (hostChange (exDuring.lower.set [str "h"] { kind := .reg [] }) ⟨exDuring, fun _ => False⟩)).1 (str "F4") [] [str "h"] none := by
  refine ⟨⟨exDuring, .inr (.inr rfl), by decide +kernel⟩, ?_⟩
  rw [(C111_sync true _ _ _ _).2 rfl]
  show ¬ none = Spec.view ⟨exDuring.lower.set [str "h"] { kind := .reg [] }, exDuring.upper⟩ (str "F4") [] [str "h"]
  decide +kernel

/-- Non-vacuity of accept and reject. -/
example : (acceptRunning exViewEnv true ⟨exDuring, fun _ => False⟩).2 = true := (acceptRunning_ok true (by decide +kernel)).1
example : (rejectRunning exViewEnv true ⟨exDuring, fun _ => False⟩).2 = true := rejectRunning_ok (by decide +kernel)

example (able : Bool) (m : Name) (mp sub : Path) (hs : Spec.Seen exViewEnv exDuring m mp (mp ++ sub)) (ht : ¬ Spec.Temp exViewEnv (selected exViewEnv exDuring) (mp ++ sub)) (what : Option Node)
    (hsh : Spec.MayShow (acceptRunning exViewEnv able ⟨exDuring, fun _ => False⟩).1 m mp sub what) : Spec.view exDuring m mp sub = none → what = none :=
  (C111_accepting_partial exViewEnv able ⟨exDuring, fun _ => False⟩ (fun _ h => h) exDuring_ordinary exDuring_plain exDuring_all
    (fun q n h => by
      have : ∀ e ∈ exDuring.upper, e.2.opq = false := by decide +kernel
      exact this _ (FS.mem_of_get h))
    (fun m mp sub n hd hne hg hw => by
      have : ∀ e ∈ exDuring.upper, Spec.isWhiteout e.2 = true → ∀ p ∈ hostPlace exViewEnv e.1, (exDuring.lower.get p).isSome = true := by decide +kernel
      have h := this _ (FS.mem_of_get hg) hw (mp ++ sub) (by simp [hostPlace, hne, hd])
      exact Option.isSome_iff_exists.1 h)
    m mp sub hs ht what hsh).1

end SB
