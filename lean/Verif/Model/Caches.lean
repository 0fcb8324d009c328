import Verif.Model.Actions

/-!
# Running sandboxes and the caches of the kernel: src/util/sync_and_drop_caches.rs, src/actions/sync.rs, ends of accept and reject

While a sandbox is mounted, the kernel may answer a look-up in it from what it remembers of the storage or the host from before a change (README.adoc, "Modifying the host file system while a sandbox is
running": "stale or cached data").  Here: from any of the states they were in since the caches were last dropped; each look-up from one of them.  (Whether the kernel really forgets everything when asked to
is not modelled: files in use can be kept.)  `able`: `/proc/sys/vm/drop_caches` can be written.
-/

namespace SB

/-- The storage and the host as they are, and the earlier states that look-ups in the running sandbox may still be answered from. -/
structure Running where
  now : State
  old : State → Prop

/-- A state that a look-up may be answered from. -/
def Running.Answers (r : Running) (s : State) : Prop := s = r.now ∨ r.old s

/-- src/util/sync_and_drop_caches.rs:13-17 (`true`: success) -/
def dropCaches (able : Bool) (r : Running) : Running × Bool := if able then (⟨r.now, fun _ => False⟩, true) else (r, false)

/-- src/actions/sync.rs:8-13 -/
def syncRunning (able : Bool) (r : Running) : Running × Bool := dropCaches able r

/-- Someone changes files of the host. -/
def hostChange (fs : FS) (r : Running) : Running := ⟨{ r.now with lower := fs }, fun s => r.old s ∨ s = r.now⟩

/-- src/actions/accept.rs:118-438 with a running sandbox: every state on the way may be remembered; an error anywhere ends accept before src/actions/accept.rs:435. -/
def acceptRunning (env : Env) (able : Bool) (r : Running) : Running × Bool :=
  let r1 : Running := ⟨(accept env r.now).state, fun s => r.old s ∨ AcceptState env r.now s⟩
  if (accept env r.now).error.isSome then (r1, false) else dropCaches able r1

/-- src/actions/reject.rs:10-56 with a running sandbox: an error ends reject before src/actions/reject.rs:51. -/
def rejectRunning (env : Env) (able : Bool) (r : Running) : Running × Bool :=
  let r1 : Running := ⟨(reject env r.now).1,
    fun s => r.old s ∨ ∃ k, s = { r.now with upper := (rejectLoop ((stableSort byStagedDescending (selected env r.now)).take k) none r.now.upper).1 }⟩
  if (reject env r.now).2.isSome then (r1, false) else dropCaches able r1

end SB
