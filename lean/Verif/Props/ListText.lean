import Verif.Model.ListText
import Verif.Props.JsonText
import Verif.Props.List
import Verif.Props.Output

/-!
# C100: what `list` prints tells which sandboxes there are and which of them run
-/

namespace SB

/-- Names without line breaks. -/
def Spec.LineNames (l : List Name) : Prop := ∀ n ∈ l, '\n' ∉ n

instance (l : List Name) : Decidable (Spec.LineNames l) := by unfold Spec.LineNames; infer_instance

theorem split_blank {a b c d : List Str} (ha : [] ∉ a) (hc : [] ∉ c) (h : a ++ [] :: b = c ++ [] :: d) : a = c ∧ b = d := by
  induction a generalizing c with
  | nil =>
    cases c with
    | nil => simp at h; exact ⟨rfl, h⟩
    | cons x r =>
      simp only [List.nil_append, List.cons_append, List.cons.injEq] at h
      exact absurd (by rw [h.1]; simp) hc
  | cons y r ih =>
    cases c with
    | nil =>
      simp only [List.nil_append, List.cons_append, List.cons.injEq] at h
      exact absurd (by rw [h.1]; simp) ha
    | cons x q =>
      simp only [List.cons_append, List.cons.injEq] at h
      obtain ⟨h1, h2⟩ := ih (fun hh => ha (by simp [hh])) (fun hh => hc (by simp [hh])) h.2
      rw [h.1, h1, h2]
      exact ⟨rfl, rfl⟩

theorem listPrints_inj {run stop run' stop' : List Name} (h : run.Pairwise (· < ·)) (h' : run'.Pairwise (· < ·)) (he : listPrints run stop = listPrints run' stop') : run = run' ∧ stop = stop' := by
  have tail : ∀ {a : Name} {l : List Name}, (a :: l).Pairwise (· < ·) → [] ∉ l := fun hp hm => absurd ((List.pairwise_cons.1 hp).1 [] hm) (by simp)
  have hd : str "Running sandboxes:" ≠ str "Stopped sandboxes:" := by decide
  have n1 : ([] : Str) ≠ str "Running sandboxes:" := by decide
  have n2 : ([] : Str) ≠ str "Stopped sandboxes:" := by decide
  cases run with
  | nil =>
    cases stop with
    | nil =>
      cases run' <;> cases stop' <;> simp [listPrints] at he
      exact ⟨rfl, rfl⟩
    | cons s S =>
      cases run' with
      | nil =>
        cases stop' with
        | nil => simp [listPrints] at he
        | cons s' S' => simp [listPrints] at he; exact ⟨rfl, by rw [he.1, he.2]⟩
      | cons r' R' => simp [listPrints] at he; exact absurd he.1.symm hd
  | cons r R =>
    cases run' with
    | nil =>
      cases stop' with
      | nil => simp [listPrints] at he
      | cons s' S' => simp [listPrints] at he; exact absurd he.1 hd
    | cons r' R' =>
      cases stop with
      | nil =>
        cases stop' with
        | nil => simp [listPrints] at he; exact ⟨by rw [he.1, he.2], rfl⟩
        | cons s' S' =>
          simp only [listPrints, List.isEmpty_cons, List.isEmpty_nil, Bool.not_false, Bool.not_true, Bool.and_false, Bool.and_true, Bool.false_eq_true, if_false, if_true, List.append_nil, List.cons_append,
            List.nil_append, List.cons.injEq, true_and] at he
          exact absurd (show ([] : Str) ∈ R by rw [he.2]; simp) (tail h)
      | cons s S =>
        cases stop' with
        | nil =>
          simp only [listPrints, List.isEmpty_cons, List.isEmpty_nil, Bool.not_false, Bool.not_true, Bool.and_false, Bool.and_true, Bool.false_eq_true, if_false, if_true, List.append_nil, List.cons_append,
            List.nil_append, List.cons.injEq, true_and] at he
          exact absurd (show ([] : Str) ∈ R' by rw [← he.2]; simp) (tail h')
        | cons s' S' =>
          have : r = r' ∧ R ++ [] :: (str "Stopped sandboxes:" :: s :: S) = R' ++ [] :: (str "Stopped sandboxes:" :: s' :: S') := by
            simpa [listPrints] using he
          obtain ⟨h1, h2⟩ := split_blank (tail h) (tail h') this.2
          exact ⟨by rw [this.1, h1], (List.cons.inj h2).2⟩

/-- **C100 (partial)**: the text that `list` prints determines which sandboxes there are (of those that match the patterns) and which of them run, if no name has a line break in it. -/
theorem C100_text_partial (errText : Errno → Str) (s s' : Sys) (glob : Str → Str → Bool) (storage storage' : Path) (patterns patterns' : List Str) (run stop run' stop' : List Name) (hw : s.fs.WF) (hw' : s'.fs.WF)
    (hl : getSandboxes s glob storage patterns = .ok (run, stop)) (hl' : getSandboxes s' glob storage' patterns' = .ok (run', stop')) (hn : Spec.LineNames (run ++ stop)) (hn' : Spec.LineNames (run' ++ stop'))
    (h : stdoutText (listRun errText (getSandboxes s glob storage patterns)).prints = stdoutText (listRun errText (getSandboxes s' glob storage' patterns')).prints) :
    (∀ n, Spec.Matching s.fs glob storage patterns n ↔ Spec.Matching s'.fs glob storage' patterns' n) ∧
    (∀ n, Spec.Matching s.fs glob storage patterns n → (Spec.Alive s storage n ↔ Spec.Alive s' storage' n)) := by
  obtain ⟨a1, a2, -, a4, -⟩ := C55_list s glob storage patterns run stop hw hl
  obtain ⟨b1, b2, -, b4, -⟩ := C55_list s' glob storage' patterns' run' stop' hw' hl'
  rw [hl, hl'] at h
  have key : ∀ {r s : List Name}, Spec.LineNames (r ++ s) → ∀ x ∈ listPrints r s, '\n' ∉ x := by
    intro r s hh x hx
    simp only [listPrints, List.mem_append] at hx
    rcases hx with (hx | hx) | hx
    · split at hx
      · cases hx
      · rcases List.mem_cons.1 hx with rfl | hx
        · decide
        · exact hh x (by simp [hx])
    · split at hx
      · rw [List.mem_singleton] at hx; rw [hx]; simp
      · cases hx
    · split at hx
      · cases hx
      · rcases List.mem_cons.1 hx with rfl | hx
        · decide
        · exact hh x (by simp [hx])
  obtain ⟨rfl, rfl⟩ := listPrints_inj a4 b4 (stdoutText_inj (key hn) (key hn') h)
  have hm : ∀ n, Spec.Matching s.fs glob storage patterns n ↔ Spec.Matching s'.fs glob storage' patterns' n := by
    intro n
    constructor
    · intro hx
      by_cases ha : Spec.Alive s storage n
      · exact ((b1 n).1 ((a1 n).2 ⟨hx, ha⟩)).1
      · exact ((b2 n).1 ((a2 n).2 ⟨hx, ha⟩)).1
    · intro hx
      by_cases ha : Spec.Alive s' storage' n
      · exact ((a1 n).1 ((b1 n).2 ⟨hx, ha⟩)).1
      · exact ((a2 n).1 ((b2 n).2 ⟨hx, ha⟩)).1
  refine ⟨hm, fun n hx => ⟨fun ha => ((b1 n).1 ((a1 n).2 ⟨hx, ha⟩)).2, fun ha => ((a1 n).1 ((b1 n).2 ⟨(hm n).1 hx, ha⟩)).2⟩⟩

/-- **C100**: with --json a reader gets the names of the running and of the stopped sandboxes, whatever characters they contain. -/
theorem C100_json (errText : Errno → Str) (run stop : List Name) : ∃ l, jsonParse (jsonStdout (listRun errText (.ok (run, stop)))) = some (.obj l) ∧
    l.lookup (str "status") = some (.str (str "success")) ∧ l.lookup (str "running_sandboxes") = some (.arr (run.map .str)) ∧
    l.lookup (str "stopped_sandboxes") = some (.arr (stop.map .str)) := by
  have hnum : ∀ p ∈ (listRun errText (.ok (run, stop))).sets, Spec.NumbersOk p.2 := by
    have hs : ∀ l : List Name, Spec.NumbersOk (.arr (l.map .str)) := by
      intro l
      refine numbers_arr.2 (fun v hv => ?_)
      obtain ⟨x, _, rfl⟩ := List.mem_map.1 hv
      trivial
    intro p hp
    simp only [listRun, List.mem_cons, List.not_mem_nil, or_false] at hp
    rcases hp with rfl | rfl <;> exact hs _
  obtain ⟨l, m, -, h1, -, h2, h3⟩ := C94_text _ hnum
  simp only [mainAction, listRun, if_true, List.nil_append, StdOut.object.injEq, List.cons.injEq, and_true] at h2
  refine ⟨l, h1, ?_, ?_, ?_⟩ <;> (rw [h3, ← h2]; rfl)

/-- **C100**: a list that fails says so with --json, and prints nothing that could be taken for a list otherwise. -/
theorem C100_error (errText : Errno → Str) (e : Errno) : (listRun errText (.error e)).prints = [] ∧ (∃ l, jsonParse (jsonStdout (listRun errText (.error e))) = some (.obj l) ∧
    l.lookup (str "status") = some (.str (str "error")) ∧ l.lookup (str "running_sandboxes") = none ∧ l.lookup (str "stopped_sandboxes") = none) ∧
    (mainAction false .ready (listRun errText (.error e))).exit = 1 := by
  obtain ⟨l, m, -, h1, -, h2, h3⟩ := C94_text (listRun errText (.error e)) (fun p hp => by cases hp)
  simp only [mainAction, listRun, if_true, List.nil_append, StdOut.object.injEq, List.cons.injEq, and_true] at h2
  refine ⟨rfl, ⟨l, h1, ?_, ?_, ?_⟩, rfl⟩ <;> (rw [h3, ← h2]; rfl)

/-- A running sandbox with an odd name. -/
def exListOdd : Sys := ⟨[([], { kind := .dir }), ([str "s"], { kind := .dir }), ([str "s", str "a\n\nStopped sandboxes:\nb.lock"], { kind := .reg [] }),
  ([str "s", str "a\n\nStopped sandboxes:\nb.pid"], { kind := .reg (str "42") })], [⟨42, str "sandbox", 'S', 20, 20⟩], fun _ => false⟩

/-- A running and a stopped sandbox. -/
def exListTwo : Sys := ⟨[([], { kind := .dir }), ([str "s"], { kind := .dir }), ([str "s", str "a.lock"], { kind := .reg [] }), ([str "s", str "a.pid"], { kind := .reg (str "42") }),
  ([str "s", str "b.lock"], { kind := .reg [] })], [⟨42, str "sandbox", 'S', 20, 20⟩], fun _ => false⟩

/-- Non-vacuity of `C100_text_partial`, with a name that looks like a heading. -/
example : exListTwo.fs.WF ∧ getSandboxes exListTwo globRef [str "s"] [] = .ok ([str "a"], [str "b"]) ∧ Spec.LineNames ([str "a"] ++ [str "b"]) ∧ Spec.LineNames ([str "a", str "Stopped sandboxes:"] ++ [str "b"]) ∧
    stdoutText (listPrints [str "a"] [str "b"]) = str "Running sandboxes:\na\n\nStopped sandboxes:\nb\n" ∧
    stdoutText (listPrints [str "a", str "Stopped sandboxes:", str "b"] []) = str "Running sandboxes:\na\nStopped sandboxes:\nb\n" ∧ stdoutText (listPrints [] []) = [] := by decide +kernel

/-- **C100 refuted** for names with line breaks, which are accepted: one running sandbox is printed as a running sandbox `a` and a stopped sandbox `b`, neither of which exists. -/
theorem C100_refuted_newline : NormalName (str "a\n\nStopped sandboxes:\nb") ∧ getSandboxes exListOdd globRef [str "s"] [] = .ok ([str "a\n\nStopped sandboxes:\nb"], []) ∧
    getSandboxes exListTwo globRef [str "s"] [] = .ok ([str "a"], [str "b"]) ∧
    stdoutText (listPrints [str "a\n\nStopped sandboxes:\nb"] []) = stdoutText (listPrints [str "a"] [str "b"]) := by decide +kernel

end SB
