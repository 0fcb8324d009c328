import Verif.Props.RaceIn

/-!
# C113 (and C88): accept amid other programs and commands in the sandbox
-/

namespace SB

theorem interleaved_both {P Q : Path → Prop} {d : Nat} {ops : List Op} {hs ws : List Write} {st st' : State} {r : Option AccErr} (h : InterleavedBoth ops hs ws st st' r) :
    (∀ w ∈ hs, P w.path) → (∀ w ∈ ws, Q w.path) → (∀ w ∈ ws, ∀ n, w.node = some n → n.dev = d) → (∀ op ∈ ops, ∀ s, op.stored = some s → s ≠ [] ∧ ∀ w, Q w → ¬ s <+: w) →
    ∀ a u : FS, a.WF → st.lower.WF → Off P a st.lower → Stored d u → Stored d st.upper → Off Q u st.upper → ApartRun P ops ⟨a, u⟩ →
      r = (run ops ⟨a, u⟩).2 ∧ Off P (run ops ⟨a, u⟩).1.lower st'.lower ∧ (∀ q, P q → st'.lower.get q = (hs.foldl write st.lower).get q) ∧
      Off Q (run ops ⟨a, u⟩).1.upper st'.upper ∧ ∀ q, Q q → st'.upper.get q = (ws.foldl write st.upper).get q := by
  induction h with
  | done => intro _ _ _ _ a u _ _ hab _ _ huv _; exact ⟨rfl, hab, fun _ _ => rfl, huv, fun _ _ => rfl⟩
  | @host ops w hs ws st st' r hwf _ ih =>
    intro hP hQ hD hop a u ha _ hab hu hv huv hap
    exact ih (fun w' hw' => hP w' (List.mem_cons_of_mem _ hw')) hQ hD hop a u ha hwf (fun q hq => by
      show a.get q = (write st.lower w).get q
      rw [write_get_other (w := w) (q := q) (fun he => hq (by rw [← he]; exact hP w List.mem_cons_self))]
      exact hab q hq) hu hv huv hap
  | @storage ops w hs ws st st' r hwf _ ih =>
    intro hP hQ hD hop a u ha hb hab hu hv huv hap
    exact ih hP (fun w' hw' => hQ w' (List.mem_cons_of_mem _ hw')) (fun w' hw' => hD w' (List.mem_cons_of_mem _ hw')) hop a u ha hb hab hu (hv.write hwf (hD w List.mem_cons_self)) (fun q hq => by
      show u.get q = (write st.upper w).get q
      rw [write_get_other (w := w) (q := q) (fun he => hq (by rw [← he]; exact hQ w List.mem_cons_self))]
      exact huv q hq) hap
  | @step op ops hs ws st st1 st' r hx _ ih =>
    intro hP hQ hD hop a u ha hb hab hu hv huv hap
    obtain ⟨g1, g2, g3⟩ := exec_off (u := u) hab ha hap.1
    obtain ⟨k1, k2, k3, k4, k5, k6⟩ := exec_in (low := st.lower) huv hu hv (hop op List.mem_cons_self)
    have hb' := exec_step (op := op) (st := st) hb (hap.1.other hab)
    have ha' := exec_step (op := op) (st := ⟨a, u⟩) ha hap.1.plain
    rw [show (⟨st.lower, st.upper⟩ : State) = st from rfl, hx] at k1 k2 k3 k5 k6
    rw [hx] at hb'
    rw [k1] at g3
    rw [← g2] at k3 k4
    rw [k2] at g1
    cases hxa : exec op ⟨a, u⟩ with
    | mk sa e =>
      rw [hxa] at g1 g3 k3 k4 ha'
      simp only at g1 g3 k3 k4 k5 k6
      subst g3
      have hrun : run (op :: ops) ⟨a, u⟩ = run ops ⟨sa.lower, sa.upper⟩ := by simp only [run, hxa]
      rw [hrun]
      obtain ⟨h1, h2, h3, h4, h5⟩ := ih hP hQ hD (fun op' ho' => hop op' (List.mem_cons_of_mem _ ho')) sa.lower sa.upper ha'.wf hb'.wf g1 k4 k5 k3 (hap.2 sa hxa)
      exact ⟨h1, h2, fun q hq => by rw [h3 q hq]; exact writes_congr hs (hb'.out q (hap.1.region hq)), h4, fun q hq => by rw [h5 q hq]; exact writes_congr ws (k6 q hq)⟩
  | @failed op ops hs ws st st1 st' e hx _ ih =>
    intro hP hQ hD hop a u ha hb hab hu hv huv hap
    obtain ⟨g1, g2, g3⟩ := exec_off (u := u) hab ha hap.1
    obtain ⟨k1, k2, k3, k4, k5, k6⟩ := exec_in (low := st.lower) huv hu hv (hop op List.mem_cons_self)
    have hb' := exec_step (op := op) (st := st) hb (hap.1.other hab)
    have ha' := exec_step (op := op) (st := ⟨a, u⟩) ha hap.1.plain
    rw [show (⟨st.lower, st.upper⟩ : State) = st from rfl, hx] at k1 k2 k3 k5 k6
    rw [hx] at hb'
    rw [k1] at g3
    rw [← g2] at k3 k4
    rw [k2] at g1
    cases hxa : exec op ⟨a, u⟩ with
    | mk sa e' =>
      rw [hxa] at g1 g3 k3 k4 ha'
      simp only at g1 g3 k3 k4 k5 k6
      subst g3
      have hrun : run (op :: ops) ⟨a, u⟩ = (sa, some e) := by simp only [run, hxa]
      rw [hrun]
      obtain ⟨_, h2, h3, h4, h5⟩ := ih hP hQ hD (fun _ h => by cases h) sa.lower sa.upper ha'.wf hb'.wf g1 k4 k5 k3 trivial
      exact ⟨rfl, h2, fun q hq => by rw [h3 q hq]; exact writes_congr hs (hb'.out q (hap.1.region hq)), h4, fun q hq => by rw [h5 q hq]; exact writes_congr ws (k6 q hq)⟩

theorem interleaved_both_nil {hs ws : List Write} {st st' : State} {r : Option AccErr} (h : InterleavedBoth [] hs ws st st' r) :
    r = none ∧ st'.lower = hs.foldl write st.lower ∧ st'.upper = ws.foldl write st.upper := by
  generalize hops : ([] : List Op) = ops at h
  induction h with
  | done => exact ⟨rfl, rfl, rfl⟩
  | host _ _ ih => exact ih hops
  | storage _ _ ih => exact ih hops
  | step => cases hops
  | failed => cases hops

/-- **C113 and C88 together** (partial: host programs work elsewhere, commands in the sandbox leave the selected changes alone): while other programs change the host and commands in the sandbox change the
storage, in any order and at any time, accept has the same outcome as alone; the host is what accept alone makes of it, with the work of the others on top; the storage has what the commands left there,
and of the selected changes what accept alone leaves. -/
theorem C113_amid_partial (env : Env) (st st' : State) (r : Option AccErr) (hs ws : List Write) (ho : Spec.Ordinary env st) (hl : Spec.NoLinkToDir st.lower (selected env st))
    (hwf : st.upper.WF) (hd : Spec.OneStorage st.upper ws) (hh : ∀ w ∈ hs, Spec.Elsewhere env (selected env st) w.path) (hw : ∀ w ∈ ws, Spec.NotOfSelected (selected env st) w.path)
    (h : AcceptAmid env st hs ws st' r) :
    r = (accept env st).error ∧ (∀ q, st'.lower.get q = (hs.foldl write (accept env st).state.lower).get q) ∧
    (∀ q, Spec.NotOfSelected (selected env st) q → st'.upper.get q = (ws.foldl write st.upper).get q) ∧
    ∀ q, ¬ Spec.NotOfSelected (selected env st) q → st'.upper.get q = (accept env st).state.upper.get q := by
  have hsel : selected env st = matching env.glob env.cwd env.patterns (changes env st) := rfl
  obtain ⟨d, hd1, hd2⟩ := hd
  have none_written : ∀ q, ¬ Spec.NotOfSelected (selected env st) q → (ws.foldl write st.upper).get q = st.upper.get q := fun q hq =>
    writes_other (fun w hw' (he : w.path = q) => hq (by rw [← he]; exact hw w hw')) _
  cases h with
  | nothing hm hi =>
    obtain ⟨h1, h2, h3⟩ := interleaved_both_nil hi
    have : accept env st = { state := st, error := none, accepted := 0, nonMatching := nonMatchingCount (changes env st) [] } := by
      unfold accept; simp [hm]
    rw [this]
    exact ⟨rfl, fun q => by rw [h2], fun q _ => by rw [h3], fun q hq => by rw [h3]; exact none_written q hq⟩
  | @refused e hm hc hi =>
    obtain ⟨h1, h2, h3⟩ := interleaved_both_nil hi
    have h4 : (accept env st).state = st ∧ (accept env st).error = some e := by unfold accept; simp [hm, hc]
    rw [h4.1, h4.2]
    exact ⟨rfl, fun q => by rw [h2], fun q _ => by rw [h3], fun q hq => by rw [h3]; exact none_written q hq⟩
  | ran hm hc hi =>
    rw [← hsel] at hm hc hi
    have h4 : (accept env st).state = (run (plan env (selected env st)) st).1 ∧ (accept env st).error = (run (plan env (selected env st)) st).2 := by
      unfold accept
      simp only
      rw [← hsel]
      simp only [hm, hc, if_false, and_self]
    rw [h4.1, h4.2]
    have hap := apart_plan ho.ready ho.distinct hl (P := fun q => ∃ w ∈ hs, w.path = q) (fun q hq => by obtain ⟨w, hw', rfl⟩ := hq; exact hh w hw')
    have key := interleaved_both (P := fun q => ∃ w ∈ hs, w.path = q) (Q := Spec.NotOfSelected (selected env st)) (d := d) hi (fun w hw' => ⟨w, hw', rfl⟩) hw hd2 (fun op hop s hs => by
      obtain ⟨e, he, t, ht, rfl⟩ := plan_stored hc hop hs
      exact ⟨(changes_staged (mem_selected he) ht).2, fun w hw' => hw' e he t ht⟩) st.lower st.upper ho.wf ho.wf (fun _ _ => rfl) ⟨hwf, hd1⟩ ⟨hwf, hd1⟩ (fun _ _ => rfl) hap
    rw [show (⟨st.lower, st.upper⟩ : State) = st from rfl] at key
    generalize run (plan env (selected env st)) st = R at key ⊢
    obtain ⟨h1, h2, h3, h5, h6⟩ := key
    refine ⟨h1, fun q => ?_, h6, fun q hq => (h5 q hq).symm⟩
    by_cases hq : ∃ w ∈ hs, w.path = q
    · exact (h3 q hq).trans (writes_mem hq _ _)
    · exact (h2 q hq).symm.trans (writes_other (fun w hw' he => hq ⟨w, hw', he⟩) _).symm

/-! ### A concrete case -/

theorem interleaved_both_storage {ops : List Op} {ws : List Write} {st st' : State} {r : Option AccErr} (h : InterleavedIn ops ws st st' r) : InterleavedBoth ops [] ws st st' r := by
  induction h with
  | done => exact .done
  | other h _ ih => exact .storage h ih
  | step h _ ih => exact .step h ih
  | failed h _ ih => exact .failed h ih

/-- A program of the host works before accept's first call, commands in the sandbox after its second. -/
example : ∃ st', AcceptAmid exOneEnv exDuring [⟨[str "log"], some { kind := .reg (str "line") }⟩] exLate st' none ∧ Spec.Ordinary exOneEnv exDuring ∧
    Spec.NoLinkToDir exDuring.lower (selected exOneEnv exDuring) ∧ Spec.OneStorage exDuring.upper exLate ∧
    (∀ w ∈ ([⟨[str "log"], some { kind := .reg (str "line") }⟩] : List Write), Spec.Elsewhere exOneEnv (selected exOneEnv exDuring) w.path) ∧
    (st'.lower.get [str "log"]).isSome ∧ (st'.lower.get [str "f"]).map (·.kind) = some (.reg (str "new")) ∧ (st'.upper.get [str "F4", str "more"]).isSome := by
  refine ⟨(whileAt exOneEnv { exDuring with lower := write exDuring.lower ⟨[str "log"], some { kind := .reg (str "line") }⟩ } exLate 2).1, .ran (by decide +kernel) (by decide +kernel) (.host (by decide +kernel)
    (interleaved_both_storage ?_)), ordinary_of_check (fun _ => rfl) (fun _ => rfl) (by decide +kernel) (by decide +kernel) (by decide +kernel), noLinkToDir_of_check (by decide +kernel),
    oneStorage_of_check (by decide +kernel), ?_, by decide +kernel, by decide +kernel, by decide +kernel⟩
  · have he : matching exOneEnv.glob exOneEnv.cwd exOneEnv.patterns (changes exOneEnv exDuring) = selected exOneEnv { exDuring with lower := write exDuring.lower ⟨[str "log"], some { kind := .reg (str "line") }⟩ } := by
      decide +kernel
    rw [he]
    exact interleaved_in_at 2 (Prod.ext_iff.2 ⟨rfl, by decide +kernel⟩) (by decide +kernel) (Prod.ext_iff.2 ⟨rfl, by decide +kernel⟩)
  · intro w hw
    rw [List.mem_singleton] at hw
    subst hw
    exact elsewhere_of_check (fun _ => rfl) (fun _ => rfl) (by decide +kernel)

end SB
