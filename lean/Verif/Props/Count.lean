import Verif.Model.Count
import Verif.Props.Ignore
import Verif.Lib.Bridge
import Verif.Lib.Digits

/-! # C64: the numbers shown before a sandbox is deleted -/

namespace SB

/-- Something of which the question says how many there are: not a directory, and not a link that leads to one. -/
def Spec.FileLike (rel : Path → Bool) (st : State) (p : Path) : Prop :=
  ∃ n, st.upper.get p = some n ∧ n.kind ≠ .dir ∧ ∀ t, n.kind = .lnk t → (t.head? = some '/' → st.lower.pisDir (components t) = false) ∧ (t.head? ≠ some '/' → rel p = false)

/-- The storage path of a change in one of the sandbox's mounts. -/
def Spec.InMount (env : Env) (p : Path) : Prop := ∃ m mp sub, p = m :: sub ∧ sub ≠ [] ∧ env.decode m = some mp

/-- Status (with or without `--ignored`, as `env` says) takes the storage path into account. -/
def Spec.Examined (env : Env) (st : State) (p : Path) : Prop := ∃ ue ∈ upperEntries env st, ue.upperPath = p

theorem storedIsDir_iff {rel : Path → Bool} {st : State} {p : Path} (hp : p ∈ st.upper.keys) : storedIsDir rel st p = false ↔ Spec.FileLike rel st p := by
  obtain ⟨n, hn⟩ := FS.mem_keys.1 hp
  unfold storedIsDir Spec.FileLike
  rw [hn]
  simp only [Option.some.injEq, exists_eq_left']
  cases hk : n.kind <;> simp
  rename_i t
  by_cases ht : t.head? = some '/' <;> simp [ht]

/-- The two numbers count the paths in `ks` that are shown and hidden. -/
def CountsIn (env : Env) (rel : Path → Bool) (st : State) (ks : List Path) (r : Nat × Nat) : Prop :=
      ∃ shown hid : List Path, r = (shown.length, hid.length) ∧ shown.Nodup ∧ hid.Nodup ∧
        (∀ p, p ∈ shown ↔ p ∈ ks ∧ Spec.FileLike rel st p ∧ ∃ m mp sub, p = m :: sub ∧ sub ≠ [] ∧ env.decode m = some mp ∧
          (env.includeIgnored = true ∨ ¬ (Spec.BuiltIn env.glob (mp ++ sub) ∨ Spec.LastMatchHides env.glob (Spec.rulesFor st m mp sub)))) ∧
        (∀ p, p ∈ hid ↔ p ∈ ks ∧ Spec.FileLike rel st p ∧ ∃ m mp sub, p = m :: sub ∧ sub ≠ [] ∧ env.decode m = some mp ∧
          ¬ (env.includeIgnored = true ∨ ¬ (Spec.BuiltIn env.glob (mp ++ sub) ∨ Spec.LastMatchHides env.glob (Spec.rulesFor st m mp sub))))

theorem countLoop_spec {env : Env} {rel : Path → Bool} {st : State} (hw : st.upper.WF) (hs : Spec.SeparateMounts env st.upper) :
    ∀ (ks : List Path) (c : IgnoreCache), CacheOK st (StoredDirs env st.upper) c → (∀ k ∈ ks, k ∈ st.upper.keys) → ks.Nodup →
      CountsIn env rel st ks (countLoop env rel st ks c) := by
  intro ks
  induction ks with
  | nil => intro c _ _ _; exact ⟨[], [], rfl, by simp, by simp, by simp, by simp⟩
  | cons k ks ih =>
    intro c hc hk hnd
    rw [List.nodup_cons] at hnd
    have hk' : ∀ k ∈ ks, k ∈ st.upper.keys := fun q hq => hk q (by simp [hq])
    -- the head is not counted
    have skip : ∀ c', CacheOK st (StoredDirs env st.upper) c' → countLoop env rel st (k :: ks) c = countLoop env rel st ks c' →
        (¬ (Spec.FileLike rel st k ∧ ∃ m mp sub, k = m :: sub ∧ sub ≠ [] ∧ env.decode m = some mp)) → CountsIn env rel st (k :: ks) (countLoop env rel st (k :: ks) c) := by
      intro c' hc' he hno
      obtain ⟨shown, hid, h1, h2, h3, h4, h5⟩ := ih c' hc' hk' hnd.2
      refine ⟨shown, hid, he.trans h1, h2, h3, fun p => ?_, fun p => ?_⟩
      · rw [h4, List.mem_cons]
        constructor
        · rintro ⟨h, h'⟩; exact ⟨.inr h, h'⟩
        · rintro ⟨rfl | h, hf, m, mp, sub, h1, h2, h3, h4⟩
          · exact absurd ⟨hf, m, mp, sub, h1, h2, h3⟩ hno
          · exact ⟨h, hf, m, mp, sub, h1, h2, h3, h4⟩
      · rw [h5, List.mem_cons]
        constructor
        · rintro ⟨h, h'⟩; exact ⟨.inr h, h'⟩
        · rintro ⟨rfl | h, hf, m, mp, sub, h1, h2, h3, h4⟩
          · exact absurd ⟨hf, m, mp, sub, h1, h2, h3⟩ hno
          · exact ⟨h, hf, m, mp, sub, h1, h2, h3, h4⟩
    cases k with
    | nil =>
      refine skip c hc rfl ?_
      rintro ⟨_, m, mp, sub, h, _⟩
      cases h
    | cons m sub =>
      cases hdec : env.decode m with
      | none =>
        refine skip c hc (by simp only [countLoop, hdec]) ?_
        rintro ⟨_, m', mp, sub', h, _, hd⟩
        cases h
        rw [hdec] at hd; cases hd
      | some mp =>
        by_cases hsub : sub = []
        · refine skip c hc (by simp only [countLoop, hdec, hsub, if_true]) ?_
          rintro ⟨_, m', mp, sub', h, hne, _⟩
          cases h
          exact hne hsub
        · have hkey := hk (m :: sub) (by simp)
          cases hdir : storedIsDir rel st (m :: sub) with
          | true =>
            refine skip c hc (by simp only [countLoop, hdec, hsub, hdir, if_false, if_true]) ?_
            rintro ⟨hf, _⟩
            rw [(storedIsDir_iff hkey).2 hf] at hdir
            cases hdir
          | false =>
            have hfl := (storedIsDir_iff hkey).1 hdir
            -- the head is shown or hidden
            have add : ∀ (c' : IgnoreCache) (b : Bool), CacheOK st (StoredDirs env st.upper) c' →
                (b = true ↔ (env.includeIgnored = true ∨ ¬ (Spec.BuiltIn env.glob (mp ++ sub) ∨ Spec.LastMatchHides env.glob (Spec.rulesFor st m mp sub)))) →
                countLoop env rel st ((m :: sub) :: ks) c = (if b then ((countLoop env rel st ks c').1 + 1, (countLoop env rel st ks c').2)
                  else ((countLoop env rel st ks c').1, (countLoop env rel st ks c').2 + 1)) → CountsIn env rel st ((m :: sub) :: ks) (countLoop env rel st ((m :: sub) :: ks) c) := by
              intro c' b hc' hb he
              obtain ⟨shown, hid, h1, h2, h3, h4, h5⟩ := ih c' hc' hk' hnd.2
              rw [h1] at he
              have inj : ∀ m' mp' sub', m :: sub = m' :: sub' → env.decode m' = some mp' → m' = m ∧ mp' = mp ∧ sub' = sub := by
                intro m' mp' sub' h1 h2
                cases h1
                rw [hdec] at h2; cases h2
                exact ⟨rfl, rfl, rfl⟩
              cases b with
              | true =>
                refine ⟨(m :: sub) :: shown, hid, by simpa using he, List.nodup_cons.2 ⟨fun h => hnd.1 ((h4 _).1 h).1, h2⟩, h3, fun p => ?_, fun p => ?_⟩
                · rw [List.mem_cons, h4, List.mem_cons]
                  constructor
                  · rintro (rfl | ⟨h, h'⟩)
                    · exact ⟨.inl rfl, hfl, m, mp, sub, rfl, hsub, hdec, hb.1 rfl⟩
                    · exact ⟨.inr h, h'⟩
                  · rintro ⟨rfl | h, h'⟩
                    · exact .inl rfl
                    · exact .inr ⟨h, h'⟩
                · rw [h5, List.mem_cons]
                  constructor
                  · rintro ⟨h, h'⟩; exact ⟨.inr h, h'⟩
                  · rintro ⟨rfl | h, hf, m', mp', sub', e1, e2, e3, e4⟩
                    · obtain ⟨rfl, rfl, rfl⟩ := inj _ _ _ e1 e3
                      exact absurd (hb.1 rfl) e4
                    · exact ⟨h, hf, m', mp', sub', e1, e2, e3, e4⟩
              | false =>
                have hnb : ¬ (env.includeIgnored = true ∨ ¬ (Spec.BuiltIn env.glob (mp ++ sub) ∨ Spec.LastMatchHides env.glob (Spec.rulesFor st m mp sub))) :=
                  fun h => by have := hb.2 h; cases this
                refine ⟨shown, (m :: sub) :: hid, by simpa using he, h2, List.nodup_cons.2 ⟨fun h => hnd.1 ((h5 _).1 h).1, h3⟩, fun p => ?_, fun p => ?_⟩
                · rw [h4, List.mem_cons]
                  constructor
                  · rintro ⟨h, h'⟩; exact ⟨.inr h, h'⟩
                  · rintro ⟨rfl | h, hf, m', mp', sub', e1, e2, e3, e4⟩
                    · obtain ⟨rfl, rfl, rfl⟩ := inj _ _ _ e1 e3
                      exact absurd e4 hnb
                    · exact ⟨h, hf, m', mp', sub', e1, e2, e3, e4⟩
                · rw [List.mem_cons, h5, List.mem_cons]
                  constructor
                  · rintro (rfl | ⟨h, h'⟩)
                    · exact ⟨.inl rfl, hfl, m, mp, sub, rfl, hsub, hdec, hnb⟩
                    · exact ⟨.inr h, h'⟩
                  · rintro ⟨rfl | h, h'⟩
                    · exact .inl rfl
                    · exact .inr ⟨h, h'⟩
            cases hi : env.includeIgnored with
            | true =>
              refine add c true hc ⟨fun _ => .inl hi, fun _ => rfl⟩ ?_
              simp only [countLoop, hdec, hsub, hdir, hi, if_false, if_true, Bool.false_eq_true]
            | false =>
              obtain ⟨n1, hn1⟩ := FS.mem_keys.1 hkey
              have hU : ∀ d, d <+: sub → d ≠ [] → StoredDirs env st.upper m mp d := by
                rintro d ⟨r, rfl⟩ hne
                refine ⟨hdec, ?_, hne⟩
                by_cases hr : r = []
                · subst hr; exact FS.mem_keys.2 ⟨n1, by simpa using hn1⟩
                · have := hw.ancestor (q := m :: d) hn1 ⟨r, hr, by simp⟩
                  obtain ⟨n, hn, _⟩ := FS.isDirAt_iff.1 this
                  exact FS.mem_keys.2 ⟨n, hn⟩
              obtain ⟨hdecide, hc'⟩ := isIgnored_spec (glob := env.glob) (sepU_stored hs) hc hU
              refine add (isIgnored env.glob st m mp sub c).2 (!(isIgnored env.glob st m mp sub c).1) hc' ?_ ?_
              · rw [← hdecide]
                cases (isIgnored env.glob st m mp sub c).1 <;> simp [hi]
              · simp only [countLoop, hdec, hsub, hdir, hi, if_false, Bool.false_eq_true]
                cases (isIgnored env.glob st m mp sub c).1 <;> simp

/-- **C64**: the number of entries shown before deletion is the number of files (anything but directories and links to directories) in the sandbox's storage that status
takes into account; the number of ignored ones is the number of the others.  (With `--ignored` status takes all into account.) -/
theorem C64_numbers (env : Env) (rel : Path → Bool) (st : State) (hw : st.upper.WF) (hs : Spec.SeparateMounts env st.upper) :
    ∃ shown hid : List Path, countUpper env rel st = (shown.length, hid.length) ∧ shown.Nodup ∧ hid.Nodup ∧
      (∀ p, p ∈ shown ↔ Spec.FileLike rel st p ∧ Spec.InMount env p ∧ Spec.Examined env st p) ∧
      (∀ p, p ∈ hid ↔ Spec.FileLike rel st p ∧ Spec.InMount env p ∧ ¬ Spec.Examined env st p) := by
  obtain ⟨shown, hid, h1, h2, h3, h4, h5⟩ := countLoop_spec (rel := rel) hw hs st.upper.keys [] (cacheOK_nil _ _) (fun _ h => h) hw.nodup
  have hex : ∀ m mp sub, m :: sub ∈ st.upper.keys → sub ≠ [] → env.decode m = some mp →
      (Spec.Examined env st (m :: sub) ↔ (env.includeIgnored = true ∨ ¬ (Spec.BuiltIn env.glob (mp ++ sub) ∨ Spec.LastMatchHides env.glob (Spec.rulesFor st m mp sub)))) := by
    intro m mp sub hk hne hd
    cases hi : env.includeIgnored with
    | true =>
      refine ⟨fun _ => .inl rfl, fun _ => ?_⟩
      have : m :: sub ∈ (upperEntries env st).map (·.upperPath) := by
        rw [C25_ignored_shows_all env st hi, List.mem_filter]
        refine ⟨hk, ?_⟩
        cases sub with
        | nil => exact absurd rfl hne
        | cons x r => simp [hd]
      obtain ⟨ue, hu, he⟩ := List.mem_map.1 this
      exact ⟨ue, hu, he⟩
    | false =>
      have hks := keepLoop_spec hw hs hi st.upper.keys [] (cacheOK_nil _ _) (fun _ h => h)
      constructor
      · rintro ⟨ue, hu, he⟩
        obtain ⟨m', mp', sub', hkp, hup⟩ := mem_upperEntries hu
        rw [hup.upperPath] at he
        cases he
        have hdd := hup.decode
        rw [hd] at hdd; cases hdd
        have := (hks m mp sub).1 hkp
        exact .inr (fun h => h.elim this.2.2.2.1 this.2.2.2.2)
      · rintro (h | h)
        · cases h
        · obtain ⟨n, hn⟩ := FS.mem_keys.1 hk
          have hkp : (m, mp, sub) ∈ kept env st := (hks m mp sub).2 ⟨hk, hd, hne, fun x => h (.inl x), fun x => h (.inr x)⟩
          obtain ⟨ue, hu, hup, _⟩ := upperEntries_of_kept hkp hn
          exact ⟨ue, hu, hup.upperPath⟩
  have hkey : ∀ p, Spec.FileLike rel st p → p ∈ st.upper.keys := fun p ⟨n, hn, _⟩ => FS.mem_keys.2 ⟨n, hn⟩
  refine ⟨shown, hid, h1, h2, h3, fun p => ?_, fun p => ?_⟩
  · rw [h4]
    constructor
    · rintro ⟨hk, hf, m, mp, sub, rfl, hne, hd, hc⟩
      exact ⟨hf, ⟨m, mp, sub, rfl, hne, hd⟩, (hex m mp sub hk hne hd).2 hc⟩
    · rintro ⟨hf, ⟨m, mp, sub, rfl, hne, hd⟩, he⟩
      exact ⟨hkey _ hf, hf, m, mp, sub, rfl, hne, hd, (hex m mp sub (hkey _ hf) hne hd).1 he⟩
  · rw [h5]
    constructor
    · rintro ⟨hk, hf, m, mp, sub, rfl, hne, hd, hc⟩
      exact ⟨hf, ⟨m, mp, sub, rfl, hne, hd⟩, fun he => hc ((hex m mp sub hk hne hd).1 he)⟩
    · rintro ⟨hf, ⟨m, mp, sub, rfl, hne, hd⟩, he⟩
      exact ⟨hkey _ hf, hf, m, mp, sub, rfl, hne, hd, fun hc => he ((hex m mp sub (hkey _ hf) hne hd).2 hc)⟩

/-- **C64 (partial)**: "0 entries, 0 ignored" means that nothing but directories and links to directories is lost: every change status can show for this sandbox (with
`--ignored`) is the creation or modification of one of these. -/
theorem C64_nothing_lost_partial (env : Env) (rel : Path → Bool) (st : State) (hw : st.upper.WF) (hs : Spec.SeparateMounts env st.upper) (h : countUpper env rel st = (0, 0))
    (e : Entry) (s : Details) (he : e ∈ changes env st) (hst : e.staged = some s) : ¬ Spec.FileLike rel st s.path := by
  obtain ⟨shown, hid, h1, _, _, h4, h5⟩ := C64_numbers env rel st hw hs
  rw [h1, Prod.mk.injEq, List.length_eq_zero_iff, List.length_eq_zero_iff] at h
  intro hf
  obtain ⟨ue, hu, h'⟩ := mem_changes.1 he
  obtain ⟨m, mp, sub, hk, hup⟩ := mem_upperEntries hu
  have hpath : s.path = ue.upperPath := by
    rcases h' with h' | h'
    · obtain ⟨sp, _, _, _, _, hc, _⟩ := mem_removesOf h'
      rcases hc with ⟨_, _, _, hc⟩ | ⟨_, _, _, hc⟩
      · rw [hst] at hc
        split at hc
        · cases hc; rfl
        · cases hc
      · rw [hst] at hc; cases hc; rfl
    · obtain ⟨_, _, hc, _⟩ := mem_setsOf h'
      rw [hst] at hc; cases hc; rfl
  have hin : Spec.InMount env s.path := ⟨m, mp, sub, by rw [hpath, hup.upperPath], (mem_kept hk).2.2, hup.decode⟩
  by_cases hx : Spec.Examined env st s.path
  · have := (h4 s.path).2 ⟨hf, hin, hx⟩
    rw [h.1] at this; cases this
  · have := (h5 s.path).2 ⟨hf, hin, hx⟩
    rw [h.2] at this; cases this

theorem split_digits {a a' d d' : Str} {c : Char} (hc : c.isDigit = false) (hd : ∀ x ∈ d, x.isDigit = true) (hd' : ∀ x ∈ d', x.isDigit = true) (h : a ++ c :: d = a' ++ c :: d') :
    a = a' ∧ d = d' := by
  have key : ∀ (a d : Str), (∀ x ∈ d, x.isDigit = true) → (a ++ c :: d).reverse.takeWhile Char.isDigit = d.reverse := by
    intro a d hd
    rw [List.reverse_append, List.reverse_cons, List.append_assoc, List.takeWhile_append_of_pos (by simpa using hd)]
    simp [hc]
  have h2 : d.reverse = d'.reverse := by rw [← key a d hd, ← key a' d' hd', h]
  have h3 : d = d' := List.reverse_injective h2
  subst h3
  exact ⟨List.append_cancel_right h, rfl⟩

theorem digits_toString (n : Nat) : ∀ x ∈ (toString n).toList, x.isDigit = true := by
  intro x hx
  have e : (toString n).toList = Nat.toDigits 10 n := Nat.toList_repr
  rw [e] at hx
  exact Nat.isDigit_of_mem_toDigits (by decide) (by decide) hx

/-- **C64**: the line says whether the sandbox runs, its name and the two numbers, and whatever the name is, it is a line for no other name, state or numbers. -/
theorem C64_question (r r' : Bool) (name name' : Name) (n n' : Nat × Nat) (h : deleteLine r name n = deleteLine r' name' n') : r = r' ∧ name = name' ∧ n = n' := by
  unfold deleteLine at h
  have h1 := List.append_cancel_right h
  have e1 : str " entries, " = str " entries," ++ [' '] := rfl
  have e2 : str " (" = str " " ++ ['('] := rfl
  rw [e1, ← List.append_assoc, ← List.append_assoc, List.append_assoc _ [' '], List.append_assoc _ [' ']] at h1
  obtain ⟨h2, h3⟩ := split_digits (c := ' ') (by decide) (digits_toString _) (digits_toString _) h1
  have h4 := List.append_cancel_right h2
  rw [e2, ← List.append_assoc, ← List.append_assoc, List.append_assoc _ ['('], List.append_assoc _ ['(']] at h4
  obtain ⟨h5, h6⟩ := split_digits (c := '(') (by decide) (digits_toString _) (digits_toString _) h4
  have h7 := List.append_cancel_right h5
  have h8 : r = r' ∧ name = name' := by
    cases r <;> cases r' <;> simp [str] at h7 ⊢ <;> exact h7
  exact ⟨h8.1, h8.2, Prod.ext (toString_inj h6) (toString_inj h3)⟩

/-- **C64, words**: the line of a sandbox begins with `running` or `stopped`, as it is, and its name. -/
theorem C64_words (r : Bool) (name : Name) (n : Nat × Nat) :
    (str "  running " ++ name ++ str " (" <+: deleteLine r name n ↔ r = true) ∧ (str "  stopped " ++ name ++ str " (" <+: deleteLine r name n ↔ r = false) := by
  unfold deleteLine
  cases r <;> refine ⟨?_, ?_⟩ <;> simp [str, List.cons_prefix_cons]

/-- A sandbox in which a file was changed, one below `/tmp` was created (ignored), and a directory with a file was created. -/
def exCount : State :=
  ⟨[([], { kind := .dir }), ([str "d"], { kind := .dir }), ([str "d", str "f"], { kind := .reg [] }), ([str "tmp"], { kind := .dir })],
   [([], { kind := .dir }), ([str "F4"], { kind := .dir }), ([str "F4", str "d"], { kind := .dir }), ([str "F4", str "d", str "f"], { kind := .reg (str "x") }),
    ([str "F4", str "d", str "n"], { kind := .dir }), ([str "F4", str "d", str "n", str "g"], { kind := .reg (str "y") }),
    ([str "F4", str "tmp"], { kind := .dir }), ([str "F4", str "tmp", str "t"], { kind := .reg [] })]⟩

def exCountEnv : Env := { exEnv with
  cwd := []
  glob := globRef
  includeIgnored := false }

/-- Non-vacuity. -/
example : exCount.upper.WF ∧ Spec.SeparateMounts exCountEnv exCount.upper ∧ countUpper exCountEnv (fun _ => false) exCount = (2, 1) ∧
    countUpper { exCountEnv with includeIgnored := true } (fun _ => false) exCount = (3, 0) ∧
    deleteLine false (str "sb") (2, 1) = str "  stopped sb (2 entries, 1 ignored)" := by
  refine ⟨by decide +kernel, ?_, by decide +kernel, by decide +kernel, by decide +kernel⟩
  intro m m' d d' mp mp' _ _ h h' _ _ _
  simp only [exCountEnv, exEnv] at h h'
  split at h
  · split at h'
    · next h1 h2 => rw [h1, h2]
    · cases h'
  · cases h

/-- **C64 refuted** as "zero entries, nothing to lose": a new symbolic link to a directory is not counted, nor is a directory that was deleted and made again (empty). -/
theorem C64_refuted :
    (let st : State := ⟨exCount.lower, [([], { kind := .dir }), ([str "F4"], { kind := .dir }), ([str "F4", str "d"], { kind := .dir }),
      ([str "F4", str "d", str "l"], { kind := .lnk (str "/tmp") })]⟩
     st.upper.WF ∧ countUpper exCountEnv (fun _ => false) st = (0, 0) ∧ ∃ e ∈ changes exCountEnv st, e.op = .set .create ∧ e.dest = [str "d", str "l"]) ∧
    (let st : State := ⟨exCount.lower, [([], { kind := .dir }), ([str "F4"], { kind := .dir }), ([str "F4", str "d"], { kind := .dir, opq := true })]⟩
     st.upper.WF ∧ countUpper exCountEnv (fun _ => false) st = (0, 0) ∧ ∃ e ∈ changes exCountEnv st, e.op = .remove ∧ e.dest = [str "d", str "f"]) := by decide +kernel

end SB
