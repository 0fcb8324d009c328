import Verif.Model.RawNames
import Verif.Props.Decode
import Verif.Props.View

/-!
# C77: names that are not text

Specification: a file name is text if it is the UTF-8 encoding of some string.
-/

namespace SB

/-- The name is the UTF-8 encoding of a string. -/
def Spec.IsText (n : RawName) : Prop := ∃ t : Str, n = utf8 t

/-- The storage has an entry at `p`, strictly below the directory of a mount. -/
def Spec.StoredAt (env : Env) (st : RawState) (p : RawPath) : Prop :=
  p ∈ st.store.map Prod.fst ∧ ∃ (t : Str) (mp : Path) (sub : RawPath), p = utf8 t :: sub ∧ env.decode t = some mp ∧ sub ≠ []

/-- The storage of text names, as it is on the disk. -/
def Spec.onDisk (fs : FS) : RawStore := fs.map (fun e => (e.1.map utf8, e.2))

theorem utf8Decode_iff (n : RawName) (t : Str) : utf8Decode n = some t ↔ n = utf8 t := by
  constructor
  · intro h
    exact (utf8_exact _ _ _ (Nat.le_refl _) h).symm
  · rintro rfl
    exact utf8_roundtrip t

theorem lossyN_char (k : Nat) (c : Char) (r : List Nat) : lossyN (k + 1) (utf8Char c ++ r) = c :: lossyN k r := by
  obtain ⟨h1, h2⟩ := char_range c
  have hofNat : Char.ofNat c.toNat = c := Char.ofNat_toNat c
  unfold utf8Char
  simp only
  split
  · next h => rw [List.singleton_append, lossyN.eq_def]; simp only; rw [if_pos h, hofNat]
  · split
    · next h0 h =>
      have e1 : (0xC0 + c.toNat / 64 - 0xC0) * 64 + (0x80 + c.toNat % 64 - 0x80) = c.toNat := by omega
      have e2 : isCont (0x80 + c.toNat % 64) = true := by simp [isCont]; omega
      simp only [List.cons_append, List.nil_append]
      rw [lossyN.eq_def]; dsimp only; rw [if_neg (by omega), if_pos (by omega), if_pos e2, e1, hofNat]
    · split
      · next h0 h3 h =>
        have e1 : (0xE0 + c.toNat / 4096 - 0xE0) * 4096 + (0x80 + c.toNat / 64 % 64 - 0x80) * 64 + (0x80 + c.toNat % 64 - 0x80) = c.toNat := by omega
        have e2 : isCont (0x80 + c.toNat % 64) = true := by simp [isCont]; omega
        have e3 : isCont (0x80 + c.toNat / 64 % 64) = true := by simp [isCont]; omega
        simp only [List.cons_append, List.nil_append]
        rw [lossyN.eq_def]; dsimp only; rw [if_neg (by omega), if_neg (by omega), if_pos (by omega)]
        rw [if_pos (by simp only [e3, Bool.true_and, Bool.and_eq_true, Bool.or_eq_true, bne_iff_ne, decide_eq_true_eq]; omega), if_pos e2, e1, hofNat]
      · next h0 h3 h =>
        have e1 : (0xF0 + c.toNat / 262144 - 0xF0) * 262144 + (0x80 + c.toNat / 4096 % 64 - 0x80) * 4096 + (0x80 + c.toNat / 64 % 64 - 0x80) * 64 +
          (0x80 + c.toNat % 64 - 0x80) = c.toNat := by omega
        have e2 : isCont (0x80 + c.toNat % 64) = true := by simp [isCont]; omega
        have e3 : isCont (0x80 + c.toNat / 64 % 64) = true := by simp [isCont]; omega
        have e4 : isCont (0x80 + c.toNat / 4096 % 64) = true := by simp [isCont]; omega
        simp only [List.cons_append, List.nil_append]
        rw [lossyN.eq_def]; dsimp only; rw [if_neg (by omega), if_neg (by omega), if_neg (by omega), if_pos (by omega)]
        rw [if_pos (by simp only [e4, Bool.true_and, Bool.and_eq_true, Bool.or_eq_true, bne_iff_ne, decide_eq_true_eq]; omega), if_pos e3, if_pos e2, e1, hofNat]

/-- Text stays what it is. -/
theorem lossy_text (t : Str) : lossyChunks (utf8 t) = t ∧ lossy (utf8 t) = utf8 t := by
  have hpos : ∀ c : Char, 1 ≤ (utf8Char c).length := by intro c; unfold utf8Char; dsimp only; split_ifs <;> simp
  have key : ∀ (t : Str) (k : Nat), (utf8 t).length ≤ k → lossyN k (utf8 t) = t := by
    intro t
    induction t with
    | nil => intro k _; cases k <;> rfl
    | cons c t ih =>
      intro k hk
      have hc : utf8 (c :: t) = utf8Char c ++ utf8 t := by simp [utf8]
      rw [hc, List.length_append] at hk
      have := hpos c
      obtain ⟨k, rfl⟩ : ∃ j, k = j + 1 := ⟨k - 1, by omega⟩
      rw [hc, lossyN_char, ih k (by omega)]
  refine ⟨key t _ le_rfl, ?_⟩
  unfold lossy
  rw [(utf8Decode_iff _ _).2 rfl]

/-- Only text stays what it is. -/
theorem lossy_iff (n : RawName) : lossy n = n ↔ Spec.IsText n := by
  constructor
  · intro h
    unfold lossy at h
    cases hd : utf8Decode n with
    | some t => exact ⟨t, (utf8Decode_iff _ _).1 hd⟩
    | none => rw [hd] at h; exact ⟨_, h.symm⟩
  · rintro ⟨t, rfl⟩
    exact (lossy_text t).2

theorem textPath_iff : ∀ (p : RawPath) (q : Path), textPath p = some q ↔ p = q.map utf8
  | [], q => by
    constructor
    · intro h
      cases h
      rfl
    · intro h
      cases q with
      | nil => rfl
      | cons a q => simp at h
  | n :: p, q => by
    unfold textPath
    constructor
    · intro h
      cases hn : utf8Decode n with
      | none => simp [hn] at h
      | some t =>
        cases hp : textPath p with
        | none => simp [hn, hp] at h
        | some r =>
          simp only [hn, hp, Option.some.injEq] at h
          subst h
          rw [(utf8Decode_iff n t).1 hn, (textPath_iff p r).1 hp]
          rfl
    · intro h
      cases q with
      | nil => simp at h
      | cons t q =>
        simp only [List.map_cons, List.cons.injEq] at h
        rw [(utf8Decode_iff n t).2 h.1, (textPath_iff p q).2 h.2]

theorem textPath_none {p : RawPath} : textPath p = none ↔ ¬ ∀ n ∈ p, Spec.IsText n := by
  constructor
  · intro h hall
    have : ∃ q : Path, p = q.map utf8 := by
      clear h
      induction p with
      | nil => exact ⟨[], rfl⟩
      | cons n p ih =>
        obtain ⟨t, ht⟩ := hall n (by simp)
        obtain ⟨q, hq⟩ := ih (fun n hn => hall n (by simp [hn]))
        exact ⟨t :: q, by simp [ht, hq]⟩
    obtain ⟨q, hq⟩ := this
    rw [(textPath_iff p q).2 hq] at h
    cases h
  · intro h
    cases ht : textPath p with
    | none => rfl
    | some q =>
      refine absurd ?_ h
      rw [(textPath_iff p q).1 ht]
      intro n hn
      obtain ⟨t, -, rfl⟩ := List.mem_map.1 hn
      exact ⟨t, rfl⟩

theorem rawDecode_iff {env : Env} {m : RawName} : (∃ mp, rawDecode env m = some mp) ↔ ∃ t mp, m = utf8 t ∧ env.decode t = some mp := by
  unfold rawDecode
  constructor
  · rintro ⟨mp, h⟩
    cases hm : utf8Decode m with
    | none => simp [hm] at h
    | some t =>
      rw [hm] at h
      exact ⟨t, mp, (utf8Decode_iff m t).1 hm, h⟩
  · rintro ⟨t, mp, h, hd⟩
    exact ⟨mp, by rw [(utf8Decode_iff m t).2 h]; exact hd⟩

theorem rawScan_fine (env : Env) (store : RawStore) : ∀ ks : RawStore,
    (∀ m sub n, (m :: sub, n) ∈ ks → (∃ mp, rawDecode env m = some mp) → sub ≠ [] → textPath (m :: sub) ≠ none) → rawScan env store ks = .fine
  | [], _ => rfl
  | ([], n) :: ks, h => by
    rw [rawScan]
    exact rawScan_fine env store ks (fun m sub n hm => h m sub n (by simp [hm]))
  | (m :: sub, n) :: ks, h => by
    have ih := rawScan_fine env store ks (fun m sub n hm => h m sub n (by simp [hm]))
    rw [rawScan]
    cases hd : rawDecode env m with
    | none => exact ih
    | some mp =>
      simp only
      split
      · exact ih
      · rename_i hs
        cases ht : textPath (m :: sub) with
        | none => exact absurd ht (h m sub n (by simp) ⟨mp, hd⟩ hs)
        | some q => exact ih

/-- One entry that is not text stops the loop, wherever it is; nothing else does. -/
theorem rawScan_stops (env : Env) (store : RawStore) (r : Scan)
    (hr : ∀ p : RawPath, textPath p = none → (if env.includeIgnored then if p.map lossy ∈ store.map Prod.fst then Scan.otherFile else .failed else .panicked) = r ∨ p ∉ store.map Prod.fst) :
    ∀ ks : RawStore, (∀ e ∈ ks, e ∈ store) →
    (∃ m sub n, (m :: sub, n) ∈ ks ∧ (∃ mp, rawDecode env m = some mp) ∧ sub ≠ [] ∧ textPath (m :: sub) = none) → rawScan env store ks = r
  | [], _, h => by
    obtain ⟨_, _, _, h, _⟩ := h
    simp at h
  | ([], n) :: ks, hin, h => by
    rw [rawScan]
    obtain ⟨m, sub, n', hm, h⟩ := h
    exact rawScan_stops env store r hr ks (fun e he => hin e (by simp [he])) ⟨m, sub, n', by simpa using hm, h⟩
  | (m :: sub, n) :: ks, hin, h => by
    have ih := rawScan_stops env store r hr ks (fun e he => hin e (by simp [he]))
    obtain ⟨m', sub', n', hm, hd, hs, ht⟩ := h
    have step : ¬ (m' = m ∧ sub' = sub) → rawScan env store ks = r := by
      intro hne
      refine ih ⟨m', sub', n', ?_, hd, hs, ht⟩
      rcases List.mem_cons.1 hm with e | e
      · cases e
        exact absurd ⟨rfl, rfl⟩ hne
      · exact e
    rw [rawScan]
    by_cases he : m' = m ∧ sub' = sub
    · obtain ⟨rfl, rfl⟩ := he
      obtain ⟨mp, hd⟩ := hd
      rw [hd]
      simp only
      rw [if_neg hs, ht]
      rcases hr _ ht with h | h
      · exact h
      · exact absurd (List.mem_map.2 ⟨_, hin _ List.mem_cons_self, rfl⟩) h
    · have := step he
      cases hd2 : rawDecode env m with
      | none => exact this
      | some mp =>
        simp only
        split
        · exact this
        · rename_i hs2
          cases ht2 : textPath (m :: sub) with
          | some q => exact this
          | none =>
            rcases hr _ ht2 with h | h
            · exact h
            · exact absurd (List.mem_map.2 ⟨_, hin _ List.mem_cons_self, rfl⟩) h

/-- **C77**, names that are text: if every name stored below the mounts' directories is text, every action works on the storage as text, so that all the other theorems apply. -/
theorem C77_text (env : Env) (st : RawState) (h : ∀ p, Spec.StoredAt env st p → ∀ n ∈ p, Spec.IsText n) :
    rawStatus env st = .done (status env st.text) ∧ rawDiff env st = .done (diff env st.text) ∧
    rawAccept env st = .done (accept env st.text) ∧ rawReject env st = .done (reject env st.text) := by
  have hf : rawScan env st.store st.store = .fine := by
    apply rawScan_fine
    intro m sub n hm hd hs ht
    obtain ⟨t, mp, hm', hd⟩ := rawDecode_iff.1 hd
    exact textPath_none.1 ht (h _ ⟨List.mem_map.2 ⟨_, hm, rfl⟩, t, mp, sub, by rw [hm'], hd, hs⟩)
  simp [rawStatus, rawDiff, rawAccept, rawReject, onChanges, hf]

/-- The storage of text names is read back as it is. -/
theorem C77_onDisk (fs : FS) : textStore (Spec.onDisk fs) = fs := by
  unfold textStore Spec.onDisk
  rw [List.filterMap_map]
  have : ∀ e : Path × Node, ((fun e : RawPath × Node => (textPath e.1).map (fun q => (q, e.2))) ∘ fun e : Path × Node => (e.1.map utf8, e.2)) e = some e := by
    intro e
    simp [(textPath_iff (e.1.map utf8) e.1).2 rfl]
  rw [List.filterMap_congr (fun e _ => this e)]
  simp

/-- **C77**, without `--ignored`: a single stored entry whose name is not text, anywhere in the sandbox and whatever the patterns, makes every action panic before it has done or shown
anything. -/
theorem C77_stops (env : Env) (st : RawState) (hi : env.includeIgnored = false) (p : RawPath) (hp : Spec.StoredAt env st p) (h : ¬ ∀ n ∈ p, Spec.IsText n) :
    rawStatus env st = .panicked ∧ rawDiff env st = .panicked ∧ rawAccept env st = .panicked ∧ rawReject env st = .panicked := by
  obtain ⟨hmem, t, mp, sub, rfl, hd, hs⟩ := hp
  obtain ⟨⟨q, n⟩, hq, rfl⟩ := List.mem_map.1 hmem
  have hf : rawScan env st.store st.store = .panicked := by
    refine rawScan_stops env st.store .panicked (fun p _ => Or.inl (by rw [hi]; rfl)) _ (fun e he => he) ⟨utf8 t, sub, n, hq, rawDecode_iff.2 ⟨t, mp, rfl, hd⟩, hs, ?_⟩
    exact textPath_none.2 h
  simp [rawStatus, rawDiff, rawAccept, rawReject, onChanges, hf]

/-- **C77**, with `--ignored`: the same, with an error, unless a stored file happens to have the name with the replacement characters. -/
theorem C77_stops_ignored (env : Env) (st : RawState) (hi : env.includeIgnored = true) (p : RawPath) (hp : Spec.StoredAt env st p) (h : ¬ ∀ n ∈ p, Spec.IsText n)
    (hl : ∀ q ∈ st.store.map Prod.fst, (¬ ∀ n ∈ q, Spec.IsText n) → q.map lossy ∉ st.store.map Prod.fst) :
    rawStatus env st = .failed ∧ rawDiff env st = .failed ∧ rawAccept env st = .failed ∧ rawReject env st = .failed := by
  obtain ⟨hmem, t, mp, sub, rfl, hd, hs⟩ := hp
  obtain ⟨⟨q, n⟩, hq, rfl⟩ := List.mem_map.1 hmem
  have hf : rawScan env st.store st.store = .failed := by
    refine rawScan_stops env st.store .failed (fun p hp => ?_) _ (fun e he => he) ⟨utf8 t, sub, n, hq, rawDecode_iff.2 ⟨t, mp, rfl, hd⟩, hs, ?_⟩
    · by_cases hm : p ∈ st.store.map Prod.fst
      · left
        rw [hi, if_pos rfl, if_neg (hl p hm (textPath_none.1 hp))]
      · exact Or.inr hm
    · exact textPath_none.2 h
  simp [rawStatus, rawDiff, rawAccept, rawReject, onChanges, hf]

/-- **C77**, `delete` without `--force`: a stored entry whose name is not text and which is not a directory makes the question panic; nothing is deleted.  Nothing else does. -/
theorem C77_question (env : Env) (dir : RawPath → Bool) (st : RawState) :
    (rawCountScan env dir st.store = .panicked ↔ env.includeIgnored = false ∧ ∃ p, Spec.StoredAt env st p ∧ dir p = false ∧ ¬ ∀ n ∈ p, Spec.IsText n) ∧
    (rawCountScan env dir st.store = .panicked ∨ rawCountScan env dir st.store = .fine) := by
  have key : ∀ ks : RawStore,
      (rawCountScan env dir ks = .panicked ↔ env.includeIgnored = false ∧
        ∃ m sub n, (m :: sub, n) ∈ ks ∧ (∃ mp, rawDecode env m = some mp) ∧ sub ≠ [] ∧ dir (m :: sub) = false ∧ textPath (m :: sub) = none) ∧
      (rawCountScan env dir ks = .panicked ∨ rawCountScan env dir ks = .fine) := by
    intro ks
    induction ks with
    | nil => simp [rawCountScan]
    | cons e ks ih =>
      obtain ⟨p, n⟩ := e
      cases p with
      | nil => simpa [rawCountScan] using ih
      | cons m sub =>
        rw [rawCountScan]
        have skip : (¬ ((∃ mp, rawDecode env m = some mp) ∧ sub ≠ [] ∧ dir (m :: sub) = false ∧ textPath (m :: sub) = none ∧ env.includeIgnored = false)) →
            (rawCountScan env dir ks = .panicked ↔ env.includeIgnored = false ∧
              ∃ m' sub' n', (m' :: sub', n') ∈ (m :: sub, n) :: ks ∧ (∃ mp, rawDecode env m' = some mp) ∧ sub' ≠ [] ∧ dir (m' :: sub') = false ∧ textPath (m' :: sub') = none) ∧
            (rawCountScan env dir ks = .panicked ∨ rawCountScan env dir ks = .fine) := by
          intro hno
          refine ⟨?_, ih.2⟩
          rw [ih.1]
          constructor
          · rintro ⟨hi, m', sub', n', hm, h⟩
            exact ⟨hi, m', sub', n', List.mem_cons_of_mem _ hm, h⟩
          · rintro ⟨hi, m', sub', n', hm, hd, hs, hdir, ht⟩
            rcases List.mem_cons.1 hm with e | e
            · cases e
              exact absurd ⟨hd, hs, hdir, ht, hi⟩ hno
            · exact ⟨hi, m', sub', n', e, hd, hs, hdir, ht⟩
        cases hd : rawDecode env m with
        | none => exact skip (fun h => by simp [hd] at h)
        | some mp =>
          simp only
          split
          · rename_i hs
            exact skip (fun h => h.2.1 hs)
          · rename_i hs
            split
            · rename_i hdir
              exact skip (fun h => by rw [h.2.2.1] at hdir; cases hdir)
            · rename_i hdir
              split
              · rename_i hi
                exact skip (fun h => by rw [h.2.2.2.2] at hi; cases hi)
              · rename_i hi
                cases ht : textPath (m :: sub) with
                | some q => exact skip (fun h => by rw [h.2.2.2.1] at ht; cases ht)
                | none =>
                  simp only [true_or, and_true, true_iff]
                  exact ⟨by simpa using hi, m, sub, n, by simp, ⟨mp, hd⟩, hs, by simpa using hdir, ht⟩
  obtain ⟨h1, h2⟩ := key st.store
  refine ⟨h1.trans ?_, h2⟩
  constructor
  · rintro ⟨hi, m, sub, n, hm, hd, hs, hdir, ht⟩
    obtain ⟨t, mp, rfl, hd'⟩ := rawDecode_iff.1 hd
    exact ⟨hi, _, ⟨List.mem_map.2 ⟨_, hm, rfl⟩, t, mp, sub, rfl, hd', hs⟩, hdir, textPath_none.1 ht⟩
  · rintro ⟨hi, p, ⟨hm, t, mp, sub, rfl, hd, hs⟩, hdir, ht⟩
    obtain ⟨⟨q, n⟩, hq, rfl⟩ := List.mem_map.1 hm
    exact ⟨hi, utf8 t, sub, n, hq, rawDecode_iff.2 ⟨t, mp, rfl, hd⟩, hs, hdir, textPath_none.2 ht⟩

/-! ### A file called `\xFF` -/

/-- Two new files in the sandbox: `/x` and one whose name is the byte FF; next to them, on the disk, a directory that is not a mount's. -/
def exRaw : RawState := ⟨exHost,
  [([], { kind := .dir }), ([utf8 (str "F4")], { kind := .dir }), ([utf8 (str "F4"), utf8 (str "x")], { kind := .reg (str "1") }),
   ([utf8 (str "F4"), [0xFF]], { kind := .reg (str "2") }), ([utf8 (str "lost+found")], { kind := .dir }), ([utf8 (str "lost+found"), [0xFE]], { kind := .dir })]⟩

/-- The same without the file `\xFF`. -/
def exRawText : RawState := ⟨exHost, exRaw.store.eraseIdx 3⟩

/-- Everything is selected; ignore rules count. -/
def exRawEnv : Env := { exViewEnv with includeIgnored := false, glob := globRef }

/-- Only `/x` is selected. -/
def exRawEnvX : Env := { exRawEnv with patterns := [str "/x"] }

theorem not_isText_ff : ¬ Spec.IsText [0xFF] := by
  rintro ⟨t, ht⟩
  have := (utf8Decode_iff [0xFF] t).2 ht
  revert this
  rw [show utf8Decode [0xFF] = none from by decide +kernel]
  simp

/-- **C77 refuted**: one file with a name that is not text, and the changes can neither be listed nor accepted nor rejected, not even those of other files; with `--ignored` it is an error
instead of a panic. Without it everything works. -/
theorem C77_refuted_name :
    Spec.StoredAt exRawEnv exRaw [utf8 (str "F4"), [0xFF]] ∧
    rawStatus exRawEnv exRaw = .panicked ∧ rawAccept exRawEnvX exRaw = .panicked ∧
    rawStatus exViewEnv exRaw = .failed ∧
    rawStatus exRawEnv exRawText = .done (status exRawEnv exRawText.text) ∧ (status exRawEnv exRawText.text).1.map Entry.dest = [[str "x"]] := by
  have hs : Spec.StoredAt exRawEnv exRaw [utf8 (str "F4"), [0xFF]] := ⟨by decide +kernel, str "F4", [], [[0xFF]], rfl, by decide +kernel, by decide⟩
  have hn : ¬ ∀ n ∈ [utf8 (str "F4"), [0xFF]], Spec.IsText n := fun h => not_isText_ff (h _ (List.mem_cons_of_mem _ List.mem_cons_self))
  have hf : rawScan exRawEnv exRawText.store exRawText.store = .fine := by decide +kernel
  have hfail : rawScan exViewEnv exRaw.store exRaw.store = .failed := by decide +kernel
  refine ⟨hs, (C77_stops exRawEnv exRaw (by decide +kernel) _ hs hn).1, ?_, ?_, ?_, by decide +kernel⟩
  · have hs' : Spec.StoredAt exRawEnvX exRaw [utf8 (str "F4"), [0xFF]] := ⟨by decide +kernel, str "F4", [], [[0xFF]], rfl, by decide +kernel, by decide⟩
    exact (C77_stops exRawEnvX exRaw (by decide +kernel) _ hs' hn).2.2.1
  · unfold rawStatus onChanges
    rw [hfail]
  · unfold rawStatus onChanges
    rw [hf]

/-- The hypotheses of `C77_stops`, `C77_stops_ignored` are met by `exRaw`, those of `C77_text` by `exRawText`. -/
example : ¬ ∀ n ∈ [utf8 (str "F4"), [0xFF]], Spec.IsText n := fun h => not_isText_ff (h _ (List.mem_cons_of_mem _ List.mem_cons_self))

example : rawScan exRawEnv exRawText.store exRawText.store = .fine := by decide +kernel

example : ∀ q ∈ exRaw.store.map Prod.fst, q.map lossy ∉ exRaw.store.map Prod.fst ∨ textPath q ≠ none := by decide +kernel

example : rawCountScan exRawEnv (fun _ => false) exRaw.store = .panicked ∧ rawCountScan exRawEnv (fun _ => false) exRawText.store = .fine := by decide +kernel

/-- The name of the file that is asked instead. -/
example : lossy [0x61, 0xE2, 0x82, 0xFF, 0x62] = utf8 ['a', replChar, replChar, 'b'] := by decide +kernel

end SB
