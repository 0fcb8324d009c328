import Verif.Model.RawList
import Verif.Props.RawNames
import Verif.Props.StopAll
import Verif.Props.List

/-!
# C91: `list` and `stop` whatever names the files in the storage directory have; C92: what is offered on the command line
-/

namespace SB

/-- One step of the decoder: an ASCII byte is kept; otherwise some bytes, none of them ASCII, become one character that is not ASCII. -/
theorem lossy_step (k : Nat) (l : List Nat) (hl : l ≠ []) : ∃ (c : Char) (u r : List Nat), l = u ++ r ∧ lossyN (k + 1) l = c :: lossyN k r ∧
    ((∃ a, u = [a] ∧ a < 0x80 ∧ c = Char.ofNat a) ∨ (u ≠ [] ∧ (∀ b ∈ u, 0x80 ≤ b) ∧ 0x80 ≤ c.toNat)) := by
  have hrep : 0x80 ≤ replChar.toNat := by decide
  have hnil : ∀ k, lossyN k [] = [] := fun k => by cases k <;> rfl
  have hcont : ∀ b, isCont b = true → 0x80 ≤ b ∧ b < 0xC0 := fun b h => by simpa [isCont] using h
  cases l with
  | nil => exact absurd rfl hl
  | cons a r =>
    have stray : ∀ r, 0x80 ≤ a → lossyN (k + 1) (a :: r) = replChar :: lossyN k r → ∃ (c : Char) (u r' : List Nat), a :: r = u ++ r' ∧ lossyN (k + 1) (a :: r) = c :: lossyN k r' ∧
        ((∃ a, u = [a] ∧ a < 0x80 ∧ c = Char.ofNat a) ∨ (u ≠ [] ∧ (∀ b ∈ u, 0x80 ≤ b) ∧ 0x80 ≤ c.toNat)) :=
      fun r ha h => ⟨_, [a], r, rfl, h, .inr ⟨by simp, by simpa using ha, hrep⟩⟩
    by_cases h0 : a < 0x80
    · exact ⟨_, [a], r, rfl, by rw [lossyN.eq_def]; dsimp only; rw [if_pos h0], .inl ⟨a, rfl, h0, rfl⟩⟩
    by_cases h1 : 0xC2 ≤ a ∧ a ≤ 0xDF
    · cases r with
      | nil => exact stray [] (by omega) (by rw [lossyN.eq_def]; dsimp only; rw [if_neg h0, if_pos h1, hnil])
      | cons b r1 =>
        by_cases hb : isCont b = true
        · obtain ⟨b1, b2⟩ := hcont b hb
          refine ⟨_, [a, b], r1, rfl, by rw [lossyN.eq_def]; dsimp only; rw [if_neg h0, if_pos h1, if_pos hb], .inr ⟨by simp, ?_, ?_⟩⟩
          · intro x hx; simp only [List.mem_cons, List.not_mem_nil, or_false] at hx; omega
          · rw [toNat_ofNat (by omega) (by omega)]; omega
        · exact stray (b :: r1) (by omega) (by rw [lossyN.eq_def]; dsimp only; rw [if_neg h0, if_pos h1, if_neg hb])
    by_cases h2 : 0xE0 ≤ a ∧ a ≤ 0xEF
    · cases r with
      | nil => exact stray [] (by omega) (by rw [lossyN.eq_def]; dsimp only; rw [if_neg h0, if_neg h1, if_pos h2, hnil])
      | cons b r1 =>
        by_cases hb : (isCont b && (a != 0xE0 || 0xA0 ≤ b) && (a != 0xED || b < 0xA0)) = true
        · have hb' := hb
          simp only [Bool.and_eq_true, Bool.or_eq_true, bne_iff_ne, decide_eq_true_eq] at hb'
          obtain ⟨b1, b2⟩ := hcont b hb'.1.1
          have hone : ∀ x ∈ [a, b], 0x80 ≤ x := by intro x hx; simp only [List.mem_cons, List.not_mem_nil, or_false] at hx; omega
          cases r1 with
          | nil =>
            exact ⟨replChar, [a, b], [], rfl, by rw [lossyN.eq_def]; dsimp only; rw [if_neg h0, if_neg h1, if_pos h2, if_pos hb, hnil], .inr ⟨by simp, hone, hrep⟩⟩
          | cons c r2 =>
            by_cases hc : isCont c = true
            · obtain ⟨c1, c2⟩ := hcont c hc
              refine ⟨_, [a, b, c], r2, rfl, by rw [lossyN.eq_def]; dsimp only; rw [if_neg h0, if_neg h1, if_pos h2, if_pos hb, if_pos hc], .inr ⟨by simp, ?_, ?_⟩⟩
              · intro x hx; simp only [List.mem_cons, List.not_mem_nil, or_false] at hx; omega
              · rw [toNat_ofNat (by omega) (by omega)]; omega
            · exact ⟨replChar, [a, b], c :: r2, rfl, by rw [lossyN.eq_def]; dsimp only; rw [if_neg h0, if_neg h1, if_pos h2, if_pos hb, if_neg hc], .inr ⟨by simp, hone, hrep⟩⟩
        · exact stray (b :: r1) (by omega) (by rw [lossyN.eq_def]; dsimp only; rw [if_neg h0, if_neg h1, if_pos h2, if_neg hb])
    by_cases h3 : 0xF0 ≤ a ∧ a ≤ 0xF4
    · cases r with
      | nil => exact stray [] (by omega) (by rw [lossyN.eq_def]; dsimp only; rw [if_neg h0, if_neg h1, if_neg h2, if_pos h3, hnil])
      | cons b r1 =>
        by_cases hb : (isCont b && (a != 0xF0 || 0x90 ≤ b) && (a != 0xF4 || b < 0x90)) = true
        · have hb' := hb
          simp only [Bool.and_eq_true, Bool.or_eq_true, bne_iff_ne, decide_eq_true_eq] at hb'
          obtain ⟨b1, b2⟩ := hcont b hb'.1.1
          have hone : ∀ x ∈ [a, b], 0x80 ≤ x := by intro x hx; simp only [List.mem_cons, List.not_mem_nil, or_false] at hx; omega
          cases r1 with
          | nil =>
            exact ⟨replChar, [a, b], [], rfl, by rw [lossyN.eq_def]; dsimp only; rw [if_neg h0, if_neg h1, if_neg h2, if_pos h3, if_pos hb, hnil], .inr ⟨by simp, hone, hrep⟩⟩
          | cons c r2 =>
            by_cases hc : isCont c = true
            · obtain ⟨c1, c2⟩ := hcont c hc
              have htwo : ∀ x ∈ [a, b, c], 0x80 ≤ x := by intro x hx; simp only [List.mem_cons, List.not_mem_nil, or_false] at hx; omega
              cases r2 with
              | nil =>
                exact ⟨replChar, [a, b, c], [], rfl, by rw [lossyN.eq_def]; dsimp only; rw [if_neg h0, if_neg h1, if_neg h2, if_pos h3, if_pos hb, if_pos hc, hnil],
                  .inr ⟨by simp, htwo, hrep⟩⟩
              | cons d r3 =>
                by_cases hd : isCont d = true
                · obtain ⟨d1, d2⟩ := hcont d hd
                  refine ⟨_, [a, b, c, d], r3, rfl, by rw [lossyN.eq_def]; dsimp only; rw [if_neg h0, if_neg h1, if_neg h2, if_pos h3, if_pos hb, if_pos hc, if_pos hd],
                    .inr ⟨by simp, ?_, ?_⟩⟩
                  · intro x hx; simp only [List.mem_cons, List.not_mem_nil, or_false] at hx; omega
                  · rw [toNat_ofNat (by omega) (by omega)]; omega
                · exact ⟨replChar, [a, b, c], d :: r3, rfl, by rw [lossyN.eq_def]; dsimp only; rw [if_neg h0, if_neg h1, if_neg h2, if_pos h3, if_pos hb, if_pos hc, if_neg hd],
                    .inr ⟨by simp, htwo, hrep⟩⟩
            · exact ⟨replChar, [a, b], c :: r2, rfl, by rw [lossyN.eq_def]; dsimp only; rw [if_neg h0, if_neg h1, if_neg h2, if_pos h3, if_pos hb, if_neg hc],
                .inr ⟨by simp, hone, hrep⟩⟩
        · exact stray (b :: r1) (by omega) (by rw [lossyN.eq_def]; dsimp only; rw [if_neg h0, if_neg h1, if_neg h2, if_pos h3, if_neg hb])
    exact stray r (by omega) (by rw [lossyN.eq_def]; dsimp only; rw [if_neg h0, if_neg h1, if_neg h2, if_neg h3])

theorem ascii_char {a : Nat} (h : a < 0x80) : (Char.ofNat a).toNat = a := toNat_ofNat (by omega) (by omega)

/-- Only ASCII bytes become ASCII characters. -/
theorem lossy_all_ascii : ∀ (k : Nat) (l s : List Nat), l.length ≤ k → (∀ b ∈ s, b < 0x80) → (lossyN k l = s.map Char.ofNat ↔ l = s)
  | 0, l, s, hl, _ => by
    have : l = [] := List.eq_nil_of_length_eq_zero (by omega)
    subst this
    cases s <;> simp [lossyN]
  | k + 1, [], s, _, _ => by cases s <;> simp [lossyN]
  | k + 1, a :: r, s, hl, hs => by
    obtain ⟨c, u, r', he, hL, h⟩ := lossy_step k (a :: r) (by simp)
    have hlen : r'.length ≤ k := by
      have := congrArg List.length he
      simp only [List.length_cons, List.length_append] at this hl
      have : 1 ≤ u.length := by
        rcases h with ⟨_, rfl, _⟩ | ⟨hu, _⟩
        · simp
        · exact List.length_pos_iff.2 hu
      omega
    rw [hL, he]
    cases s with
    | nil =>
      simp only [List.map_nil, reduceCtorEq, List.append_eq_nil_iff, false_iff]
      rintro ⟨rfl, _⟩
      rcases h with ⟨_, h, _⟩ | ⟨h, _⟩ <;> simp at h
    | cons b s =>
      have hb := hs b (by simp)
      have ih := lossy_all_ascii k r' s hlen (fun x hx => hs x (by simp [hx]))
      simp only [List.map_cons, List.cons.injEq]
      rcases h with ⟨x, rfl, hx, rfl⟩ | ⟨hu, hb2, hc⟩
      · rw [ih]
        simp only [List.singleton_append, List.cons.injEq, and_congr_left_iff]
        intro _
        constructor
        · intro h; rw [← ascii_char hx, h, ascii_char hb]
        · rintro rfl; rfl
      · constructor
        · rintro ⟨rfl, _⟩
          rw [ascii_char hb] at hc; omega
        · intro h
          cases u with
          | nil => exact absurd rfl hu
          | cons y u =>
            have := hb2 y (by simp)
            simp only [List.cons_append, List.cons.injEq] at h
            omega

/-- The text of a name ends in these ASCII characters if and only if the name does. -/
theorem lossy_suffix : ∀ (k : Nat) (l s : List Nat), l.length ≤ k → (∀ b ∈ s, b < 0x80) → (s.map Char.ofNat <:+ lossyN k l ↔ s <:+ l)
  | 0, l, s, hl, _ => by
    have : l = [] := List.eq_nil_of_length_eq_zero (by omega)
    subst this
    simp [lossyN]
  | k + 1, [], s, _, _ => by simp [lossyN]
  | k + 1, a :: r, s, hl, hs => by
    obtain ⟨c, u, r', he, hL, h⟩ := lossy_step k (a :: r) (by simp)
    have hlen : r'.length ≤ k := by
      have := congrArg List.length he
      simp only [List.length_cons, List.length_append] at this hl
      have : 1 ≤ u.length := by
        rcases h with ⟨_, rfl, _⟩ | ⟨hu, _⟩
        · simp
        · exact List.length_pos_iff.2 hu
      omega
    have ih := lossy_suffix k r' s hlen hs
    have hall := lossy_all_ascii (k + 1) (a :: r) s (by simpa using hl) hs
    rw [hL, List.suffix_cons_iff, ih]
    rw [hL] at hall
    constructor
    · rintro (h1 | h1)
      · rw [hall.1 h1.symm]
      · rw [he]; exact h1.trans (List.suffix_append _ _)
    · intro h1
      rw [he] at h1
      rcases List.suffix_or_suffix_of_suffix h1 (List.suffix_append u r') with h2 | ⟨v, rfl⟩
      · exact .inr h2
      · obtain ⟨w, hw⟩ := h1
        rw [← List.append_assoc] at hw
        have hw := List.append_cancel_right hw
        cases v with
        | nil => right; simp
        | cons x v =>
          left
          have hx := hs x (by simp)
          rcases h with ⟨y, rfl, _⟩ | ⟨_, hb, _⟩
          · have hwl := congrArg List.length hw
            simp only [List.length_append, List.length_cons, List.length_nil] at hwl
            have h1 : w = [] := List.eq_nil_of_length_eq_zero (by omega)
            subst h1
            exact (hall.2 (by rw [he, ← hw]; rfl)).symm
          · have := hb x (by rw [← hw]; simp)
            omega

/-- The name ends in the bytes of `.lock`. -/
def Spec.LockName (f : RawName) : Prop := utf8 (str ".lock") <:+ f

theorem lock_iff (f : RawName) : (str ".lock").isSuffixOf (lossyText f) = true ↔ Spec.LockName f := by
  rw [List.isSuffixOf_iff_suffix]
  exact lossy_suffix f.length f (utf8 (str ".lock")) le_rfl (by decide)

theorem sliceTo_utf8 (r : Str) : ∀ t : Str, sliceTo (t ++ r) (utf8 t).length = some t
  | [] => by unfold sliceTo; cases r <;> rfl
  | c :: t => by
    have hpos : 1 ≤ (utf8Char c).length := by unfold utf8Char; dsimp only; split_ifs <;> simp
    have hc : (utf8 (c :: t)).length = (utf8Char c).length + (utf8 t).length := by simp [utf8]
    obtain ⟨j, hj⟩ : ∃ j, (utf8 (c :: t)).length = j + 1 := ⟨(utf8 (c :: t)).length - 1, by omega⟩
    rw [hj, List.cons_append, sliceTo, if_pos (by omega), show j + 1 - (utf8Char c).length = (utf8 t).length by omega, sliceTo_utf8 r t]
    rfl

/-- For a name that is text, the loops see what `Model/Sandboxes` says. -/
theorem rawOwner_text (t : Name) : rawOwner (utf8 t) = match lockOwner t with | some n => .lock n | none => .other := by
  unfold rawOwner lossyText
  rw [(lossy_text t).1]
  cases ho : lockOwner t with
  | none =>
    rw [if_neg]
    intro h
    unfold lockOwner at ho
    rw [if_pos h] at ho; cases ho
  | some n =>
    have he := lockOwner_iff.1 ho
    subst he
    rw [if_pos (by rw [List.isSuffixOf_iff_suffix]; exact List.suffix_append _ _)]
    have : (utf8 (n ++ str ".lock")).length - 5 = (utf8 n).length := by
      have : (utf8 (str ".lock")).length = 5 := by decide
      simp only [utf8, List.flatMap_append, List.length_append] at this ⊢
      omega
    rw [this, sliceTo_utf8]

theorem rawOwner_other {f : RawName} (h : ¬ Spec.LockName f) : rawOwner f = .other := by
  unfold rawOwner
  rw [if_neg (fun hc => h ((lock_iff f).1 hc))]

instance (f : RawName) : Decidable (Spec.LockName f) := by unfold Spec.LockName; infer_instance

theorem rawTake_text : ∀ (files : List RawName) (names : List Name), files.filter (fun f => decide (Spec.LockName f)) = names.map utf8 →
    rawTake files = (names, false)
  | [], names, h => by cases names with | nil => rfl | cons n ns => simp at h
  | f :: r, names, h => by
    by_cases hf : Spec.LockName f
    · rw [List.filter_cons_of_pos (by simpa using hf)] at h
      cases names with
      | nil => simp at h
      | cons n ns =>
        simp only [List.map_cons, List.cons.injEq] at h
        obtain ⟨rfl, h⟩ := h
        have ht := (lock_iff _).2 hf
        unfold lossyText at ht
        rw [(lossy_text n).1] at ht
        have ho : lockOwner n = some (n.take (n.length - 5)) := if_pos ht
        have he := lockOwner_iff.1 ho
        rw [rawTake, rawOwner_text, ho, rawTake_text r ns h]
        dsimp only
        rw [← he]
    · rw [List.filter_cons_of_neg (by simpa using hf)] at h
      rw [rawTake, rawOwner_other hf]
      exact rawTake_text r names h

/-- **C91**, part: if the names of the lock files are text, `list` and `stop` see exactly those files, in the order of the listing, and whatever the other files in the storage directory
are called makes no difference. -/
theorem C91_listing_partial (s : Sys) (glob : Str → Str → Bool) (storage : Path) (patterns : List Str) (fault : Fault) (files : List RawName) (names : List Name)
    (h : files.filter (fun f => decide (Spec.LockName f)) = names.map utf8) :
    (rawListLoop s glob storage patterns files = match listLoop s glob storage patterns names with | .ok r => .done r | .error _ => .failed) ∧
    rawStopLoop fault glob storage patterns files s = (stopLoop fault glob storage patterns names s, false) := by
  have ht := rawTake_text files names h
  unfold rawListLoop rawStopLoop
  rw [ht]
  refine ⟨?_, rfl⟩
  cases listLoop s glob storage patterns names <;> rfl

/-- Non-vacuity: the storage directory of the example, with a file called `\xFF` in it and one called `\xFE.lock~`. -/
example : ([utf8 (str "a"), [0xFF], utf8 (str "a.lock"), 0xFE :: utf8 (str ".lock~"), utf8 (str "b.lock")] : List RawName).filter (fun f => decide (Spec.LockName f)) =
    [str "a.lock", str "b.lock"].map utf8 := by decide +kernel

/-- **C91 is refuted**: one file whose name is not UTF-8 and ends in `.lock`.  The length of the name on the disk is used to cut its text, in which every bad byte has become three bytes:
with `\xFF.lock` in the storage directory `list`, and `stop` and `delete` with patterns, panic; `stop` then leaves the sandboxes it has not come to running.  With `\xFFabcdef.lock`
they see a sandbox called `\uFFFDabcd`, which does not exist. -/
theorem C91_refuted_name :
    rawListLoop exSys globRef exSb [] [0xFF :: utf8 (str ".lock"), utf8 (str "b.lock")] = .panicked ∧
    (rawStopLoop noFault globRef exSb [str "b"] [0xFF :: utf8 (str ".lock"), utf8 (str "b.lock")] exSys).2 = true ∧
    (rawStopLoop noFault globRef exSb [str "b"] [0xFF :: utf8 (str ".lock"), utf8 (str "b.lock")] exSys).1.procs = exSys.procs ∧
    (rawStopLoop noFault globRef exSb [str "b"] [utf8 (str "b.lock")] exSys).1.procs ≠ exSys.procs ∧
    rawListLoop exSys globRef exSb [] [0xFF :: 0xFF :: utf8 (str ".lock")] = .panicked ∧
    rawListLoop exSys globRef exSb [] [0xFF :: utf8 (str "abcdef.lock")] = .done ([], [replChar :: str "abcd"]) := by decide +kernel

/-! ### Completion -/

/-- A complete sandbox: a directory of that name in the storage directory, with `upper`, `work` and `overlay` in it. -/
def Spec.SandboxDir (dir : RawPath → Bool) (t : Name) : Prop :=
  dir [utf8 t] = true ∧ ∀ d ∈ [str "upper", str "work", str "overlay"], dir [utf8 t, utf8 d] = true

/-- **C92**: for `--name TEXT` exactly the sandboxes are offered whose names begin with the text, each as often as it is in the listing, and nothing is offered for something that is
not text. -/
theorem C92_complete (dir : RawPath → Bool) (files : List RawName) (cur : Name) (t : Name) :
    (t ∈ complete dir files (utf8 cur) ↔ utf8 t ∈ files ∧ cur <+: t ∧ Spec.SandboxDir dir t) ∧
    (complete dir files (utf8 cur)).count t ≤ files.count (utf8 t) ∧
    ∀ x : RawName, ¬ Spec.IsText x → complete dir files x = [] := by
  have hcur : utf8Decode (utf8 cur) = some cur := (utf8Decode_iff _ _).2 rfl
  have hkey : ∀ f : RawName, (match utf8Decode f with
      | none => none
      | some t => if !cur.isPrefixOf t then none
        else if dir [f] && dir [f, utf8 (str "upper")] && dir [f, utf8 (str "work")] && dir [f, utf8 (str "overlay")] then some t else none) = some t →
      f = utf8 t ∧ cur <+: t ∧ Spec.SandboxDir dir t := by
    intro f h
    cases hd : utf8Decode f with
    | none => rw [hd] at h; cases h
    | some t' =>
      rw [hd] at h
      have hf := (utf8Decode_iff _ _).1 hd
      subst hf
      dsimp only at h
      split at h
      · cases h
      · rename_i hp
        split at h
        · rename_i hdir
          cases h
          simp only [Bool.not_eq_true', Bool.not_eq_false, List.isPrefixOf_iff_prefix] at hp
          simp only [Bool.and_eq_true] at hdir
          exact ⟨rfl, hp, hdir.1.1.1, by simp [hdir]⟩
        · cases h
  refine ⟨?_, ?_, fun x hx => ?_⟩
  · unfold complete
    rw [hcur]
    dsimp only
    rw [List.mem_filterMap]
    constructor
    · rintro ⟨f, hf, h⟩
      obtain ⟨rfl, h1, h2⟩ := hkey f h
      exact ⟨hf, h1, h2⟩
    · rintro ⟨hf, hp, hd⟩
      refine ⟨_, hf, ?_⟩
      rw [(utf8Decode_iff _ _).2 rfl]
      dsimp only
      have hs := hd.2
      simp only [List.mem_cons, List.not_mem_nil, or_false, forall_eq_or_imp, forall_eq] at hs
      rw [if_neg (by simpa using hp), if_pos (by rw [hd.1, hs.1, hs.2.1, hs.2.2]; rfl)]
  · unfold complete
    rw [hcur]
    dsimp only
    induction files with
    | nil => simp
    | cons f r ih =>
      rw [List.filterMap_cons, List.count_cons]
      split
      · omega
      · rename_i b hb
        rw [List.count_cons]
        by_cases he : b = t
        · subst he
          obtain ⟨rfl, _⟩ := hkey f hb
          simp only [beq_self_eq_true, if_true]
          omega
        · rw [if_neg (by simpa using he)]
          omega
  · unfold complete
    cases hd : utf8Decode x with
    | none => rfl
    | some u => exact absurd ⟨u, (utf8Decode_iff _ _).1 hd⟩ hx

/-- Non-vacuity: of two sandboxes and a stray directory, `w` offers one. -/
example : complete (fun p => p.length = 1 || p.head? != some (utf8 (str "wood"))) [utf8 (str "web"), utf8 (str "wood"), utf8 (str "a"), [0xFF]] (utf8 (str "w")) = [str "web"] := by
  decide +kernel

end SB
