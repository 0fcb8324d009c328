import Verif.Model.Sandboxes

/-! What a number in a text is (`str::parse::<i32>`), and what the words of a text are (`split_whitespace`). -/

namespace SB

/-- The digit `d` is written `c`. -/
def Spec.digits : List Char := ['0', '1', '2', '3', '4', '5', '6', '7', '8', '9']

/-- `s` is the number `n` in decimal (leading zeros are allowed). -/
inductive Spec.Decimal : Str → Nat → Prop
  | digit {c : Char} {d : Nat} (h : Spec.digits[d]? = some c) : Decimal [c] d
  | more {s : Str} {n : Nat} {c : Char} {d : Nat} (hs : Decimal s n) (h : Spec.digits[d]? = some c) : Decimal (s ++ [c]) (10 * n + d)

/-- `s` is the number `i`, with or without a sign, in the range of 32 bits. -/
def Spec.Numeral (s : Str) (i : Int) : Prop :=
  (∃ n : Nat, i = (n : Int) ∧ n < 2 ^ 31 ∧ (Spec.Decimal s n ∨ ∃ t, s = '+' :: t ∧ Spec.Decimal t n)) ∨
  ∃ (t : Str) (n : Nat), s = '-' :: t ∧ Spec.Decimal t n ∧ i = -(n : Int) ∧ n ≤ 2 ^ 31

theorem digitVal_iff (c : Char) (d : Nat) : digitVal c = some d ↔ Spec.digits[d]? = some c := by
  unfold digitVal Spec.digits
  have h0 : '0'.toNat = 48 := by decide
  have h9 : '9'.toNat = 57 := by decide
  rw [h0, h9]
  constructor
  · intro h
    split at h
    · next hc =>
      have hd : d = c.toNat - 48 := (Option.some.inj h).symm
      have : c = Char.ofNat c.toNat := (Char.ofNat_toNat c).symm
      have hlt : d < 10 := by omega
      have hc2 : c.toNat = 48 + d := by omega
      rw [this, hc2]
      clear hc2 hc this hd h
      revert d
      decide
    · cases h
  · intro h
    have hlt : d < 10 := by
      by_contra hge
      rw [List.getElem?_eq_none (by simpa using hge)] at h
      cases h
    match d, hlt with
    | 0, _ | 1, _ | 2, _ | 3, _ | 4, _ | 5, _ | 6, _ | 7, _ | 8, _ | 9, _ => cases h; decide

theorem parseDigits_append (acc : Nat) (a b : Str) : parseDigits acc (a ++ b) = (parseDigits acc a).bind (fun n => parseDigits n b) := by
  induction a generalizing acc with
  | nil => rfl
  | cons c a ih =>
    simp only [List.cons_append, parseDigits]
    cases digitVal c with
    | none => rfl
    | some d => exact ih _

theorem decimal_iff (s : Str) (n : Nat) : Spec.Decimal s n ↔ s ≠ [] ∧ parseDigits 0 s = some n := by
  constructor
  · intro h
    induction h with
    | digit h => exact ⟨by simp, by simp [parseDigits, (digitVal_iff _ _).2 h]⟩
    | more hs h ih =>
      refine ⟨by simp, ?_⟩
      rw [parseDigits_append, ih.2]
      simp [parseDigits, (digitVal_iff _ _).2 h]
  · rintro ⟨hne, h⟩
    induction s using List.reverseRecOn generalizing n with
    | nil => exact absurd rfl hne
    | append_singleton s c ih =>
      rw [parseDigits_append] at h
      cases hp : parseDigits 0 s with
      | none => rw [hp] at h; cases h
      | some m =>
        rw [hp] at h
        simp only [Option.bind_some, parseDigits] at h
        cases hd : digitVal c with
        | none => rw [hd] at h; cases h
        | some d =>
          rw [hd] at h
          have hn : 10 * m + d = n := Option.some.inj h
          subst hn
          by_cases hs : s = []
          · subst hs
            have hm : m = 0 := (Option.some.inj hp).symm
            subst hm
            simpa using Spec.Decimal.digit ((digitVal_iff _ _).1 hd)
          · exact .more (ih m hs hp) ((digitVal_iff _ _).1 hd)

/-- No decimal begins with a sign. -/
theorem decimal_head {c : Char} {t : Str} {n : Nat} (h : Spec.Decimal (c :: t) n) : c ≠ '-' ∧ c ≠ '+' := by
  have := (decimal_iff _ _).1 h
  simp only [parseDigits] at this
  constructor <;> rintro rfl
  · have h' : digitVal '-' = none := by decide
    rw [h'] at this; cases this.2
  · have h' : digitVal '+' = none := by decide
    rw [h'] at this; cases this.2

/-- The program reads numerals, and every numeral. -/
theorem parseI32_iff (s : Str) (i : Int) : parseI32 s = some i ↔ Spec.Numeral s i := by
  cases s with
  | nil =>
    constructor
    · intro h; cases h
    rintro (⟨n, _, _, h | ⟨t, h, _⟩⟩ | ⟨t, n, h, _⟩)
    · exact absurd rfl ((decimal_iff _ _).1 h).1
    · cases h
    · cases h
  | cons c r =>
    unfold parseI32
    by_cases hm : c = '-'
    · subst hm
      simp only [if_true]
      constructor
      · intro h
        split at h
        · cases h
        · next hr =>
          cases hp : parseDigits 0 r with
          | none => rw [hp] at h; cases h
          | some n =>
            rw [hp] at h
            simp only at h
            split at h
            · next hn => exact .inr ⟨r, n, rfl, (decimal_iff _ _).2 ⟨hr, hp⟩, (Option.some.inj h).symm, by omega⟩
            · cases h
      · rintro (⟨n, _, _, h | ⟨t, h, _⟩⟩ | ⟨t, n, h, hd, hi, hn⟩)
        · exact absurd rfl (decimal_head h).1
        · cases h
        · cases h
          obtain ⟨h1, h2⟩ := (decimal_iff _ _).1 hd
          rw [if_neg h1, h2]
          simp only
          rw [if_pos (by omega), hi]
    · simp only [if_neg hm]
      by_cases hp : c = '+'
      · subst hp
        simp only [if_true, Bool.false_eq_true, if_false]
        constructor
        · intro h
          split at h
          · cases h
          · next hr =>
            cases hpd : parseDigits 0 r with
            | none => rw [hpd] at h; cases h
            | some n =>
              rw [hpd] at h
              simp only at h
              split at h
              · next hn => exact .inl ⟨n, (Option.some.inj h).symm, by omega, .inr ⟨r, rfl, (decimal_iff _ _).2 ⟨hr, hpd⟩⟩⟩
              · cases h
        · rintro (⟨n, hi, hn, h | ⟨t, h, hd⟩⟩ | ⟨t, n, h, _⟩)
          · exact absurd rfl (decimal_head h).2
          · cases h
            obtain ⟨h1, h2⟩ := (decimal_iff _ _).1 hd
            rw [if_neg h1, h2]
            simp only
            rw [if_pos (by omega), hi]
          · cases h
      · simp only [if_neg hp, Bool.false_eq_true, if_false]
        rw [if_neg (by simp)]
        constructor
        · intro h
          cases hpd : parseDigits 0 (c :: r) with
          | none => rw [hpd] at h; cases h
          | some n =>
            rw [hpd] at h
            simp only at h
            split at h
            · next hn => exact .inl ⟨n, (Option.some.inj h).symm, by omega, .inl ((decimal_iff _ _).2 ⟨by simp, hpd⟩)⟩
            · cases h
        · rintro (⟨n, hi, hn, h | ⟨t, h, hd⟩⟩ | ⟨t, n, h, _⟩)
          · obtain ⟨h1, h2⟩ := (decimal_iff _ _).1 h
            rw [h2]
            simp only
            rw [if_pos (by omega), hi]
          · cases h; exact absurd rfl hp
          · cases h; exact absurd rfl hm

/-- What Rust's `to_string` writes is a decimal. -/
theorem decimal_toString (n : Nat) : Spec.Decimal (toString n).toList n := by
  have e : (toString n).toList = Nat.toDigits 10 n := Nat.toList_repr
  rw [e]
  have hdig : ∀ d, d < 10 → Spec.digits[d]? = some d.digitChar := by decide
  induction n using Nat.strong_induction_on with
  | _ n ih =>
    by_cases hn : n < 10
    · rw [Nat.toDigits_of_lt_base hn]
      exact .digit (hdig n hn)
    · rw [Nat.toDigits_of_base_le (by decide) (by omega)]
      have h := Spec.Decimal.more (ih (n / 10) (by omega) Nat.toList_repr) (hdig (n % 10) (by omega))
      rwa [show 10 * (n / 10) + n % 10 = n by omega] at h

theorem decimal_numeral (n : Nat) (h : n < 2 ^ 31) : Spec.Numeral (toString n).toList n := .inl ⟨n, rfl, h, .inl (decimal_toString n)⟩

/-! ### Words -/

/-- `ws` are the words of `s`: the runs of characters other than white space, cut at white space. -/
inductive Spec.Words : Str → List Str → Prop
  | nil : Words [] []
  | blank {c : Char} {s : Str} {ws : List Str} (hc : isWs c = true) (hs : Words s ws) : Words (c :: s) ws
  | last {w : Str} (hw : w ≠ []) (h : ∀ c ∈ w, isWs c = false) : Words w [w]
  | word {w s : Str} {c : Char} {ws : List Str} (hw : w ≠ []) (h : ∀ c ∈ w, isWs c = false) (hc : isWs c = true) (hs : Words s ws) : Words (w ++ c :: s) (w :: ws)

theorem words_ws {c : Char} {r : Str} (h : isWs c = true) : words (c :: r) = words r := by
  conv => lhs; unfold words
  rw [if_pos h]

theorem words_one {c : Char} (h : isWs c = false) : words [c] = [[c]] := by
  unfold words; rw [if_neg (by rw [h]; simp)]; rfl

theorem words_gap {c d : Char} {r : Str} (h : isWs c = false) (hd : isWs d = true) : words (c :: d :: r) = [c] :: words (d :: r) := by
  conv => lhs; unfold words
  rw [if_neg (by rw [h]; simp)]
  cases hw : words (d :: r) with
  | nil => rfl
  | cons w ws => simp only; rw [if_pos hd]

theorem words_on {c d : Char} {r w : Str} {ws : List Str} (h : isWs c = false) (hd : isWs d = false) (hw : words (d :: r) = w :: ws) : words (c :: d :: r) = (c :: w) :: ws := by
  conv => lhs; unfold words
  rw [if_neg (by rw [h]; simp), hw]
  simp only
  rw [if_neg (by rw [hd]; simp)]

theorem words_last : ∀ {w : Str}, w ≠ [] → (∀ c ∈ w, isWs c = false) → words w = [w]
  | [], h, _ => absurd rfl h
  | [c], _, h => words_one (h c (by simp))
  | c :: d :: r, _, h =>
    words_on (h c (by simp)) (h d (by simp)) (words_last (w := d :: r) (by simp) (fun x hx => h x (List.mem_cons_of_mem _ hx)))

theorem words_word : ∀ {w s : Str} {b : Char}, w ≠ [] → (∀ c ∈ w, isWs c = false) → isWs b = true → words (w ++ b :: s) = w :: words s
  | [], _, _, h, _, _ => absurd rfl h
  | [c], s, b, _, h, hb => by rw [List.singleton_append, words_gap (h c (by simp)) hb, words_ws hb]
  | c :: d :: r, s, b, _, h, hb =>
    words_on (h c (by simp)) (h d (by simp)) (words_word (w := d :: r) (by simp) (fun x hx => h x (List.mem_cons_of_mem _ hx)) hb)

theorem words_of {s : Str} {ws : List Str} (h : Spec.Words s ws) : words s = ws := by
  induction h with
  | nil => rfl
  | blank hc _ ih => rw [words_ws hc, ih]
  | last hw h => exact words_last hw h
  | word hw h hc _ ih => rw [words_word hw h hc, ih]

theorem words_spec (s : Str) : Spec.Words s (words s) := by
  have key : ∃ ws, Spec.Words s ws := by
    induction s with
    | nil => exact ⟨_, .nil⟩
    | cons c r ih =>
      obtain ⟨ws, h⟩ := ih
      cases hc : isWs c with
      | true => exact ⟨ws, .blank hc h⟩
      | false =>
        have hall : ∀ {w : Str}, (∀ x ∈ w, isWs x = false) → ∀ x ∈ c :: w, isWs x = false := by
          intro w hw x hx
          rcases List.mem_cons.1 hx with rfl | hx
          · exact hc
          · exact hw x hx
        cases h with
        | nil => exact ⟨_, .last (w := [c]) (by simp) (hall (by simp))⟩
        | @blank d s _ hd hs => exact ⟨_, .word (w := [c]) (by simp) (hall (by simp)) hd hs⟩
        | last hw h => exact ⟨_, .last (by simp) (hall h)⟩
        | @word w s d ws hw h hd hs => exact ⟨_, .word (w := c :: w) (by simp) (hall h) hd hs⟩
  obtain ⟨ws, h⟩ := key
  rw [words_of h]
  exact h

/-- The words of a text are one list. -/
theorem words_iff (s : Str) (ws : List Str) : words s = ws ↔ Spec.Words s ws := ⟨fun h => h ▸ words_spec s, words_of⟩

/-- For a process whose name has no white space in it, the third word of `/proc/PID/stat` is the state. -/
theorem statWord_of {p : Proc} (hc : ∀ c ∈ p.comm, isWs c = false) (hs : isWs p.state = false) : statWord p = some [p.state] := by
  have h : Spec.Words (str "0 (" ++ p.comm ++ str ") " ++ [p.state] ++ str " 0") [['0'], '(' :: (p.comm ++ [')']), [p.state], ['0']] := by
    have e : str "0 (" ++ p.comm ++ str ") " ++ [p.state] ++ str " 0" = ['0'] ++ ' ' :: (('(' :: (p.comm ++ [')'])) ++ ' ' :: ([p.state] ++ ' ' :: ['0'])) := by
      show (['0', ' ', '('] : Str) ++ p.comm ++ [')', ' '] ++ [p.state] ++ [' ', '0'] = _
      simp
    rw [e]
    refine .word (by simp) (by decide) (by decide) (.word (by simp) ?_ (by decide) (.word (by simp) ?_ (by decide) (.last (by simp) (by decide))))
    · intro c h
      simp only [List.mem_cons, List.mem_append, List.not_mem_nil, or_false] at h
      rcases h with rfl | h | rfl
      · decide
      · exact hc c h
      · decide
    · intro c h
      simp only [List.mem_singleton] at h
      rw [h]; exact hs
  unfold statWord
  rw [words_of h]
  rfl

example : Spec.Numeral (str "42") 42 ∧ Spec.Numeral (str "-007") (-7) ∧ ¬ Spec.Numeral (str "42\n") 42 ∧ words (str "  a bc\td ") = [str "a", str "bc", str "d"] := by
  simp only [← parseI32_iff]; decide +kernel

end SB
