import Verif.Spec.Json
import Verif.Model.JsonText

/-! # Writing and reading JSON texts -/

namespace SB

/-! ### White space -/

theorem blank_isSpace {w : Str} (h : Spec.Blank w) : ∀ c ∈ w, isJsonSpace c = true := by
  intro c hc
  rcases h c hc with rfl | rfl | rfl | rfl <;> decide

theorem skipWs_blank {w : Str} (h : Spec.Blank w) (r : Str) : skipWs (w ++ r) = skipWs r := by
  induction w with
  | nil => rfl
  | cons c w ih =>
    have hc := blank_isSpace h c (by simp)
    rw [List.cons_append, skipWs, if_pos hc, ih (fun d hd => h d (by simp [hd]))]

theorem skipWs_idem (t : Str) : skipWs (skipWs t) = skipWs t := by
  induction t with
  | nil => rfl
  | cons c t ih =>
    by_cases h : isJsonSpace c = true
    · rw [skipWs, if_pos h, ih]
    · rw [skipWs, if_neg h, skipWs, if_neg h]

theorem skipWs_cons {c : Char} {r : Str} (h : isJsonSpace c = false) : skipWs (c :: r) = c :: r := by
  rw [skipWs, if_neg (by simp [h])]

/-- What may follow a number. -/
def Ends (rest : Str) : Prop := ∀ c ∈ rest.head?, isDigit c = false ∧ c ≠ '.' ∧ c ≠ 'e' ∧ c ≠ 'E'

theorem ends_cons {c : Char} {r : Str} (h1 : isDigit c = false) (h2 : c ≠ '.') (h3 : c ≠ 'e') (h4 : c ≠ 'E') : Ends (c :: r) := by
  intro d hd; simp only [List.head?_cons, Option.mem_def, Option.some.injEq] at hd; subst hd; exact ⟨h1, h2, h3, h4⟩

theorem ends_blank {w rest : Str} (h : Spec.Blank w) (hr : Ends rest) : Ends (w ++ rest) := by
  cases w with
  | nil => exact hr
  | cons c w => rcases h c (by simp) with rfl | rfl | rfl | rfl <;> exact ends_cons (by decide) (by decide) (by decide) (by decide)

/-! ### Strings -/

theorem hexVal_of {c : Char} {n : Nat} (h : Spec.Hex c n) : hexVal c = some n := by
  have key : ∀ a b : Char, a ≤ b ↔ a.toNat ≤ b.toNat := fun a b => Iff.rfl
  unfold hexVal
  rcases h with ⟨h1, h2, h3⟩ | ⟨h1, h2, h3⟩ | ⟨h1, h2, h3⟩
  · rw [if_pos ⟨h1, h2⟩]; congr 1; omega
  · rw [if_neg, if_pos ⟨h1, h2⟩]
    · congr 1; omega
    · rintro ⟨_, h⟩
      rw [key] at h h1
      have e1 : '9'.toNat = 57 := rfl
      have e2 : 'a'.toNat = 97 := rfl
      omega
  · rw [if_neg, if_neg, if_pos ⟨h1, h2⟩]
    · congr 1; omega
    · rintro ⟨h, _⟩
      rw [key] at h h2
      have e1 : 'F'.toNat = 70 := rfl
      have e2 : 'a'.toNat = 97 := rfl
      omega
    · rintro ⟨_, h⟩
      rw [key] at h h1
      have e1 : '9'.toNat = 57 := rfl
      have e2 : 'A'.toNat = 65 := rfl
      omega

theorem hex4_of {t : Str} {n : Nat} (h : Spec.Hex4 t n) : ∃ a b c d, t = [a, b, c, d] ∧ hex4 a b c d = some n := by
  obtain ⟨a, b, c, d, na, nb, nc, nd, rfl, h1, h2, h3, h4, rfl⟩ := h
  refine ⟨a, b, c, d, rfl, ?_⟩
  simp only [hex4, hexVal_of h1, hexVal_of h2, hexVal_of h3, hexVal_of h4, Option.bind_eq_bind, Option.bind_some, Option.pure_def]
  congr 1
  omega

theorem json_char_ofNat (c : Char) : Char.ofNat c.toNat = c := Char.ofNat_toNat c

theorem char_valid (c : Char) : c.toNat < 0xD800 ∨ 0xE000 ≤ c.toNat := by
  have := c.valid
  simp only [UInt32.isValidChar, Nat.isValidChar] at this
  have e : c.toNat = c.val.toNat := rfl
  omega

theorem parse_char {c : Char} {t : Str} (h : Spec.CharText c t) (f : Nat) (r : Str) : parseString (f + 1) (t ++ r) = (parseString f r).map (fun p => (c :: p.1, p.2)) := by
  rcases h with ⟨rfl, h1, h2, h3⟩ | ⟨e, rfl, h⟩ | ⟨u, rfl, h⟩ | ⟨u, u', n, n', rfl, h1, h2, hn, hn', hc⟩
  · rw [List.singleton_append, parseString, if_neg h2, if_neg h3, if_neg (by omega)]
  · have he : e ≠ 'u' ∧ escapeOf e = some c := by
      simp only [List.mem_cons, Prod.mk.injEq, List.not_mem_nil, or_false] at h
      rcases h with ⟨rfl, rfl⟩ | ⟨rfl, rfl⟩ | ⟨rfl, rfl⟩ | ⟨rfl, rfl⟩ | ⟨rfl, rfl⟩ | ⟨rfl, rfl⟩ | ⟨rfl, rfl⟩ | ⟨rfl, rfl⟩ <;> exact ⟨by decide, by decide⟩
    rw [List.cons_append, List.singleton_append, parseString, if_neg (by decide), if_pos rfl, readEscape.eq_def]
    dsimp only
    rw [if_neg he.1, he.2]
    rfl
  · obtain ⟨a, b, d, e, rfl, hx⟩ := hex4_of h
    have := char_valid c
    simp only [List.cons_append, List.nil_append]
    rw [parseString, if_neg (by decide), if_pos rfl, readEscape, if_pos rfl]
    simp only [hx]
    rw [if_neg (by omega), if_neg (by omega), json_char_ofNat]
  · obtain ⟨a, b, d, e, rfl, hx⟩ := hex4_of h1
    obtain ⟨a', b', d', e', rfl, hx'⟩ := hex4_of h2
    simp only [List.cons_append, List.nil_append]
    rw [parseString, if_neg (by decide), if_pos rfl, readEscape, if_pos rfl]
    simp only [hx, hx']
    rw [if_pos (by omega), if_pos (by omega)]
    have : 65536 + (0xD800 + n - 0xD800) * 1024 + (0xDC00 + n' - 0xDC00) = c.toNat := by omega
    rw [this, json_char_ofNat]

theorem parse_chars : ∀ (s u r : Str) (f : Nat), Spec.CharsText s u → s.length < f → parseString f (u ++ '"' :: r) = some (s, r)
  | [], u, r, f, h, hf => by
    obtain rfl : u = [] := h
    obtain ⟨f, rfl⟩ : ∃ g, f = g + 1 := ⟨f - 1, by simp at hf; omega⟩
    rfl
  | c :: s, u, r, f, h, hf => by
    obtain ⟨a, b, h1, h2, rfl⟩ := h
    obtain ⟨f, rfl⟩ : ∃ g, f = g + 1 := ⟨f - 1, by simp at hf; omega⟩
    rw [List.append_assoc, parse_char h1, parse_chars s b r f h2 (by simp at hf; omega)]
    rfl

theorem charText_pos {c : Char} {t : Str} (h : Spec.CharText c t) : 1 ≤ t.length := by
  rcases h with ⟨rfl, _⟩ | ⟨e, rfl, _⟩ | ⟨u, rfl, _⟩ | ⟨u, u', n, n', rfl, _⟩ <;> simp

theorem chars_length : ∀ (s u : Str), Spec.CharsText s u → s.length ≤ u.length
  | [], _, _ => by simp
  | c :: s, u, h => by
    obtain ⟨a, b, h1, h2, rfl⟩ := h
    have := charText_pos h1
    have := chars_length s b h2
    simp only [List.length_cons, List.length_append]
    omega

/-- A string is read to its end. -/
theorem parse_quoted {s u : Str} (h : Spec.Quoted s u) : ∃ b, u = '"' :: b ∧ ∀ r, parseString ((b ++ r).length + 1) (b ++ r) = some (s, r) := by
  obtain ⟨u, hu, rfl⟩ := h
  refine ⟨_, rfl, fun r => ?_⟩
  have := chars_length s u hu
  rw [List.append_assoc, List.singleton_append, parse_chars s u r _ hu (by simp; omega)]

/-! ### Numbers -/

theorem isDigit_iff {c : Char} : isDigit c = true ↔ '0' ≤ c ∧ c ≤ '9' := by simp [isDigit]

theorem takeDigits_of {d rest : Str} (h : ∀ c ∈ d, '0' ≤ c ∧ c ≤ '9') (hr : ∀ c ∈ rest.head?, isDigit c = false) : takeDigits (d ++ rest) = (d, rest) := by
  induction d with
  | nil =>
    cases rest with
    | nil => rfl
    | cons c r =>
      have := hr c (by simp)
      rw [List.nil_append, takeDigits, if_neg (by simp [this])]
  | cons c d ih =>
    rw [List.cons_append, takeDigits, if_pos (isDigit_iff.2 (h c (by simp))), ih (fun x hx => h x (by simp [hx]))]

theorem takeExp_of {exp rest : Str} (h : exp = [] ∨ ∃ e d, (e = 'e' ∨ e = 'E') ∧ Spec.Digits d ∧ (exp = e :: d ∨ exp = e :: '+' :: d ∨ exp = e :: '-' :: d)) (hr : Ends rest) :
    takeExp (exp ++ rest) = some (exp, rest) := by
  rcases h with rfl | ⟨e, d, he, ⟨hd0, hd⟩, h⟩
  · cases rest with
    | nil => rfl
    | cons c r =>
      obtain ⟨_, _, h1, h2⟩ := hr c (by simp)
      simp [takeExp, h1, h2]
  · have ht := takeDigits_of hd (fun c hc => (hr c hc).1)
    rcases h with rfl | rfl | rfl
    · cases d with
      | nil => exact absurd rfl hd0
      | cons c d =>
        have hc := hd c (by simp)
        have h1 : ¬ (c = '+' ∨ c = '-') := by rintro (rfl | rfl) <;> revert hc <;> decide
        simp only [takeExp, List.cons_append, if_pos he]
        rw [List.cons_append] at ht
        rw [if_neg h1, ht, if_neg (by simp)]
    · simp only [takeExp, List.cons_append, if_pos he, true_or, if_true, ht, if_neg hd0]
    · simp only [takeExp, List.cons_append, if_pos he, or_true, if_true, ht, if_neg hd0]

theorem takeFrac_of {frac rest : Str} (h : frac = [] ∨ ∃ d, Spec.Digits d ∧ frac = '.' :: d) (hr : ∀ c ∈ rest.head?, isDigit c = false ∧ c ≠ '.') : takeFrac (frac ++ rest) = some (frac, rest) := by
  rcases h with rfl | ⟨d, ⟨hd0, hd⟩, rfl⟩
  · cases rest with
    | nil => rfl
    | cons c r =>
      have := (hr c (by simp)).2
      rw [List.nil_append, takeFrac, if_neg this]
  · simp only [takeFrac, List.cons_append, if_true, takeDigits_of hd (fun c hc => (hr c hc).1), if_neg hd0]

theorem takeInt_of {int rest : Str} (h : int = ['0'] ∨ Spec.Digits int ∧ int.head? ≠ some '0') (hr : ∀ c ∈ rest.head?, isDigit c = false) : takeInt (int ++ rest) = some (int, rest) := by
  rcases h with rfl | ⟨⟨hd0, hd⟩, hz⟩
  · have := takeDigits_of (d := []) (rest := rest) (by simp) hr
    rw [List.nil_append] at this
    simp [takeInt, this]
  · have ht := takeDigits_of hd hr
    cases int with
    | nil => exact absurd rfl hd0
    | cons c d =>
      rw [List.cons_append] at ht ⊢
      rw [takeInt, if_neg (fun e => hz (by rw [e]; rfl)), ht, if_neg hd0]

theorem takeNumber_of {t rest : Str} (h : Spec.Number t) (hr : Ends rest) : takeNumber (t ++ rest) = some (t, rest) := by
  obtain ⟨sign, int, frac, exp, rfl, hs, hi, hf, he⟩ := h
  have h1 := takeExp_of he hr
  have hx : ∀ c ∈ (exp ++ rest).head?, isDigit c = false ∧ c ≠ '.' := by
    rcases he with rfl | ⟨e, d, he, _, h⟩
    · exact fun c hc => ⟨(hr c hc).1, (hr c hc).2.1⟩
    · have : ∃ y, exp = e :: y := by rcases h with rfl | rfl | rfl <;> exact ⟨_, rfl⟩
      obtain ⟨y, rfl⟩ := this
      intro c hc
      simp only [List.cons_append, List.head?_cons, Option.mem_def, Option.some.injEq] at hc
      subst hc
      rcases he with rfl | rfl <;> exact ⟨by decide, by decide⟩
  have h2 := takeFrac_of hf hx
  have hy : ∀ c ∈ (frac ++ (exp ++ rest)).head?, isDigit c = false := by
    rcases hf with rfl | ⟨d, _, rfl⟩
    · exact fun c hc => (hx c hc).1
    · intro c hc
      simp only [List.cons_append, List.head?_cons, Option.mem_def, Option.some.injEq] at hc
      subst hc; decide
  have h3 := takeInt_of hi hy
  have hint : ∃ c y, int = c :: y ∧ c ≠ '-' := by
    rcases hi with rfl | ⟨⟨hd0, hd⟩, _⟩
    · exact ⟨_, _, rfl, by decide⟩
    · cases int with
      | nil => exact absurd rfl hd0
      | cons c y => exact ⟨c, y, rfl, by rintro rfl; have := hd '-' (by simp); revert this; decide⟩
  obtain ⟨c, y, rfl, hc⟩ := hint
  rcases hs with rfl | rfl
  · have : ¬ ((([] : Str) ++ c :: y ++ frac ++ exp ++ rest).head? = some '-') := by simpa using hc
    unfold takeNumber
    rw [if_neg this]
    simp only [List.length_nil, List.drop_zero, List.nil_append, List.append_assoc, h3, h2, h1]
  · unfold takeNumber
    rw [if_pos (by simp)]
    simp only [List.length_singleton, List.append_assoc, List.singleton_append, List.cons_append, List.nil_append, List.drop_succ_cons, List.drop_zero] at h3 ⊢
    rw [h3]
    dsimp only
    rw [h2]
    dsimp only
    rw [h1]
    simp

/-! ### Values -/

theorem padded_parse {t u : Str} (h : Spec.Padded t u) : ∃ w, Spec.Blank w ∧ ∀ rest, skipWs (t ++ rest) = skipWs (u ++ (w ++ rest)) := by
  obtain ⟨a, b, ha, hb, rfl⟩ := h
  exact ⟨b, hb, fun rest => by rw [List.append_assoc, List.append_assoc, skipWs_blank ha]⟩

theorem padded_length {t u : Str} (h : Spec.Padded t u) : u.length ≤ t.length := by
  obtain ⟨a, b, _, _, rfl⟩ := h
  simp only [List.length_append]; omega

/-- How a value begins. -/
theorem json_first (v : Json) (t : Str) (h : Spec.IsJson v t) : ∃ c, c ≠ ']' ∧ c ≠ '}' ∧ 1 ≤ t.length ∧ ∀ rest, ∃ r, skipWs (t ++ rest) = c :: r := by
  have key : ∀ {u : Str} {c : Char} {y : Str}, Spec.Padded t u → u = c :: y → isJsonSpace c = false → c ≠ ']' → c ≠ '}' →
      ∃ c, c ≠ ']' ∧ c ≠ '}' ∧ 1 ≤ t.length ∧ ∀ rest, ∃ r, skipWs (t ++ rest) = c :: r := by
    intro u c y hp he hc h1 h2
    have hl := padded_length hp
    obtain ⟨w, _, hw⟩ := padded_parse hp
    refine ⟨c, h1, h2, by rw [he] at hl; simp at hl; omega, fun rest => ⟨y ++ (w ++ rest), ?_⟩⟩
    rw [hw, he, List.cons_append, skipWs_cons hc]
  cases v with
  | null => exact key h rfl (by decide) (by decide) (by decide)
  | bool b => cases b <;> exact key h rfl (by decide) (by decide) (by decide)
  | num s =>
    obtain ⟨⟨sign, int, frac, exp, rfl, hs, hi, _⟩, hp⟩ := h
    have hint : ∃ c y, int = c :: y ∧ '0' ≤ c ∧ c ≤ '9' := by
      rcases hi with rfl | ⟨⟨hd0, hd⟩, _⟩
      · exact ⟨_, _, rfl, by decide, by decide⟩
      · cases int with
        | nil => exact absurd rfl hd0
        | cons c y => exact ⟨c, y, rfl, hd c (by simp)⟩
    obtain ⟨c, y, rfl, hc⟩ := hint
    rcases hs with rfl | rfl
    · refine key hp (by simp; exact ⟨rfl, rfl⟩) ?_ ?_ ?_
      · cases hx : isJsonSpace c with
        | false => rfl
        | true =>
          simp only [isJsonSpace, Bool.or_eq_true, decide_eq_true_eq] at hx
          rcases hx with ((rfl | rfl) | rfl) | rfl <;> revert hc <;> decide
      · rintro rfl; revert hc; decide
      · rintro rfl; revert hc; decide
    · exact key hp (by simp; exact ⟨rfl, rfl⟩) (by decide) (by decide) (by decide)
  | str s => obtain ⟨u, ⟨b, _, rfl⟩, hp⟩ := h; exact key hp rfl (by decide) (by decide) (by decide)
  | arr l => obtain ⟨u, _, hp⟩ := h; exact key hp rfl (by decide) (by decide) (by decide)
  | obj l => obtain ⟨u, _, hp⟩ := h; exact key hp rfl (by decide) (by decide) (by decide)

theorem parseValue_skip (f : Nat) {t u : Str} (h : skipWs t = skipWs u) : parseValue f t = parseValue f u := by
  cases f with
  | zero => rfl
  | succ f => rw [parseValue.eq_def, parseValue.eq_def]; dsimp only; rw [h]

theorem parseEntries_skip (f : Nat) {t u : Str} (h : skipWs t = skipWs u) : parseEntries f t = parseEntries f u := by
  cases f with
  | zero => rfl
  | succ f => rw [parseEntries.eq_def, parseEntries.eq_def]; dsimp only; rw [h]

/-- A number is taken for nothing else. -/
theorem parseValue_num {c : Char} {y : Str} (f : Nat) (hc : c = '-' ∨ '0' ≤ c ∧ c ≤ '9') : parseValue (f + 1) (c :: y) = (takeNumber (c :: y)).map (fun p => (.num p.1, p.2)) := by
  have hs : isJsonSpace c = false := by
    cases hx : isJsonSpace c with
    | false => rfl
    | true =>
      simp only [isJsonSpace, Bool.or_eq_true, decide_eq_true_eq] at hx
      rcases hx with ((rfl | rfl) | rfl) | rfl <;> revert hc <;> decide
  rw [parseValue.eq_def]
  dsimp only
  rw [skipWs_cons hs]
  split
  all_goals first
    | rfl
    | (rename_i e; simp only [List.cons.injEq] at e; rw [e.1] at hc; exact absurd hc (by decide))

theorem parseValue_str (f : Nat) (r : Str) : parseValue (f + 1) ('"' :: r) = (parseString (r.length + 1) r).map (fun p => (.str p.1, p.2)) := rfl

theorem parseValue_arr0 (f : Nat) {r r' : Str} (h : skipWs r = ']' :: r') : parseValue (f + 1) ('[' :: r) = some (.arr [], r') := by
  have : parseValue (f + 1) ('[' :: r) = match skipWs r with
      | ']' :: r' => some (.arr [], r')
      | _ => (parseElems f r).map (fun p => (.arr p.1, p.2)) := rfl
  rw [this, h]
  rfl

theorem parseValue_arr (f : Nat) {r r' : Str} {c : Char} (h : skipWs r = c :: r') (hc : c ≠ ']') : parseValue (f + 1) ('[' :: r) = (parseElems f r).map (fun p => (.arr p.1, p.2)) := by
  have : parseValue (f + 1) ('[' :: r) = match skipWs r with
      | ']' :: r' => some (.arr [], r')
      | _ => (parseElems f r).map (fun p => (.arr p.1, p.2)) := rfl
  rw [this, h]
  split
  · rename_i e; simp only [List.cons.injEq] at e; exact absurd e.1 hc
  · rfl

theorem parseValue_obj0 (f : Nat) {r r' : Str} (h : skipWs r = '}' :: r') : parseValue (f + 1) ('{' :: r) = some (.obj [], r') := by
  have : parseValue (f + 1) ('{' :: r) = match skipWs r with
      | '}' :: r' => some (.obj [], r')
      | _ => (parseEntries f r).map (fun p => (.obj p.1, p.2)) := rfl
  rw [this, h]
  rfl

theorem parseValue_obj (f : Nat) {r r' : Str} (h : skipWs r = '"' :: r') : parseValue (f + 1) ('{' :: r) = (parseEntries f r).map (fun p => (.obj p.1, p.2)) := by
  have : parseValue (f + 1) ('{' :: r) = match skipWs r with
      | '}' :: r' => some (.obj [], r')
      | _ => (parseEntries f r).map (fun p => (.obj p.1, p.2)) := rfl
  rw [this, h]
  rfl

theorem parseElems_last {f : Nat} {t r r' : Str} {v : Json} (h : parseValue f t = some (v, r)) (hr : skipWs r = ']' :: r') : parseElems (f + 1) t = some ([v], r') := by
  rw [parseElems, h]
  dsimp only
  rw [hr]
  rfl

theorem parseElems_more {f : Nat} {t r r' : Str} {v : Json} (h : parseValue f t = some (v, r)) (hr : skipWs r = ',' :: r') :
    parseElems (f + 1) t = (parseElems f r').map (fun p => (v :: p.1, p.2)) := by
  conv => lhs; rw [parseElems, h]
  dsimp only
  rw [hr]
  rfl

theorem parseEntries_last {f : Nat} {t r r1 r2 r3 r4 : Str} {x : Str} {v : Json} (h : skipWs t = '"' :: r) (hs : parseString (r.length + 1) r = some (x, r1)) (hc : skipWs r1 = ':' :: r2)
    (hv : parseValue f r2 = some (v, r3)) (hr : skipWs r3 = '}' :: r4) : parseEntries (f + 1) t = some ([(x, v)], r4) := by
  rw [parseEntries, h]
  show (match parseString (r.length + 1) r with | none => none | some (x, r) => _) = _
  rw [hs]
  dsimp only
  rw [hc]
  show (match parseValue f r2 with | none => none | some (v, r) => _) = _
  rw [hv]
  dsimp only
  rw [hr]
  rfl

theorem parseEntries_more {f : Nat} {t r r1 r2 r3 r4 : Str} {x : Str} {v : Json} (h : skipWs t = '"' :: r) (hs : parseString (r.length + 1) r = some (x, r1)) (hc : skipWs r1 = ':' :: r2)
    (hv : parseValue f r2 = some (v, r3)) (hr : skipWs r3 = ',' :: r4) : parseEntries (f + 1) t = (parseEntries f r4).map (fun p => ((x, v) :: p.1, p.2)) := by
  conv => lhs; rw [parseEntries, h]
  show (match parseString (r.length + 1) r with | none => none | some (x, r) => _) = _
  rw [hs]
  dsimp only
  rw [hc]
  show (match parseValue f r2 with | none => none | some (v, r) => _) = _
  rw [hv]
  dsimp only
  rw [hr]
  rfl

mutual
/-- Every JSON text is read as the value it is a text for. -/
theorem parse_json : ∀ (v : Json) (t rest : Str) (f : Nat), Spec.IsJson v t → Ends rest → 2 * t.length ≤ f →
    ∃ r, parseValue f (t ++ rest) = some (v, r) ∧ skipWs r = skipWs rest
  | .null, t, rest, f, h, hr, hf => by
    obtain ⟨w, hw, hp⟩ := padded_parse h
    have hl := padded_length h
    obtain ⟨f, rfl⟩ : ∃ g, f = g + 1 := ⟨f - 1, by have : (str "null").length = 4 := rfl; omega⟩
    exact ⟨w ++ rest, by rw [parseValue_skip _ (hp rest)]; rfl, skipWs_blank hw rest⟩
  | .bool b, t, rest, f, h, hr, hf => by
    obtain ⟨w, hw, hp⟩ := padded_parse h
    have hl := padded_length h
    obtain ⟨f, rfl⟩ : ∃ g, f = g + 1 := ⟨f - 1, by
      have : 1 ≤ (if b = true then str "true" else str "false").length := by cases b <;> decide
      omega⟩
    exact ⟨w ++ rest, by rw [parseValue_skip _ (hp rest)]; cases b <;> rfl, skipWs_blank hw rest⟩
  | .num s, t, rest, f, h, hr, hf => by
    obtain ⟨hn, h⟩ := h
    obtain ⟨w, hw, hp⟩ := padded_parse h
    have hl := padded_length h
    have ht := takeNumber_of hn (ends_blank hw hr)
    obtain ⟨c, y, rfl, hc⟩ : ∃ c y, s = c :: y ∧ (c = '-' ∨ '0' ≤ c ∧ c ≤ '9') := by
      obtain ⟨sign, int, frac, exp, rfl, hs, hi, _⟩ := hn
      rcases hs with rfl | rfl
      · rcases hi with rfl | ⟨⟨hd0, hd⟩, _⟩
        · exact ⟨_, _, rfl, .inr ⟨by decide, by decide⟩⟩
        · cases int with
          | nil => exact absurd rfl hd0
          | cons c y => exact ⟨c, _, rfl, .inr (hd c (by simp))⟩
      · exact ⟨_, _, rfl, .inl rfl⟩
    obtain ⟨f, rfl⟩ : ∃ g, f = g + 1 := ⟨f - 1, by simp at hl; omega⟩
    exact ⟨w ++ rest, by rw [parseValue_skip _ (hp rest), List.cons_append, parseValue_num f hc, ← List.cons_append, ht]; rfl, skipWs_blank hw rest⟩
  | .str s, t, rest, f, h, hr, hf => by
    obtain ⟨u, hu, h⟩ := h
    obtain ⟨w, hw, hp⟩ := padded_parse h
    have hl := padded_length h
    obtain ⟨b, rfl, hb⟩ := parse_quoted hu
    obtain ⟨f, rfl⟩ : ∃ g, f = g + 1 := ⟨f - 1, by simp at hl; omega⟩
    refine ⟨w ++ rest, ?_, skipWs_blank hw rest⟩
    rw [parseValue_skip _ (hp rest), List.cons_append, parseValue_str, hb (w ++ rest)]
    rfl
  | .arr l, t, rest, f, h, hr, hf => by
    obtain ⟨u, hu, h⟩ := h
    obtain ⟨w, hw, hp⟩ := padded_parse h
    have hl := padded_length h
    obtain ⟨f, rfl⟩ : ∃ g, f = g + 1 := ⟨f - 1, by simp at hl; omega⟩
    refine ⟨w ++ rest, ?_, skipWs_blank hw rest⟩
    rw [parseValue_skip _ (hp rest), List.cons_append, List.append_assoc, List.singleton_append]
    cases l with
    | nil => exact parseValue_arr0 f (by rw [skipWs_blank hu, skipWs_cons (by decide)])
    | cons v l =>
      have he := parse_elems (v :: l) u (w ++ rest) f (by simp) hu (by simp at hl; omega)
      obtain ⟨a, ha, hb⟩ := hu
      obtain ⟨c, h1, _, _, h3⟩ := json_first v a ha
      have hne : ∃ r, skipWs (u ++ ']' :: (w ++ rest)) = c :: r := by
        rcases hb with ⟨_, rfl⟩ | ⟨_, b, _, rfl⟩
        · exact h3 _
        · rw [List.append_assoc]; exact h3 _
      obtain ⟨r, hne⟩ := hne
      rw [parseValue_arr f hne h1, he]
      rfl
  | .obj l, t, rest, f, h, hr, hf => by
    obtain ⟨u, hu, h⟩ := h
    obtain ⟨w, hw, hp⟩ := padded_parse h
    have hl := padded_length h
    obtain ⟨f, rfl⟩ : ∃ g, f = g + 1 := ⟨f - 1, by simp at hl; omega⟩
    refine ⟨w ++ rest, ?_, skipWs_blank hw rest⟩
    rw [parseValue_skip _ (hp rest), List.cons_append, List.append_assoc, List.singleton_append]
    cases l with
    | nil => exact parseValue_obj0 f (by rw [skipWs_blank hu, skipWs_cons (by decide)])
    | cons e l =>
      have he := parse_members (e :: l) u (w ++ rest) f (by simp) hu (by simp at hl; omega)
      obtain ⟨x, v⟩ := e
      obtain ⟨q, p, a, ⟨b, _, rfl⟩, hp', _, hb⟩ := hu
      obtain ⟨w', _, hw'⟩ := padded_parse hp'
      have hne : ∃ r, skipWs (u ++ '}' :: (w ++ rest)) = '"' :: r := by
        rcases hb with ⟨_, rfl⟩ | ⟨_, b', _, rfl⟩
        · rw [List.append_assoc, hw', List.cons_append, skipWs_cons (by decide)]; exact ⟨_, rfl⟩
        · rw [List.append_assoc, hw', List.cons_append, skipWs_cons (by decide)]; exact ⟨_, rfl⟩
      obtain ⟨r, hne⟩ := hne
      rw [parseValue_obj f hne, he]
      rfl
termination_by structural v => v

theorem parse_elems : ∀ (l : List Json) (u rest : Str) (f : Nat), l ≠ [] → Spec.Elements l u → 2 * u.length + 1 ≤ f → parseElems f (u ++ ']' :: rest) = some (l, rest)
  | [], _, _, _, h, _, _ => absurd rfl h
  | v :: l, u, rest, f, _, h, hf => by
    obtain ⟨a, ha, h⟩ := h
    obtain ⟨f, rfl⟩ : ∃ g, f = g + 1 := ⟨f - 1, by omega⟩
    rcases h with ⟨rfl, rfl⟩ | ⟨hl, b, hb, rfl⟩
    · obtain ⟨r, h1, h2⟩ := parse_json v u (']' :: rest) f ha (ends_cons (by decide) (by decide) (by decide) (by decide)) (by omega)
      exact parseElems_last h1 (by rw [h2, skipWs_cons (by decide)])
    · simp only [List.length_append, List.length_cons] at hf
      obtain ⟨r, h1, h2⟩ := parse_json v a (',' :: (b ++ ']' :: rest)) f ha (ends_cons (by decide) (by decide) (by decide) (by decide)) (by omega)
      have h3 := parse_elems l b rest f hl hb (by omega)
      rw [List.append_assoc, List.cons_append, parseElems_more h1 (by rw [h2, skipWs_cons (by decide)]), h3]
      rfl
termination_by structural l => l

theorem parse_members : ∀ (l : List (Str × Json)) (u rest : Str) (f : Nat), l ≠ [] → Spec.Members l u → 2 * u.length + 1 ≤ f → parseEntries f (u ++ '}' :: rest) = some (l, rest)
  | [], _, _, _, h, _, _ => absurd rfl h
  | (x, v) :: l, u, rest, f, _, h, hf => by
    obtain ⟨q, p, a, hq, hp, ha, h⟩ := h
    obtain ⟨f, rfl⟩ : ∃ g, f = g + 1 := ⟨f - 1, by omega⟩
    obtain ⟨w, hw, hpp⟩ := padded_parse hp
    obtain ⟨b, rfl, hb⟩ := parse_quoted hq
    rcases h with ⟨rfl, rfl⟩ | ⟨hl, b', hb', rfl⟩
    · simp only [List.length_append, List.length_cons] at hf
      obtain ⟨r, h1, h2⟩ := parse_json v a ('}' :: rest) f ha (ends_cons (by decide) (by decide) (by decide) (by decide)) (by omega)
      rw [List.append_assoc, List.cons_append]
      exact parseEntries_last (by rw [hpp, List.cons_append, skipWs_cons (by decide)]) (hb _) (by rw [skipWs_blank hw, skipWs_cons (by decide)]) h1 (by rw [h2, skipWs_cons (by decide)])
    · simp only [List.length_append, List.length_cons] at hf
      obtain ⟨r, h1, h2⟩ := parse_json v a (',' :: (b' ++ '}' :: rest)) f ha (ends_cons (by decide) (by decide) (by decide) (by decide)) (by omega)
      have h3 := parse_members l b' rest f hl hb' (by omega)
      rw [List.append_assoc, List.cons_append, List.append_assoc, List.cons_append,
        parseEntries_more (by rw [hpp, List.cons_append, skipWs_cons (by decide)]) (hb _) (by rw [skipWs_blank hw, skipWs_cons (by decide)]) h1 (by rw [h2, skipWs_cons (by decide)]), h3]
      rfl
termination_by structural l => l
end

/-- Every JSON text is read, as the value it is a text for. -/
theorem jsonParse_of {v : Json} {t : Str} (h : Spec.IsJson v t) : jsonParse t = some v := by
  obtain ⟨r, h1, h2⟩ := parse_json v t [] (2 * t.length + 2) h (fun c hc => by cases hc) (by omega)
  rw [List.append_nil] at h1
  rw [jsonParse, h1]
  try dsimp only
  rw [h2]
  rfl

/-! ### Writing -/

theorem hexDigit_hex (n : Nat) (h : n < 16) : Spec.Hex (hexDigit n) n := by
  have : ∀ n : Fin 16, ('0' ≤ hexDigit n ∧ hexDigit n ≤ '9' ∧ n.val + 48 = (hexDigit n).toNat) ∨ ('a' ≤ hexDigit n ∧ hexDigit n ≤ 'f' ∧ n.val + 87 = (hexDigit n).toNat) := by decide
  rcases this ⟨n, h⟩ with h | h
  · exact .inl h
  · exact .inr (.inl h)

theorem escape_text (c : Char) : Spec.CharText c (escapeChar c) := by
  unfold escapeChar
  have hof : ∀ k, c.toNat = k → c = Char.ofNat k := fun k h => by rw [← h, json_char_ofNat]
  split
  · next h => subst h; exact .inr (.inl ⟨'"', rfl, by simp⟩)
  split
  · next h => subst h; exact .inr (.inl ⟨'\\', rfl, by simp⟩)
  split
  · next h1 h2 h3 => exact .inl ⟨rfl, h3, h1, h2⟩
  split
  · next h => exact .inr (.inl ⟨'b', rfl, by rw [hof _ h]; decide⟩)
  split
  · next h => exact .inr (.inl ⟨'t', rfl, by rw [hof _ h]; decide⟩)
  split
  · next h => exact .inr (.inl ⟨'n', rfl, by rw [hof _ h]; decide⟩)
  split
  · next h => exact .inr (.inl ⟨'f', rfl, by rw [hof _ h]; decide⟩)
  split
  · next h => exact .inr (.inl ⟨'r', rfl, by rw [hof _ h]; decide⟩)
  · next h _ _ _ _ _ =>
    refine .inr (.inr (.inl ⟨_, rfl, '0', '0', _, _, 0, 0, c.toNat / 16, c.toNat % 16, rfl, ?_, ?_, hexDigit_hex _ (by omega), hexDigit_hex _ (by omega), by omega⟩))
    · exact .inl ⟨by decide, by decide, rfl⟩
    · exact .inl ⟨by decide, by decide, rfl⟩

theorem quote_text (s : Str) : Spec.Quoted s (quote s) := by
  refine ⟨_, ?_, rfl⟩
  induction s with
  | nil => rfl
  | cons c s ih => exact ⟨_, _, escape_text c, ih, by simp⟩

theorem blank_spaces (k : Nat) : Spec.Blank ('\n' :: spaces k) := by
  intro c hc
  rcases List.mem_cons.1 hc with rfl | hc
  · exact .inr (.inl rfl)
  · exact .inl (List.eq_of_mem_replicate hc)

theorem blank_nil : Spec.Blank [] := by intro c hc; cases hc

theorem padded_self (t : Str) : Spec.Padded t t := ⟨[], [], blank_nil, blank_nil, by simp⟩

theorem blank_append {a b : Str} (ha : Spec.Blank a) (hb : Spec.Blank b) : Spec.Blank (a ++ b) := by
  intro c hc
  rcases List.mem_append.1 hc with h | h
  exacts [ha c h, hb c h]

theorem padded_append {a b t u : Str} (ha : Spec.Blank a) (hb : Spec.Blank b) (h : Spec.Padded t u) : Spec.Padded (a ++ t ++ b) u := by
  obtain ⟨a', b', h1, h2, rfl⟩ := h
  exact ⟨a ++ a', b' ++ b, blank_append ha h1, blank_append h2 hb, by simp⟩

/-- White space around a JSON text. -/
theorem json_pad {v : Json} {a b t : Str} (ha : Spec.Blank a) (hb : Spec.Blank b) (h : Spec.IsJson v t) : Spec.IsJson v (a ++ t ++ b) := by
  cases v with
  | null => exact padded_append ha hb h
  | bool _ => exact padded_append ha hb h
  | num _ => exact ⟨h.1, padded_append ha hb h.2⟩
  | str _ => obtain ⟨u, h1, h2⟩ := h; exact ⟨u, h1, padded_append ha hb h2⟩
  | arr _ => obtain ⟨u, h1, h2⟩ := h; exact ⟨u, h1, padded_append ha hb h2⟩
  | obj _ => obtain ⟨u, h1, h2⟩ := h; exact ⟨u, h1, padded_append ha hb h2⟩

mutual
/-- All numbers in the value are numbers. -/
def Spec.NumbersOk : Json → Prop
  | .null => True
  | .bool _ => True
  | .num t => Spec.Number t
  | .str _ => True
  | .arr l => Spec.NumbersOkArr l
  | .obj l => Spec.NumbersOkObj l
def Spec.NumbersOkArr : List Json → Prop
  | [] => True
  | v :: r => Spec.NumbersOk v ∧ Spec.NumbersOkArr r
def Spec.NumbersOkObj : List (Str × Json) → Prop
  | [] => True
  | (_, v) :: r => Spec.NumbersOk v ∧ Spec.NumbersOkObj r
end

mutual
/-- What is written is a JSON text for the value. -/
theorem render_json : ∀ (v : Json) (k : Nat), Spec.NumbersOk v → Spec.IsJson v (render k v)
  | .null, _, _ => padded_self _
  | .bool _, _, _ => padded_self _
  | .num _, _, h => ⟨h, padded_self _⟩
  | .str s, _, _ => ⟨_, quote_text s, padded_self _⟩
  | .arr [], _, _ => ⟨[], blank_nil, padded_self _⟩
  | .arr (v :: l), k, h => by
    refine ⟨'\n' :: spaces (k + 1) ++ render (k + 1) v ++ renderArr (k + 1) l ++ '\n' :: spaces k, ?_, ?_⟩
    · exact render_elems l v (k + 1) _ _ (blank_spaces (k + 1)) (blank_spaces k) h.2 (render_json v (k + 1) h.1)
    · have : render k (.arr (v :: l)) = '[' :: ('\n' :: spaces (k + 1) ++ render (k + 1) v ++ renderArr (k + 1) l ++ '\n' :: spaces k ++ [']']) := by rw [render]; simp
      rw [this]
      exact padded_self _
  | .obj [], _, _ => ⟨[], blank_nil, padded_self _⟩
  | .obj ((x, v) :: l), k, h => by
    refine ⟨'\n' :: spaces (k + 1) ++ quote x ++ ':' :: (' ' :: render (k + 1) v ++ renderObj (k + 1) l ++ '\n' :: spaces k), ?_, ?_⟩
    · exact render_members l x v (k + 1) _ _ (blank_spaces (k + 1)) (blank_spaces k) h.2 (render_json v (k + 1) h.1)
    · have : render k (.obj ((x, v) :: l)) = '{' :: ('\n' :: spaces (k + 1) ++ quote x ++ ':' :: (' ' :: render (k + 1) v ++ renderObj (k + 1) l ++ '\n' :: spaces k) ++ ['}']) := by
        rw [render]; simp
      rw [this]
      exact padded_self _
termination_by structural v => v

theorem render_elems : ∀ (l : List Json) (v : Json) (k : Nat) (a b : Str), Spec.Blank a → Spec.Blank b → Spec.NumbersOkArr l → Spec.IsJson v (render k v) →
    Spec.Elements (v :: l) (a ++ render k v ++ renderArr k l ++ b)
  | [], v, k, a, b, ha, hb, _, hv => ⟨_, json_pad ha hb hv, .inl ⟨rfl, by simp [renderArr]⟩⟩
  | w :: l, v, k, a, b, ha, hb, hl, hv => by
    refine ⟨a ++ render k v ++ [], json_pad ha blank_nil hv, .inr ⟨by simp, _, render_elems l w k ('\n' :: spaces k) b (blank_spaces k) hb hl.2 (render_json w k hl.1), ?_⟩⟩
    simp [renderArr]
termination_by structural l => l

theorem render_members : ∀ (l : List (Str × Json)) (x : Str) (v : Json) (k : Nat) (a b : Str), Spec.Blank a → Spec.Blank b → Spec.NumbersOkObj l → Spec.IsJson v (render k v) →
    Spec.Members ((x, v) :: l) (a ++ quote x ++ ':' :: (' ' :: render k v ++ renderObj k l ++ b))
  | [], x, v, k, a, b, ha, hb, _, hv => by
    refine ⟨quote x, a ++ quote x ++ [], [' '] ++ render k v ++ b, quote_text x, padded_append ha blank_nil (padded_self _), json_pad (by intro c hc; simp at hc; exact .inl hc) hb hv, .inl ⟨rfl, ?_⟩⟩
    simp [renderObj]
  | (y, w) :: l, x, v, k, a, b, ha, hb, hl, hv => by
    refine ⟨quote x, a ++ quote x ++ [], [' '] ++ render k v ++ [], quote_text x, padded_append ha blank_nil (padded_self _),
      json_pad (by intro c hc; simp at hc; exact .inl hc) blank_nil hv, .inr ⟨by simp, _, render_members l y w k ('\n' :: spaces k) b (blank_spaces k) hb hl.2 (render_json w k hl.1), ?_⟩⟩
    simp [renderObj]
termination_by structural l => l
end

/-- What is written is read back. -/
theorem json_roundtrip {v : Json} (h : Spec.NumbersOk v) : jsonParse (jsonPretty v) = some v := jsonParse_of (render_json v 0 h)

end SB
