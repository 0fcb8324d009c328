import Verif.Lib.JsonLemmas

/-!
# What the reader accepts is a JSON text
-/

namespace SB

theorem skipWs_split (t : Str) : ∃ w, Spec.Blank w ∧ t = w ++ skipWs t := by
  induction t with
  | nil => exact ⟨[], blank_nil, rfl⟩
  | cons c t ih =>
    rw [skipWs]
    split
    · next h =>
      obtain ⟨w, hw, he⟩ := ih
      refine ⟨c :: w, ?_, by rw [List.cons_append, ← he]⟩
      intro x hx
      rcases List.mem_cons.1 hx with rfl | hx
      · simpa [isJsonSpace, or_assoc] using h
      · exact hw x hx
    · exact ⟨[], blank_nil, rfl⟩

theorem hexVal_sound {c : Char} {n : Nat} (h : hexVal c = some n) : Spec.Hex c n ∧ n < 16 := by
  unfold hexVal at h
  have le : ∀ a b : Char, a ≤ b → a.toNat ≤ b.toNat := fun a b h => h
  split at h
  · next hc =>
    cases h
    have h1 := le _ _ hc.1
    have h2 := le _ _ hc.2
    have e1 : '0'.toNat = 48 := rfl
    have e2 : '9'.toNat = 57 := rfl
    exact ⟨.inl ⟨hc.1, hc.2, by omega⟩, by omega⟩
  split at h
  · next hc =>
    cases h
    have h1 := le _ _ hc.1
    have h2 := le _ _ hc.2
    have e1 : 'a'.toNat = 97 := rfl
    have e2 : 'f'.toNat = 102 := rfl
    exact ⟨.inr (.inl ⟨hc.1, hc.2, by omega⟩), by omega⟩
  split at h
  · next hc =>
    cases h
    have h1 := le _ _ hc.1
    have h2 := le _ _ hc.2
    have e1 : 'A'.toNat = 65 := rfl
    have e2 : 'F'.toNat = 70 := rfl
    exact ⟨.inr (.inr ⟨hc.1, hc.2, by omega⟩), by omega⟩
  · cases h

theorem hex4_sound {a b c d : Char} {n : Nat} (h : hex4 a b c d = some n) : Spec.Hex4 [a, b, c, d] n ∧ n < 0x10000 := by
  unfold hex4 at h
  cases h1 : hexVal a with
  | none => simp [h1] at h
  | some na =>
  cases h2 : hexVal b with
  | none => simp [h1, h2] at h
  | some nb =>
  cases h3 : hexVal c with
  | none => simp [h1, h2, h3] at h
  | some nc =>
  cases h4 : hexVal d with
  | none => simp [h1, h2, h3, h4] at h
  | some nd =>
    simp [h1, h2, h3, h4] at h
    obtain ⟨s1, l1⟩ := hexVal_sound h1
    obtain ⟨s2, l2⟩ := hexVal_sound h2
    obtain ⟨s3, l3⟩ := hexVal_sound h3
    obtain ⟨s4, l4⟩ := hexVal_sound h4
    exact ⟨⟨a, b, c, d, na, nb, nc, nd, rfl, s1, s2, s3, s4, by omega⟩, by omega⟩

theorem toNat_ofNat_valid {n : Nat} (h : n.isValidChar) : (Char.ofNat n).toNat = n := by
  rw [Char.ofNat, dif_pos h]; rfl

theorem readEscape_sound {r r' : Str} {c : Char} (h : readEscape r = some (c, r')) : ∃ t, '\\' :: r = t ++ r' ∧ Spec.CharText c t := by
  cases r with
  | nil => cases h
  | cons e r =>
    rw [readEscape.eq_def] at h
    dsimp only at h
    split at h
    · next he =>
      subst he
      split at h
      · next a b x d r1 =>
        split at h
        · cases h
        · next n hn =>
          obtain ⟨hx, hl⟩ := hex4_sound hn
          split at h
          · next hs =>
            split at h
            · next a' b' c' d' r2 =>
              split at h
              · cases h
              · next n' hn' =>
                obtain ⟨hx', hl'⟩ := hex4_sound hn'
                split at h
                · next hs' =>
                  simp only [Option.some.injEq, Prod.mk.injEq] at h
                  obtain ⟨rfl, rfl⟩ := h
                  refine ⟨'\\' :: 'u' :: ([a, b, x, d] ++ '\\' :: 'u' :: [a', b', c', d']), rfl, .inr (.inr (.inr ⟨[a, b, x, d], [a', b', c', d'], n - 0xD800, n' - 0xDC00, rfl, ?_, ?_, by omega, by omega, ?_⟩))⟩
                  · rw [show 0xD800 + (n - 0xD800) = n by omega]; exact hx
                  · rw [show 0xDC00 + (n' - 0xDC00) = n' by omega]; exact hx'
                  · exact toNat_ofNat_valid (.inr ⟨by omega, by omega⟩)
                · cases h
            · cases h
          · next hs =>
            split at h
            · cases h
            · next hs' =>
              simp only [Option.some.injEq, Prod.mk.injEq] at h
              obtain ⟨rfl, rfl⟩ := h
              refine ⟨'\\' :: 'u' :: [a, b, x, d], rfl, .inr (.inr (.inl ⟨[a, b, x, d], rfl, ?_⟩))⟩
              rw [toNat_ofNat_valid (by unfold Nat.isValidChar; omega)]
              exact hx
      · cases h
    · obtain ⟨y, hy, hp⟩ := Option.map_eq_some_iff.1 h
      simp only [Prod.mk.injEq] at hp
      obtain ⟨rfl, rfl⟩ := hp
      refine ⟨['\\', e], rfl, .inr (.inl ⟨e, rfl, ?_⟩)⟩
      unfold escapeOf at hy
      split at hy
      · next he => cases hy; rw [he]; simp
      split at hy
      · next he => cases hy; rw [he]; simp
      split at hy
      · next he => cases hy; rw [he]; simp
      split at hy
      · next he => cases hy; rw [he]; simp
      split at hy
      · next he => cases hy; rw [he]; simp
      split at hy
      · next he => cases hy; rw [he]; simp
      split at hy
      · next he => cases hy; rw [he]; simp
      split at hy
      · next he => cases hy; rw [he]; simp
      · cases hy

theorem parseString_sound : ∀ (f : Nat) (r s r' : Str), parseString f r = some (s, r') → ∃ u, Spec.CharsText s u ∧ r = u ++ '"' :: r' := by
  intro f
  induction f with
  | zero => intro r s r' h; rw [parseString] at h; cases h
  | succ f ih =>
    intro r s r' h
    cases r with
    | nil => rw [parseString] at h; cases h
    | cons c r =>
      rw [parseString] at h
      split at h
      · next hc =>
        simp only [Option.some.injEq, Prod.mk.injEq] at h
        obtain ⟨rfl, rfl⟩ := h
        exact ⟨[], rfl, by rw [hc]; rfl⟩
      split at h
      · next hc =>
        split at h
        · cases h
        · next c' r1 he =>
          obtain ⟨⟨s1, r2⟩, hp, hq⟩ := Option.map_eq_some_iff.1 h
          simp only [Prod.mk.injEq] at hq
          obtain ⟨rfl, rfl⟩ := hq
          obtain ⟨u, hu, rfl⟩ := ih _ _ _ hp
          obtain ⟨t, ht, hct⟩ := readEscape_sound he
          exact ⟨t ++ u, ⟨t, u, hct, hu, rfl⟩, by rw [hc, ht, List.append_assoc]⟩
      split at h
      · cases h
      · next h1 h2 h3 =>
        obtain ⟨⟨s1, r2⟩, hp, hq⟩ := Option.map_eq_some_iff.1 h
        simp only [Prod.mk.injEq] at hq
        obtain ⟨rfl, rfl⟩ := hq
        obtain ⟨u, hu, rfl⟩ := ih _ _ _ hp
        exact ⟨c :: u, ⟨[c], u, .inl ⟨rfl, by omega, h1, h2⟩, hu, rfl⟩, rfl⟩

theorem takeDigits_sound (t : Str) : t = (takeDigits t).1 ++ (takeDigits t).2 ∧ ∀ c ∈ (takeDigits t).1, '0' ≤ c ∧ c ≤ '9' := by
  induction t with
  | nil => exact ⟨rfl, fun c hc => by cases hc⟩
  | cons c t ih =>
    rw [takeDigits]
    split
    · next h =>
      refine ⟨by dsimp only; rw [List.cons_append, ← ih.1], fun x hx => ?_⟩
      rcases List.mem_cons.1 hx with rfl | hx
      · exact isDigit_iff.1 h
      · exact ih.2 x hx
    · exact ⟨rfl, fun c hc => by cases hc⟩

theorem takeExp_sound {t e u : Str} (h : takeExp t = some (e, u)) : t = e ++ u ∧
    (e = [] ∨ ∃ x d, (x = 'e' ∨ x = 'E') ∧ Spec.Digits d ∧ (e = x :: d ∨ e = x :: '+' :: d ∨ e = x :: '-' :: d)) := by
  cases t with
  | nil => rw [takeExp] at h; cases h; exact ⟨rfl, .inl rfl⟩
  | cons x r =>
    rw [takeExp.eq_def] at h
    dsimp only at h
    split at h
    · next hx =>
      cases r with
      | nil => cases h
      | cons s r =>
        dsimp only at h
        split at h
        · next hs =>
          split at h
          · cases h
          · next hd =>
            simp only [Option.some.injEq, Prod.mk.injEq] at h
            obtain ⟨rfl, rfl⟩ := h
            obtain ⟨h1, h2⟩ := takeDigits_sound r
            refine ⟨by rw [List.cons_append, List.cons_append, ← h1], .inr ⟨x, _, hx, ⟨hd, h2⟩, ?_⟩⟩
            rcases hs with rfl | rfl
            · exact .inr (.inl rfl)
            · exact .inr (.inr rfl)
        · split at h
          · cases h
          · next hd =>
            simp only [Option.some.injEq, Prod.mk.injEq] at h
            obtain ⟨rfl, rfl⟩ := h
            obtain ⟨h1, h2⟩ := takeDigits_sound (s :: r)
            exact ⟨by rw [List.cons_append, ← h1], .inr ⟨x, _, hx, ⟨hd, h2⟩, .inl rfl⟩⟩
    · simp only [Option.some.injEq, Prod.mk.injEq] at h
      obtain ⟨rfl, rfl⟩ := h
      exact ⟨rfl, .inl rfl⟩

theorem takeFrac_sound {t e u : Str} (h : takeFrac t = some (e, u)) : t = e ++ u ∧ (e = [] ∨ ∃ d, Spec.Digits d ∧ e = '.' :: d) := by
  cases t with
  | nil => rw [takeFrac] at h; cases h; exact ⟨rfl, .inl rfl⟩
  | cons x r =>
    rw [takeFrac] at h
    split at h
    · next hx =>
      split at h
      · cases h
      · next hd =>
        simp only [Option.some.injEq, Prod.mk.injEq] at h
        obtain ⟨rfl, rfl⟩ := h
        obtain ⟨h1, h2⟩ := takeDigits_sound r
        exact ⟨by rw [hx, List.cons_append, ← h1], .inr ⟨_, ⟨hd, h2⟩, rfl⟩⟩
    · simp only [Option.some.injEq, Prod.mk.injEq] at h
      obtain ⟨rfl, rfl⟩ := h
      exact ⟨rfl, .inl rfl⟩

theorem takeInt_sound {t i u : Str} (h : takeInt t = some (i, u)) : t = i ++ u ∧ (i = ['0'] ∨ Spec.Digits i ∧ i.head? ≠ some '0') := by
  cases t with
  | nil => rw [takeInt] at h; cases h
  | cons x r =>
    rw [takeInt] at h
    split at h
    · next hx =>
      split at h
      · simp only [Option.some.injEq, Prod.mk.injEq] at h
        obtain ⟨rfl, rfl⟩ := h
        exact ⟨by rw [hx]; rfl, .inl rfl⟩
      · cases h
    · next hx =>
      split at h
      · cases h
      · next hd =>
        obtain ⟨h1, h2⟩ := takeDigits_sound (x :: r)
        have h := Option.some.inj h
        rw [h] at h1 h2 hd
        refine ⟨h1, .inr ⟨⟨hd, h2⟩, ?_⟩⟩
        cases i with
        | nil => exact absurd rfl hd
        | cons y i =>
          rw [List.cons_append, List.cons.injEq] at h1
          intro hh
          exact hx (h1.1.trans (Option.some.inj hh))

theorem takeNumber_sound {t n u : Str} (h : takeNumber t = some (n, u)) : t = n ++ u ∧ Spec.Number n := by
  unfold takeNumber at h
  dsimp only at h
  have hsign : ∃ sign, (if t.head? = some '-' then ['-'] else ([] : Str)) = sign ∧ (sign = [] ∨ sign = ['-']) ∧ t = sign ++ t.drop sign.length := by
    split
    · next hh =>
      cases t with
      | nil => cases hh
      | cons c t => cases hh; exact ⟨_, rfl, .inr rfl, rfl⟩
    · exact ⟨_, rfl, .inl rfl, rfl⟩
  obtain ⟨sign, hs, hs', ht⟩ := hsign
  rw [hs] at h
  split at h
  · cases h
  · next i v hi =>
    split at h
    · cases h
    · next fr w hf =>
      split at h
      · cases h
      · next e y he =>
        simp only [Option.some.injEq, Prod.mk.injEq] at h
        obtain ⟨rfl, rfl⟩ := h
        obtain ⟨h1, h1'⟩ := takeInt_sound hi
        obtain ⟨h2, h2'⟩ := takeFrac_sound hf
        obtain ⟨h3, h3'⟩ := takeExp_sound he
        refine ⟨?_, sign, i, fr, e, rfl, hs', h1', h2', h3'⟩
        rw [ht, h1, h2, h3]
        simp

theorem padded_of_skip {t u r : Str} (h : skipWs t = u ++ r) : ∃ x, Spec.Padded x u ∧ t = x ++ r := by
  obtain ⟨w, hw, ht⟩ := skipWs_split t
  exact ⟨w ++ u, ⟨w, [], hw, blank_nil, by simp⟩, by rw [ht, h, List.append_assoc]⟩

theorem padded_right {x u w : Str} (h : Spec.Padded x u) (hw : Spec.Blank w) : Spec.Padded (x ++ w) u := by
  have := padded_append blank_nil hw h
  simpa using this

/-- What `parseValue`, `parseElems` and `parseEntries` read are JSON texts. -/
theorem parse_sound : ∀ (f : Nat),
    (∀ (t r : Str) (v : Json), parseValue f t = some (v, r) → ∃ u, Spec.IsJson v u ∧ t = u ++ r) ∧
    (∀ (t r : Str) (l : List Json), parseElems f t = some (l, r) → l ≠ [] ∧ ∃ u, Spec.Elements l u ∧ t = u ++ ']' :: r) ∧
    (∀ (t r : Str) (l : List (Str × Json)), parseEntries f t = some (l, r) → l ≠ [] ∧ ∃ u, Spec.Members l u ∧ t = u ++ '}' :: r) := by
  intro f
  induction f with
  | zero => exact ⟨(fun t r v h => by rw [parseValue] at h; cases h), (fun t r v h => by rw [parseElems] at h; cases h), (fun t r v h => by rw [parseEntries] at h; cases h)⟩
  | succ f ih =>
    obtain ⟨ihV, ihE, ihM⟩ := ih
    refine ⟨fun t r v h => ?_, fun t r l h => ?_, fun t r l h => ?_⟩
    · rw [parseValue] at h
      split at h
      · next r1 hs =>
        simp only [Option.some.injEq, Prod.mk.injEq] at h
        obtain ⟨rfl, rfl⟩ := h
        obtain ⟨x, hx, rfl⟩ := padded_of_skip (u := str "null") hs
        exact ⟨x, by rw [Spec.IsJson]; exact hx, rfl⟩
      · next r1 hs =>
        simp only [Option.some.injEq, Prod.mk.injEq] at h
        obtain ⟨rfl, rfl⟩ := h
        obtain ⟨x, hx, rfl⟩ := padded_of_skip (u := str "true") hs
        exact ⟨x, by rw [Spec.IsJson]; exact hx, rfl⟩
      · next r1 hs =>
        simp only [Option.some.injEq, Prod.mk.injEq] at h
        obtain ⟨rfl, rfl⟩ := h
        obtain ⟨x, hx, rfl⟩ := padded_of_skip (u := str "false") hs
        exact ⟨x, by rw [Spec.IsJson]; exact hx, rfl⟩
      · next r1 hs =>
        obtain ⟨⟨s1, r2⟩, hp, hq⟩ := Option.map_eq_some_iff.1 h
        simp only [Prod.mk.injEq] at hq
        obtain ⟨rfl, rfl⟩ := hq
        obtain ⟨u, hu, rfl⟩ := parseString_sound _ _ _ _ hp
        obtain ⟨x, hx, rfl⟩ := padded_of_skip (u := '"' :: (u ++ ['"'])) (r := r2) (by rw [hs]; simp)
        exact ⟨x, by rw [Spec.IsJson]; exact ⟨_, ⟨u, hu, rfl⟩, hx⟩, rfl⟩
      · next r1 hs =>
        split at h
        · next r2 hs2 =>
          simp only [Option.some.injEq, Prod.mk.injEq] at h
          obtain ⟨rfl, rfl⟩ := h
          obtain ⟨w, hw, hr1⟩ := skipWs_split r1
          obtain ⟨x, hx, rfl⟩ := padded_of_skip (u := '[' :: (w ++ [']'])) (r := r2) (by rw [hs, hr1, hs2]; simp)
          exact ⟨x, by rw [Spec.IsJson]; exact ⟨w, by rw [Spec.Elements]; exact hw, hx⟩, rfl⟩
        · obtain ⟨⟨l, r2⟩, hp, hq⟩ := Option.map_eq_some_iff.1 h
          simp only [Prod.mk.injEq] at hq
          obtain ⟨rfl, rfl⟩ := hq
          obtain ⟨_, u, hu, rfl⟩ := ihE _ _ _ hp
          obtain ⟨x, hx, rfl⟩ := padded_of_skip (u := '[' :: (u ++ [']'])) (r := r2) (by rw [hs]; simp)
          exact ⟨x, by rw [Spec.IsJson]; exact ⟨u, hu, hx⟩, rfl⟩
      · next r1 hs =>
        split at h
        · next r2 hs2 =>
          simp only [Option.some.injEq, Prod.mk.injEq] at h
          obtain ⟨rfl, rfl⟩ := h
          obtain ⟨w, hw, hr1⟩ := skipWs_split r1
          obtain ⟨x, hx, rfl⟩ := padded_of_skip (u := '{' :: (w ++ ['}'])) (r := r2) (by rw [hs, hr1, hs2]; simp)
          exact ⟨x, by rw [Spec.IsJson]; exact ⟨w, by rw [Spec.Members]; exact hw, hx⟩, rfl⟩
        · obtain ⟨⟨l, r2⟩, hp, hq⟩ := Option.map_eq_some_iff.1 h
          simp only [Prod.mk.injEq] at hq
          obtain ⟨rfl, rfl⟩ := hq
          obtain ⟨_, u, hu, rfl⟩ := ihM _ _ _ hp
          obtain ⟨x, hx, rfl⟩ := padded_of_skip (u := '{' :: (u ++ ['}'])) (r := r2) (by rw [hs]; simp)
          exact ⟨x, by rw [Spec.IsJson]; exact ⟨u, hu, hx⟩, rfl⟩
      · obtain ⟨⟨n, r2⟩, hp, hq⟩ := Option.map_eq_some_iff.1 h
        simp only [Prod.mk.injEq] at hq
        obtain ⟨rfl, rfl⟩ := hq
        obtain ⟨h1, h2⟩ := takeNumber_sound hp
        obtain ⟨x, hx, rfl⟩ := padded_of_skip h1
        exact ⟨x, by rw [Spec.IsJson]; exact ⟨h2, hx⟩, rfl⟩
    · rw [parseElems] at h
      split at h
      · cases h
      · next v r1 hv =>
        obtain ⟨a, ha, rfl⟩ := ihV _ _ _ hv
        obtain ⟨w, hw, hr1⟩ := skipWs_split r1
        have ha' := json_pad blank_nil hw ha
        rw [List.nil_append] at ha'
        split at h
        · next r2 hs =>
          obtain ⟨⟨l', r3⟩, hp, hq⟩ := Option.map_eq_some_iff.1 h
          simp only [Prod.mk.injEq] at hq
          obtain ⟨rfl, rfl⟩ := hq
          obtain ⟨hl, b, hb, rfl⟩ := ihE _ _ _ hp
          refine ⟨by simp, a ++ w ++ ',' :: b, ?_, ?_⟩
          · rw [Spec.Elements]; exact ⟨a ++ w, ha', .inr ⟨hl, b, hb, rfl⟩⟩
          · rw [hr1, hs]; simp
        · next r2 hs =>
          simp only [Option.some.injEq, Prod.mk.injEq] at h
          obtain ⟨rfl, rfl⟩ := h
          refine ⟨by simp, a ++ w, ?_, ?_⟩
          · rw [Spec.Elements]; exact ⟨a ++ w, ha', .inl ⟨rfl, rfl⟩⟩
          · rw [hr1, hs]; simp
        · cases h
    · rw [parseEntries] at h
      split at h
      · next r1 hs =>
        split at h
        · cases h
        · next x r2 hx =>
          obtain ⟨u, hu, rfl⟩ := parseString_sound _ _ _ _ hx
          split at h
          · next r3 hs3 =>
            split at h
            · cases h
            · next v r4 hv =>
              obtain ⟨a, ha, rfl⟩ := ihV _ _ _ hv
              obtain ⟨w2, hw2, hr2⟩ := skipWs_split r2
              obtain ⟨w, hw, hr4⟩ := skipWs_split r4
              have ha' := json_pad blank_nil hw ha
              rw [List.nil_append] at ha'
              obtain ⟨p, hp, rfl⟩ := padded_of_skip (u := '"' :: (u ++ ['"'])) (r := r2) (by rw [hs]; simp)
              have hp' := padded_right hp hw2
              split at h
              · next r5 hs5 =>
                obtain ⟨⟨l', r6⟩, hpp, hq⟩ := Option.map_eq_some_iff.1 h
                simp only [Prod.mk.injEq] at hq
                obtain ⟨rfl, rfl⟩ := hq
                obtain ⟨hl, b, hb, rfl⟩ := ihM _ _ _ hpp
                refine ⟨by simp, (p ++ w2) ++ ':' :: ((a ++ w) ++ ',' :: b), ?_, ?_⟩
                · rw [Spec.Members]; exact ⟨_, _, _, ⟨u, hu, rfl⟩, hp', ha', .inr ⟨hl, b, hb, rfl⟩⟩
                · rw [hr2, hs3, hr4, hs5]; simp
              · next r5 hs5 =>
                simp only [Option.some.injEq, Prod.mk.injEq] at h
                obtain ⟨rfl, rfl⟩ := h
                refine ⟨by simp, (p ++ w2) ++ ':' :: (a ++ w), ?_, ?_⟩
                · rw [Spec.Members]; exact ⟨_, _, _, ⟨u, hu, rfl⟩, hp', ha', .inl ⟨rfl, rfl⟩⟩
                · rw [hr2, hs3, hr4, hs5]; simp
              · cases h
          · cases h
      · cases h

/-- The reader accepts exactly the JSON texts, and reads the value they stand for. -/
theorem jsonParse_iff {t : Str} {v : Json} : jsonParse t = some v ↔ Spec.IsJson v t := by
  refine ⟨fun h => ?_, jsonParse_of⟩
  unfold jsonParse at h
  split at h
  · cases h
  · next v' r hv =>
    split at h
    · next hr =>
      cases h
      obtain ⟨u, hu, ht⟩ := (parse_sound _).1 _ _ _ hv
      obtain ⟨w, hw, hr'⟩ := skipWs_split r
      rw [hr, List.append_nil] at hr'
      have := json_pad blank_nil (hr' ▸ hw) hu
      rw [ht]
      simpa using this
    · cases h

end SB
