import Verif.Props.Base32

/-!
# C29: which storage directory names are taken for mount points

The converse of the round trip: a name that decodes is, up to the case of its letters, the encoding of the decoded text.
-/

namespace SB

/-- The capital of a letter from a to z. -/
def Spec.capital (c : Char) : Char := if 97 ≤ c.toNat ∧ c.toNat ≤ 122 then Char.ofNat (c.toNat - 32) else c

theorem char_eq_ofNat {c : Char} {n : Nat} (h : c.toNat = n) : c = Char.ofNat n := by rw [← h, Char.ofNat_toNat]

theorem capital_table : ∀ n < 123, 97 ≤ n → (Char.ofNat (n - 32)).toNat = n - 32 := by decide

theorem toNat_capital (c : Char) : (Spec.capital c).toNat = if 97 ≤ c.toNat ∧ c.toNat ≤ 122 then c.toNat - 32 else c.toNat := by
  unfold Spec.capital
  split
  · next h => exact capital_table _ (by omega) h.1
  · rfl

theorem value_capital (c : Char) : value32 (Spec.capital c) = value32 c := by
  unfold value32
  simp only [toNat_capital]
  by_cases h : 97 ≤ c.toNat ∧ c.toNat ≤ 122
  · rw [if_pos h, if_pos (by omega), if_neg (by omega), if_pos h]; congr 1
  · rw [if_neg h]

theorem symbol_value {c : Char} {v : Nat} (h : value32 c = some v) : v < 32 ∧ symbol32 v = Spec.capital c := by
  unfold value32 at h
  simp only at h
  unfold symbol32 Spec.capital
  split at h
  · next h1 =>
    cases h
    refine ⟨by omega, ?_⟩
    rw [if_pos (by omega), if_neg (by omega)]
    exact (char_eq_ofNat (by omega)).symm
  · split at h
    · next h1 =>
      cases h
      refine ⟨by omega, ?_⟩
      rw [if_pos (by omega), if_pos h1]
      congr 1; omega
    · split at h
      · next h1 =>
        cases h
        refine ⟨by omega, ?_⟩
        rw [if_neg (by omega), if_neg (by omega)]
        exact (char_eq_ofNat (by omega)).symm
      · cases h

theorem group8_flatten (l : List Bool) : (group8 l).1.flatten ++ (group8 l).2 = l ∧ ∀ g ∈ (group8 l).1, g.length = 8 := by
  induction l using group8.induct with
  | case1 a b c d e f g h r ih =>
    simp only [group8, List.flatten_cons, List.cons_append, List.nil_append, List.append_assoc, ih.1, true_and]
    intro x hx
    rcases List.mem_cons.1 hx with rfl | hx
    · rfl
    · exact ih.2 x hx
  | case2 l h => rw [group8.eq_2 l h]; simp

theorem values_capital {s : Str} {vs : List Nat} (h : s.mapM value32 = some vs) : (∀ v ∈ vs, v < 32) ∧ vs.map symbol32 = s.map Spec.capital := by
  induction s generalizing vs with
  | nil => simp at h; subst h; simp
  | cons c s ih =>
    rw [List.mapM_cons] at h
    cases hv : value32 c with
    | none => rw [hv] at h; cases h
    | some v =>
      cases hs : s.mapM value32 with
      | none => rw [hv, hs] at h; cases h
      | some ws =>
        rw [hv, hs] at h
        cases h
        have h1 := symbol_value hv
        have h2 := ih hs
        refine ⟨?_, by simp [h1.2, h2.2]⟩
        intro x hx
        rcases List.mem_cons.1 hx with rfl | hx
        · exact h1.1
        · exact h2.1 x hx

theorem replicate_of_all {l : List Bool} (h : l.all (· == false) = true) : l = List.replicate l.length false := by
  rw [List.eq_replicate_iff]
  refine ⟨rfl, fun b hb => ?_⟩
  simpa using List.all_eq_true.1 h b hb

theorem flatten_inj {n : Nat} {a b : List (List Bool)} (ha : ∀ x ∈ a, x.length = n) (hb : ∀ x ∈ b, x.length = n) (hl : a.length = b.length)
    (h : a.flatten = b.flatten) : a = b := by
  induction a generalizing b with
  | nil => cases b with
    | nil => rfl
    | cons y b => simp at hl
  | cons x a ih => cases b with
    | nil => simp at hl
    | cons y b =>
      rw [List.flatten_cons, List.flatten_cons] at h
      have := List.append_inj h (by rw [ha x (by simp), hb y (by simp)])
      rw [this.1, ih (fun z hz => ha z (by simp [hz])) (fun z hz => hb z (by simp [hz])) (by simpa using hl) this.2]

theorem base32_exact {s : Str} {bytes : List Nat} (h : base32Decode s = some bytes) : base32Encode bytes = s.map Spec.capital := by
  unfold base32Decode at h
  cases hv : s.mapM value32 with
  | none => rw [hv] at h; cases h
  | some vs =>
    rw [hv] at h
    simp only at h
    obtain ⟨hlt, hsym⟩ := values_capital hv
    obtain ⟨hf, h8⟩ := group8_flatten (vs.flatMap (bitsOf 5))
    cases hg : group8 (vs.flatMap (bitsOf 5)) with
    | mk gs rest =>
      rw [hg] at h hf h8
      simp only at h hf h8
      split at h
      · next hc =>
        cases h
        have hbits : (gs.map ofBits).flatMap (bitsOf 8) = gs.flatten := by
          rw [List.flatMap_map, List.flatMap_def]
          congr 1
          conv_rhs => rw [← List.map_id gs]
          apply List.map_congr_left
          intro g hg
          have := bitsOf_ofBits g
          rw [h8 g hg] at this
          exact this
        unfold base32Encode
        rw [hbits]
        obtain ⟨h5, k, hk, hflat, hlen⟩ := group5_spec gs.flatten
        have hlen' : 5 * vs.length = gs.flatten.length + rest.length := by
          rw [← List.length_append, hf]
          clear * -
          induction vs with
          | nil => rfl
          | cons v vs ih => rw [List.flatMap_cons, List.length_append, length_bitsOf, ← ih, List.length_cons]; omega
        have hk' : k = rest.length := by omega
        have hgr : group5 gs.flatten = vs.map (bitsOf 5) := by
          apply flatten_inj (n := 5) h5
          · intro x hx
            obtain ⟨v, _, rfl⟩ := List.mem_map.1 hx
            exact length_bitsOf _ _
          · rw [List.length_map]; omega
          · rw [hflat, hk', ← replicate_of_all hc.2, hf, List.flatMap_def]
        rw [hgr, List.map_map, ← hsym]
        apply List.map_congr_left
        intro v hv
        show symbol32 (ofBits (bitsOf 5 v)) = _
        rw [ofBits_bitsOf (by have := hlt v hv; omega)]
      · cases h

theorem toNat_ofNat {n : Nat} (h : n < 0x110000) (h' : ¬ (0xD800 ≤ n ∧ n < 0xE000)) : (Char.ofNat n).toNat = n := by
  have hv : n.isValidChar := by unfold Nat.isValidChar; omega
  unfold Char.ofNat
  rw [dif_pos hv]
  show (UInt32.toNat _) = n
  simp [Char.ofNatAux]
theorem utf8_exact (n : Nat) : ∀ (bytes : List Nat) (t : Str), bytes.length ≤ n → utf8Decode bytes = some t → utf8 t = bytes := by
  induction n with
  | zero =>
    intro bytes t hl h
    have : bytes = [] := List.length_eq_zero_iff.1 (by omega)
    subst this
    rw [utf8Decode.eq_def] at h
    cases h; rfl
  | succ n ih =>
    intro bytes t hl h
    have hcons : ∀ (c : Char) (t : Str), utf8 (c :: t) = utf8Char c ++ utf8 t := fun c t => by simp [utf8]
    have hmap : ∀ (c : Char) (r : List Nat), r.length ≤ n → (utf8Decode r).map (c :: ·) = some t → utf8 t = utf8Char c ++ r := by
      intro c r hr hm
      cases hd : utf8Decode r with
      | none => rw [hd] at hm; cases hm
      | some u =>
        rw [hd] at hm
        cases hm
        rw [hcons, ih r u hr hd]
    rw [utf8Decode.eq_def] at h
    split at h
    · cases h; rfl
    · next a r =>
      have hr : r.length ≤ n := by simpa using hl
      split at h
      · next ha =>
        rw [hmap _ _ hr h]
        unfold utf8Char
        rw [toNat_ofNat (by omega) (by omega)]
        simp only
        rw [if_pos ha]; rfl
      · split at h
        · cases h
        · split at h
          · split at h
            · next b r =>
              simp only at h
              split at h
              · next hc =>
                have hr' : r.length ≤ n := by simp only [List.length_cons] at hr; omega
                simp only [isCont, Bool.and_eq_true, decide_eq_true_eq] at hc
                rw [hmap _ _ hr' h]
                unfold utf8Char
                rw [toNat_ofNat (by omega) (by omega)]
                simp only
                rw [if_neg (by omega), if_pos (by omega)]
                simp only [List.cons_append, List.nil_append, List.cons.injEq, and_true]
                omega
              · cases h
            · cases h
          · split at h
            · split at h
              · next b c r =>
                simp only at h
                split at h
                · next hc =>
                  have hr' : r.length ≤ n := by simp only [List.length_cons] at hr; omega
                  simp only [isCont, Bool.and_eq_true, decide_eq_true_eq, Bool.not_eq_true', Bool.and_eq_false_iff, decide_eq_false_iff_not] at hc
                  rw [hmap _ _ hr' h]
                  unfold utf8Char
                  rw [toNat_ofNat (by omega) (by omega)]
                  simp only
                  rw [if_neg (by omega), if_neg (by omega), if_pos (by omega)]
                  simp only [List.cons_append, List.nil_append, List.cons.injEq, and_true]
                  omega
                · cases h
              · cases h
            · split at h
              · next b c d r =>
                simp only at h
                split at h
                · next hc =>
                  have hr' : r.length ≤ n := by simp only [List.length_cons] at hr; omega
                  simp only [isCont, Bool.and_eq_true, decide_eq_true_eq] at hc
                  rw [hmap _ _ hr' h]
                  unfold utf8Char
                  rw [toNat_ofNat (by omega) (by omega)]
                  simp only
                  rw [if_neg (by omega), if_neg (by omega), if_neg (by omega)]
                  simp only [List.cons_append, List.nil_append, List.cons.injEq, and_true]
                  omega
                · cases h
              · cases h

/-- **C29**: a storage directory is taken for a mount point only if its name is, up to the case of its letters, the base 32 encoding of the UTF-8 form of a text, and then
the mount point is the one this text denotes: no two names (up to case) stand for the same text, and malformed names stand for nothing. -/
theorem C29_exact (m : Name) (mp : Path) (h : decodeMount m = some mp) : ∃ t : Str, components t = mp ∧ m.map Spec.capital = base32Encode (utf8 t) := by
  unfold decodeMount at h
  cases hb : base32Decode m with
  | none => rw [hb] at h; cases h
  | some bytes =>
    rw [hb] at h
    simp only at h
    cases hu : utf8Decode bytes with
    | none => rw [hu] at h; cases h
    | some t =>
      rw [hu] at h
      cases h
      exact ⟨t, rfl, by rw [utf8_exact _ _ _ (Nat.le_refl _) hu, base32_exact hb]⟩

/-- **C29**: the case of letters in a directory name does not matter (storage on a case-insensitive file system). -/
theorem C29_case (m : Name) : decodeMount (m.map Spec.capital) = decodeMount m := by
  have : (m.map Spec.capital).mapM value32 = m.mapM value32 := by
    induction m with
    | nil => rfl
    | cons c m ih => rw [List.map_cons, List.mapM_cons, List.mapM_cons, value_capital, ih]
  unfold decodeMount base32Decode
  rw [this]

/-- **C29**: the lower-case form of a mount point's name is understood as well. -/
theorem C29_lower (mp : Path) (h : NormalPath mp) (m : Name) (hm : m.map Spec.capital = mountName mp) : decodeMount m = some mp := by
  rw [← C29_case, hm, C29_roundtrip mp h]

/-- Non-vacuity: `f5ug63lf` is the lower-case name of `/home`; a name with non-zero left-over bits, or of an overlong UTF-8 form, is rejected. -/
example : (str "f5ug63lf").map Spec.capital = mountName [str "home"] ∧ decodeMount (str "f5ug63lf") = some [str "home"] ∧
    decodeMount (str "F5") = none ∧ decodeMount (str "4CAK6") = none := by decide +kernel

end SB
