import Verif.Model.Base32
import Verif.Lib.TextLemmas
import Verif.Lib.PathLemmas
import Verif.Lib.ChangesLemmas
import Verif.Lib.Source
import Verif.Props.AcceptChecks

/-!
# C29: mount directory names round-trip; C30: storage paths are attributed to the right host path
-/

namespace SB

/-! ### bits -/

theorem length_bitsOf (w n : Nat) : (bitsOf w n).length = w := by
  induction w generalizing n with
  | zero => rfl
  | succ w ih => simp [bitsOf, ih]

theorem ofBits_append_single (l : List Bool) (b : Bool) : ofBits (l ++ [b]) = 2 * ofBits l + b.toNat := by
  simp [ofBits, List.foldl_append]

theorem ofBits_bitsOf {w n : Nat} (h : n < 2 ^ w) : ofBits (bitsOf w n) = n := by
  induction w generalizing n with
  | zero => simp at h; subst h; rfl
  | succ w ih =>
    rw [bitsOf, ofBits_append_single, ih (by rw [Nat.pow_succ] at h; omega)]
    rcases Nat.mod_two_eq_zero_or_one n with h0 | h0 <;> simp [h0] <;> omega

theorem bitsOf_ofBits (l : List Bool) : bitsOf l.length (ofBits l) = l := by
  induction l using List.reverseRecOn with
  | nil => rfl
  | append_singleton l b ih =>
    rw [List.length_append, List.length_singleton, bitsOf, ofBits_append_single]
    have h1 : (2 * ofBits l + b.toNat) / 2 = ofBits l := by cases b <;> simp <;> omega
    have h2 : ((2 * ofBits l + b.toNat) % 2 == 1) = b := by cases b <;> simp
    rw [h1, h2, ih]

theorem ofBits_lt (l : List Bool) : ofBits l < 2 ^ l.length := by
  induction l using List.reverseRecOn with
  | nil => decide
  | append_singleton l b ih =>
    rw [ofBits_append_single, List.length_append, List.length_singleton, Nat.pow_succ]
    have : b.toNat ≤ 1 := by cases b <;> simp
    omega

theorem value_symbol : ∀ v < 32, value32 (symbol32 v) = some v := by decide

/-- A capital letter or a digit from 2 to 7. -/
def Spec.IsCapOrDigit (c : Char) : Bool := (65 ≤ c.toNat && c.toNat ≤ 90) || (50 ≤ c.toNat && c.toNat ≤ 55)

/-- Characters of encoded names. -/
theorem symbol_plain : ∀ v < 32, symbol32 v ≠ '/' ∧ symbol32 v ≠ '.' ∧ Spec.IsCapOrDigit (symbol32 v) = true := by
  decide

theorem group5_spec (l : List Bool) : (∀ g ∈ group5 l, g.length = 5) ∧
    ∃ k, k < 5 ∧ (group5 l).flatten = l ++ List.replicate k false ∧ 5 * (group5 l).length = l.length + k := by
  induction l using group5.induct with
  | case1 a b c d e r ih =>
    obtain ⟨h1, k, hk, h2, h3⟩ := ih
    rw [group5]
    refine ⟨?_, k, hk, by simp [h2], by simp; omega⟩
    intro g hg
    rcases List.mem_cons.1 hg with rfl | hg
    · rfl
    · exact h1 g hg
  | case2 => exact ⟨by simp [group5], 0, by omega, by simp [group5], by simp [group5]⟩
  | case3 l h1 h2 =>
    rw [group5.eq_3 l h1 h2]
    have hlen : l.length < 5 ∧ 0 < l.length := by
      rcases l with _ | ⟨a, _ | ⟨b, _ | ⟨c, _ | ⟨d, _ | ⟨e, r⟩⟩⟩⟩⟩
      · exact absurd rfl h2
      all_goals first | (simp; done) | exact (h1 _ _ _ _ _ _ rfl).elim
    refine ⟨by simp; omega, 5 - l.length, by omega, by simp, by simp; omega⟩

theorem group8_spec (bytes : List (List Bool)) (h : ∀ b ∈ bytes, b.length = 8) (k : Nat) (hk : k < 5) :
    group8 (bytes.flatten ++ List.replicate k false) = (bytes, List.replicate k false) := by
  induction bytes with
  | nil =>
    simp only [List.flatten_nil, List.nil_append]
    have : k = 0 ∨ k = 1 ∨ k = 2 ∨ k = 3 ∨ k = 4 := by omega
    rcases this with rfl | rfl | rfl | rfl | rfl <;> rfl
  | cons b bytes ih =>
    have hb := h b (by simp)
    match b, hb with
    | [a, b, c, d, e, f, g, i], _ =>
      simp only [List.flatten_cons, List.cons_append, List.nil_append, group8]
      rw [ih (fun b hb => h b (by simp [hb]))]

theorem mapM_map_some {α β γ} (f : β → Option γ) (g : α → β) (v : α → γ) (l : List α) (h : ∀ a ∈ l, f (g a) = some (v a)) :
    (l.map g).mapM f = some (l.map v) := by
  induction l with
  | nil => rfl
  | cons a l ih =>
    rw [List.map_cons, List.mapM_cons, h a (by simp), ih (fun b hb => h b (by simp [hb]))]
    rfl

theorem base32_roundtrip (bytes : List Nat) (h : ∀ b ∈ bytes, b < 256) : base32Decode (base32Encode bytes) = some bytes := by
  obtain ⟨h5, k, hk, hflat, _⟩ := group5_spec (bytes.flatMap (bitsOf 8))
  unfold base32Decode base32Encode
  rw [mapM_map_some value32 _ ofBits _ (fun g hg => value_symbol _ (by have := ofBits_lt g; rw [h5 g hg] at this; exact this))]
  simp only
  have hb : ((group5 (bytes.flatMap (bitsOf 8))).map ofBits).flatMap (bitsOf 5) = bytes.flatMap (bitsOf 8) ++ List.replicate k false := by
    rw [← hflat, List.flatMap_map, List.flatMap_def]
    congr 1
    conv_rhs => rw [← List.map_id (group5 (bytes.flatMap (bitsOf 8)))]
    apply List.map_congr_left
    intro g hg
    have := bitsOf_ofBits g
    rw [h5 g hg] at this
    exact this
  rw [hb, List.flatMap_def, group8_spec _ (by
    intro b hb
    obtain ⟨n, _, rfl⟩ := List.mem_map.1 hb
    exact length_bitsOf _ _) k hk]
  simp only
  rw [if_pos ⟨by simpa using hk, by simp⟩]
  congr 1
  rw [List.map_map]
  conv_rhs => rw [← List.map_id bytes]
  apply List.map_congr_left
  intro b hb
  exact ofBits_bitsOf (h b hb)

theorem length_base32 (bytes : List Nat) : (base32Encode bytes).length = (8 * bytes.length + 4) / 5 := by
  obtain ⟨_, k, hk, _, h3⟩ := group5_spec (bytes.flatMap (bitsOf 8))
  have : (bytes.flatMap (bitsOf 8)).length = 8 * bytes.length := by
    clear * -
    induction bytes with
    | nil => rfl
    | cons b r ih => rw [List.flatMap_cons, List.length_append, length_bitsOf, ih, List.length_cons]; omega
  unfold base32Encode
  rw [List.length_map]
  omega

/-! ### UTF-8 -/

theorem char_range (c : Char) : c.toNat < 0x110000 ∧ ¬ (0xD800 ≤ c.toNat ∧ c.toNat < 0xE000) := by
  have h := c.valid
  have hv : c.val.toNat = c.toNat := rfl
  unfold UInt32.isValidChar at h
  unfold Nat.isValidChar at h
  rw [hv] at h
  omega

theorem utf8Char_lt (c : Char) : ∀ b ∈ utf8Char c, b < 256 := by
  have h := char_range c
  unfold utf8Char
  simp only
  intro b hb
  split at hb
  · simp at hb; omega
  · split at hb
    · simp at hb; omega
    · split at hb
      · simp at hb; omega
      · simp at hb; omega

theorem utf8Decode_char (c : Char) (r : List Nat) : utf8Decode (utf8Char c ++ r) = (utf8Decode r).map (c :: ·) := by
  obtain ⟨h1, h2⟩ := char_range c
  have hofNat : Char.ofNat c.toNat = c := Char.ofNat_toNat c
  unfold utf8Char
  simp only
  split
  · next h => rw [List.singleton_append, utf8Decode.eq_def]; simp only; rw [if_pos h, hofNat]
  · split
    · next h0 h =>
      have e1 : (0xC0 + c.toNat / 64 - 0xC0) * 64 + (0x80 + c.toNat % 64 - 0x80) = c.toNat := by omega
      have e2 : isCont (0x80 + c.toNat % 64) = true := by simp [isCont]; omega
      simp only [List.cons_append, List.nil_append]
      rw [utf8Decode.eq_def]; dsimp only; rw [if_neg (by omega), if_neg (by omega), if_pos (by omega)]
      simp only [e1, e2, hofNat, Bool.true_and]
      rw [if_pos (by simp; omega)]
    · split
      · next h0 h3 h =>
        have e1 : (0xE0 + c.toNat / 4096 - 0xE0) * 4096 + (0x80 + c.toNat / 64 % 64 - 0x80) * 64 + (0x80 + c.toNat % 64 - 0x80) = c.toNat := by omega
        have e2 : isCont (0x80 + c.toNat % 64) = true := by simp [isCont]; omega
        have e3 : isCont (0x80 + c.toNat / 64 % 64) = true := by simp [isCont]; omega
        simp only [List.cons_append, List.nil_append]
        rw [utf8Decode.eq_def]; dsimp only; rw [if_neg (by omega), if_neg (by omega), if_neg (by omega), if_pos (by omega)]
        simp only [e1, e2, e3, hofNat, Bool.true_and]
        rw [if_pos (by simp; omega)]
      · next h0 h3 h =>
        have e1 : (0xF0 + c.toNat / 262144 - 0xF0) * 262144 + (0x80 + c.toNat / 4096 % 64 - 0x80) * 4096 + (0x80 + c.toNat / 64 % 64 - 0x80) * 64 +
          (0x80 + c.toNat % 64 - 0x80) = c.toNat := by omega
        have e2 : isCont (0x80 + c.toNat % 64) = true := by simp [isCont]; omega
        have e3 : isCont (0x80 + c.toNat / 64 % 64) = true := by simp [isCont]; omega
        have e4 : isCont (0x80 + c.toNat / 4096 % 64) = true := by simp [isCont]; omega
        simp only [List.cons_append, List.nil_append]
        rw [utf8Decode.eq_def]; dsimp only; rw [if_neg (by omega), if_neg (by omega), if_neg (by omega), if_neg (by omega)]
        simp only [e1, e2, e3, e4, hofNat, Bool.true_and]
        rw [if_pos (by simp; omega)]

theorem utf8_roundtrip (s : Str) : utf8Decode (utf8 s) = some s := by
  induction s with
  | nil => rfl
  | cons c s ih =>
    have : utf8 (c :: s) = utf8Char c ++ utf8 s := by simp [utf8]
    rw [this, utf8Decode_char, ih]; rfl

theorem utf8_lt (s : Str) : ∀ b ∈ utf8 s, b < 256 := by
  intro b hb
  obtain ⟨c, _, h⟩ := List.mem_flatMap.1 hb
  exact utf8Char_lt c b h

/-! ### C29 -/

/-- **C29**: decoding the storage directory name of a mount point gives the mount point back, for every path. -/
theorem C29_roundtrip (mp : Path) (h : NormalPath mp) : decodeMount (mountName mp) = some mp := by
  unfold decodeMount mountName
  rw [base32_roundtrip _ (utf8_lt _)]
  simp only
  rw [utf8_roundtrip, Option.map_some, components_display h]

/-- **C29**: two mount points never share a name. -/
theorem C29_injective (mp mp' : Path) (h : NormalPath mp) (h' : NormalPath mp') (he : mountName mp = mountName mp') : mp = mp' := by
  have h1 := C29_roundtrip mp h
  rw [he, C29_roundtrip mp' h'] at h1
  cases h1; rfl

/-- **C29**: the name is a single path component: not empty, only letters and digits, so no slash and not `.` or `..`. -/
theorem C29_component (mp : Path) : NormalName (mountName mp) ∧ ∀ c ∈ mountName mp, Spec.IsCapOrDigit c = true := by
  have hc : ∀ c ∈ mountName mp, c ≠ '/' ∧ c ≠ '.' ∧ Spec.IsCapOrDigit c = true := by
    intro c hc
    unfold mountName base32Encode at hc
    obtain ⟨g, hg, rfl⟩ := List.mem_map.1 hc
    have := ofBits_lt g
    rw [(group5_spec _).1 g hg] at this
    exact symbol_plain _ this
  refine ⟨⟨?_, fun h => (hc _ h).1 rfl, ?_, ?_⟩, fun c h => (hc c h).2.2⟩
  · intro h
    have hl := length_base32 (utf8 (display mp))
    unfold mountName at h
    rw [h] at hl
    have : (utf8 (display mp)).length ≠ 0 := by
      intro h0
      have h1 : utf8 (display mp) = [] := List.length_eq_zero_iff.1 h0
      have h2 := utf8_roundtrip (display mp)
      rw [h1] at h2
      simp only [utf8Decode, Option.some.injEq] at h2
      unfold display at h2
      split at h2
      · cases h2
      · next hne =>
        cases mp with
        | nil => exact hne rfl
        | cons n mp => simp at h2
    simp at hl; omega
  · intro h; exact (hc '.' (by rw [h]; simp)).2.1 rfl
  · intro h; exact (hc '.' (by rw [h]; simp)).2.1 rfl

/-- Length of the name: eight fifths of the path's length in bytes, rounded up. -/
theorem C29_length (mp : Path) : (mountName mp).length = (8 * (utf8 (display mp)).length + 4) / 5 := length_base32 _

/-- **C29 refuted** for long paths: file systems limit names to 255 bytes; a mount point whose path has 160 bytes or more gets a longer name and cannot be
mounted in a sandbox, although the path itself is valid. -/
theorem C29_refuted_long (mp : Path) : (mountName mp).length > 255 ↔ (utf8 (display mp)).length ≥ 160 := by
  rw [C29_length]; omega

/-- A valid mount point (two components of 100 letters) whose name is too long. -/
example : NormalPath [List.replicate 100 'a', List.replicate 100 'b'] ∧
    (mountName [List.replicate 100 'a', List.replicate 100 'b']).length > 255 := by
  have ha : ∀ n, utf8 (List.replicate n 'a') = List.replicate n 97 := fun n => by
    induction n with
    | zero => rfl
    | succ n ih => rw [List.replicate_succ, List.replicate_succ, ← ih]; rfl
  have hb : ∀ n, utf8 (List.replicate n 'b') = List.replicate n 98 := fun n => by
    induction n with
    | zero => rfl
    | succ n ih => rw [List.replicate_succ, List.replicate_succ, ← ih]; rfl
  refine ⟨?_, (C29_refuted_long _).2 ?_⟩
  · intro n hn
    simp only [List.mem_cons, List.not_mem_nil, or_false] at hn
    rcases hn with rfl | rfl <;> refine ⟨by simp, by simp, fun h => ?_, fun h => ?_⟩ <;>
      (have := congrArg List.length h; simp at this)
  · have : utf8 (display [List.replicate 100 'a', List.replicate 100 'b']) = 47 :: (utf8 (List.replicate 100 'a') ++ 47 :: utf8 (List.replicate 100 'b')) := by
      simp only [display, utf8, List.flatMap_cons, List.flatMap_append, List.flatMap_nil, List.append_nil, List.cons_append]
      rfl
    rw [this, ha, hb, List.length_cons, List.length_append, List.length_cons, List.length_replicate, List.length_replicate]; decide

/-- Non-vacuity: `/`, and a path with a non-ASCII name, encoded and decoded (in either case); an impossible length is rejected. -/
example : mountName [] = str "F4" ∧ mountName [str "home", str "ü"] = str "F5UG63LFF7B3Y" ∧
    decodeMount (str "f5uG63LFF7B3Y") = some [str "home", str "ü"] ∧ decodeMount (str "F5U") = none := by decide +kernel

/-! ### C30 -/

/-- **C30**: a path stored under the directory of mount point `M` with relative path `R` is reported as host path `M/R`: every creation, modification, rename and
error has that destination. -/
theorem C30_host_path (env : Env) (henv : env.decode = decodeMount) (st : State) (M R : Path) (hM : NormalPath M) (e : Entry) (s : Details)
    (he : e ∈ changes env st) (hs : e.staged = some s) (hp : s.path = mountName M :: R) (hop : e.op ≠ .remove) :
    e.dest = M ++ R := by
  obtain ⟨ue, hue, h⟩ := mem_changes.1 he
  obtain ⟨m, mp, sub, _, hu⟩ := mem_upperEntries hue
  rcases h with h | h
  · obtain ⟨_, _, _, _, ho, _⟩ := mem_removesOf h
    exact absurd ho hop
  · have h2 := mem_setsOf h
    have hst : e.staged = some ⟨ue.upperPath, ue.node⟩ := h2.2.2.1
    rw [hs] at hst
    cases hst
    simp only [hu.upperPath, List.cons.injEq] at hp
    obtain ⟨rfl, rfl⟩ := hp
    have hd := hu.decode
    rw [henv, C29_roundtrip M hM] at hd
    cases hd
    rw [h2.2.1, hu.lowerPath]

/-- **C30**, for removals: what a whiteout (or opaque directory) stored at `R` under mount point `M` removes is at or below the host path `M/R`, if neither it nor a
directory above it is a redirect. -/
theorem C30_removed_path (env : Env) (henv : env.decode = decodeMount) (st : State) (hw : st.upper.WF) (M R : Path) (hM : NormalPath M) (ue : UpperEntry)
    (hue : ue ∈ upperEntries env st) (hp : ue.upperPath = mountName M :: R)
    (hred : ∀ q n, q <+: R → st.upper.get (mountName M :: q) = some n → n.redirect = none)
    (e : Entry) (he : e ∈ removesOf st (renamedPaths (upperEntries env st)) ue) :
    M ++ R <+: e.dest := by
  obtain ⟨m, mp, sub, _, hu⟩ := mem_upperEntries hue
  rw [hu.upperPath, List.cons.injEq] at hp
  obtain ⟨rfl, rfl⟩ := hp
  have hd := hu.decode
  rw [henv, C29_roundtrip M hM] at hd
  cases hd
  have hsp : ue.sourcePath = ifExists st.lower (M ++ sub) := by
    rw [hu.source]
    unfold sourcePath
    rw [sourceLoop_noRedirect]
    · simp
    · intro q hq hqp
      rw [List.reverse_reverse] at hqp
      have : ∃ n, st.upper.get (mountName M :: q) = some n := by
        obtain ⟨r, rfl⟩ := hqp
        by_cases hr : r = []
        · subst hr; exact ⟨_, by simpa using hu.node⟩
        · obtain ⟨n, hn, _⟩ := FS.isDirAt_iff.1 (hw.ancestor (q := mountName M :: q) hu.node ⟨r, hr, by simp⟩)
          exact ⟨n, hn⟩
      obtain ⟨n, hn⟩ := this
      exact ⟨n, hn, hred q n hqp hn⟩
  unfold removesOf at he
  rw [hsp] at he
  unfold ifExists at he
  by_cases hex : st.lower.pexists (M ++ sub) = true
  · rw [if_pos hex] at he
    simp only at he
    split at he
    · split at he
      · cases he
      · split at he
        · obtain ⟨q, hq, rfl⟩ := List.mem_map.1 he
          exact mem_walkDir_prefix hq
        · simp at he; subst he; exact List.prefix_refl _
    · cases he
  · rw [if_neg hex] at he
    cases he

/-- **C30**: distinct stored paths of one mount are reported as distinct host paths. -/
theorem C30_distinct (env : Env) (henv : env.decode = decodeMount) (st : State) (M : Path) (hM : NormalPath M) (e e' : Entry) (s s' : Details) (R R' : Path)
    (he : e ∈ changes env st) (he' : e' ∈ changes env st) (hs : e.staged = some s) (hs' : e'.staged = some s') (hop : e.op ≠ .remove) (hop' : e'.op ≠ .remove)
    (hp : s.path = mountName M :: R) (hp' : s'.path = mountName M :: R') (hne : s.path ≠ s'.path) : e.dest ≠ e'.dest := by
  rw [C30_host_path env henv st M R hM e s he hs hp hop, C30_host_path env henv st M R' hM e' s' he' hs' hp' hop']
  intro h
  apply hne
  rw [hp, hp', List.append_cancel_left h]

/-- Non-vacuity: storage of the mount point `/home` (name `F5UG63LF`). -/
def exHomeEnv : Env := { exEnv with decode := decodeMount }
def exHomeState : State := ⟨[ ([], { kind := .dir }), ([str "home"], { kind := .dir }), ([str "home", str "f"], { kind := .reg [] }) ],
  [ ([], { kind := .dir }), ([str "F5UG63LF"], { kind := .dir }), ([str "F5UG63LF", str "f"], { kind := .chr 0 }),
    ([str "F5UG63LF", str "g"], { kind := .reg [] }) ]⟩
example : (changes exHomeEnv exHomeState).map (fun e => (e.op, e.dest)) = [(.remove, [str "home", str "f"]), (.set .create, [str "home", str "g"])] := by
  decide +kernel

end SB
