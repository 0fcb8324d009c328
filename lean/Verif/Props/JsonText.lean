import Verif.Lib.JsonSound
import Verif.Props.RawNames
import Verif.Props.Settings
import Verif.Props.Json
import Verif.Props.Output

/-!
# C93: what is saved in settings.json is what is compared; C94: with --json, standard output is one JSON text that says what was recorded
-/

namespace SB

/-! ### Specification -/

/-- `r` is what settings look like in the program, where paths are texts: mount points as they are displayed, and for binds texts that stand for the paths. -/
structure Spec.Written (r : RawSettings) (s : Settings) : Prop where
  version : r.version = s.version
  mounts : r.mounts = s.mounts.map (fun m => (m.hash, display m.dir))
  net : r.net = s.net
  binds : List.Forall₂ (fun (x : RawBind) (b : BindMount) => parsePath x.source = RPath.ofPath b.source ∧ parsePath x.target = b.target ∧ x.opt = b.opt ∧ x.argument = b.argument) r.binds s.binds

/-- The values of the fields of an object: each field occurs once; other fields may be there.  Or the array of the values. -/
def Spec.Fields (v : Json) (names : List Str) (ws : List Json) : Prop :=
  (∃ l, v = .obj l ∧ List.Forall₂ (fun k w => (k, w) ∈ l ∧ l.countP (fun e => e.1 = k) = 1) names ws) ∨ (v = .arr ws ∧ ws.length = names.length)

/-- One of several names: `"name"` or `{"name": null}`. -/
def Spec.Variant (v : Json) (s : Str) : Prop := v = .str s ∨ v = .obj [(s, .null)]

def Spec.MountValue (v : Json) (m : Str × Str) : Prop := Spec.Fields v [str "hash", str "dir"] [.str m.1, .str m.2]

def Spec.BindValue (v : Json) (b : RawBind) : Prop :=
  ∃ o, Spec.Fields v [str "source", str "target", str "options", str "argument"] [.str b.source, .str b.target, o, .str b.argument] ∧ Spec.Variant o (optName b.opt)

/-- The value stands for the settings. -/
def Spec.SettingsValue (v : Json) (s : RawSettings) : Prop :=
  ∃ ms n bs, Spec.Fields v [str "version", str "mounts", str "network", str "bind_mounts"] [.str s.version, .arr ms, n, .arr bs] ∧ List.Forall₂ Spec.MountValue ms s.mounts ∧
    Spec.Variant n (netName s.net) ∧ List.Forall₂ Spec.BindValue bs s.binds

/-! ### C93 -/

theorem numbers_arr {l : List Json} : Spec.NumbersOkArr l ↔ ∀ v ∈ l, Spec.NumbersOk v := by
  induction l with
  | nil => simp [Spec.NumbersOkArr]
  | cons v l ih => rw [Spec.NumbersOkArr, ih]; simp

theorem numbers_obj {l : List (Str × Json)} : Spec.NumbersOkObj l ↔ ∀ e ∈ l, Spec.NumbersOk e.2 := by
  induction l with
  | nil => simp [Spec.NumbersOkObj]
  | cons e l ih => obtain ⟨x, v⟩ := e; rw [Spec.NumbersOkObj, ih]; simp

theorem settings_numbers (s : RawSettings) : Spec.NumbersOk (settingsJson s) := by
  refine ⟨trivial, ?_, trivial, ?_, trivial⟩
  · refine numbers_arr.2 (fun v hv => ?_)
    obtain ⟨m, _, rfl⟩ := List.mem_map.1 hv
    exact ⟨trivial, trivial, trivial⟩
  · refine numbers_arr.2 (fun v hv => ?_)
    obtain ⟨m, _, rfl⟩ := List.mem_map.1 hv
    exact ⟨trivial, trivial, trivial, trivial, trivial⟩

theorem mapM_decode {α : Type} {f : Json → Option α} {g : α → Json} (h : ∀ a, f (g a) = some a) (l : List α) : (l.map g).mapM f = some l := by
  induction l with
  | nil => rfl
  | cons a l ih => rw [List.map_cons, List.mapM_cons, h, ih]; rfl

theorem settings_decode (s : RawSettings) : settingsOfJson (settingsJson s) = some s := by
  obtain ⟨v, ms, n, bs⟩ := s
  have hm := mapM_decode (f := mountOf) (g := fun m : Str × Str => .obj [(str "hash", .str m.1), (str "dir", .str m.2)]) (fun m => rfl) ms
  have hb := mapM_decode (f := bindOf) (g := fun b : RawBind => .obj [(str "source", .str b.source), (str "target", .str b.target), (str "options", .str (optName b.opt)), (str "argument", .str b.argument)])
    (fun b => by obtain ⟨s, t, o, a⟩ := b; cases o <;> rfl) bs
  have hn : netOf (.str (netName n)) = some n := by cases n <;> rfl
  have hs : structOf [str "version", str "mounts", str "network", str "bind_mounts"] (settingsJson ⟨v, ms, n, bs⟩) =
      some [.str v, .arr (ms.map (fun m => .obj [(str "hash", .str m.1), (str "dir", .str m.2)])), .str (netName n),
        .arr (bs.map (fun b => .obj [(str "source", .str b.source), (str "target", .str b.target), (str "options", .str (optName b.opt)), (str "argument", .str b.argument)]))] := rfl
  unfold settingsOfJson
  rw [hs]
  dsimp only
  rw [show textOf (.str v) = some v from rfl, hn]
  rw [show ∀ l, arrayOf mountOf (.arr l) = l.mapM mountOf from fun _ => rfl, hm]
  rw [show ∀ l, arrayOf bindOf (.arr l) = l.mapM bindOf from fun _ => rfl, hb]

/-- **C93**: whatever the settings are (any characters in paths, names and arguments), what `save_to_file` writes is read by `load_from_file` as the same settings. -/
theorem C93_roundtrip (s : RawSettings) : loadSettings (saveSettings s) = some s := by
  unfold loadSettings saveSettings
  rw [(utf8Decode_iff _ _).2 rfl]
  dsimp only
  rw [json_roundtrip (settings_numbers s)]
  exact settings_decode s

theorem argSort_map {α β : Type} (f : α → β) (le : α → α → Bool) (le' : β → β → Bool) (h : ∀ a b, le' (f a) (f b) = le a b) (l : List α) :
    (stableSort le l).map f = stableSort le' (l.map f) := by
  unfold stableSort
  induction l with
  | nil => rfl
  | cons a l ih =>
    rw [List.map_cons, List.insertionSort_cons, List.insertionSort_cons, ← ih]
    generalize List.insertionSort (fun a b => le a b = true) l = m
    induction m with
    | nil => rfl
    | cons b m ih2 =>
      rw [List.map_cons]
      by_cases hab : le a b = true
      · have hab' : le' (f a) (f b) = true := by rw [h]; exact hab
        simp only [List.orderedInsert, hab, hab', if_true, List.map_cons]
      · have hab' : ¬ le' (f a) (f b) = true := by rw [h]; exact hab
        simp only [List.orderedInsert, hab, hab', if_false, List.map_cons, ih2, Bool.false_eq_true]

/-- The binds that are compared are those of the settings. -/
theorem userBinds_written {r : RawSettings} {s : Settings} (h : Spec.Written r s) :
    (rawUserBinds r).map RawBind.value = (userBinds s).map (fun b => (RPath.ofPath b.source, b.target, b.opt, b.argument)) := by
  have hv : r.binds.map RawBind.value = s.binds.map (fun b => (RPath.ofPath b.source, b.target, b.opt, b.argument)) := by
    have := h.binds
    generalize r.binds = x at this
    generalize s.binds = y at this
    induction this with
    | nil => rfl
    | cons h _ ih =>
      obtain ⟨h1, h2, h3, h4⟩ := h
      rw [List.map_cons, List.map_cons, ih, RawBind.value, h1, h2, h3, h4]
  unfold rawUserBinds userBinds
  rw [argSort_map RawBind.value (fun a b => decide (a.argument ≤ b.argument)) (fun a b => decide (a.2.2.2 ≤ b.2.2.2)) (fun _ _ => rfl),
    argSort_map (fun b : BindMount => (RPath.ofPath b.source, b.target, b.opt, b.argument)) (fun a b => decide (a.argument ≤ b.argument)) (fun a b => decide (a.2.2.2 ≤ b.2.2.2)) (fun _ _ => rfl)]
  congr 1
  have h1 : (r.binds.filter (fun b => b.argument ≠ str "data")).map RawBind.value = (r.binds.map RawBind.value).filter (fun v => v.2.2.2 ≠ str "data") := by
    rw [List.filter_map]; rfl
  have h2 : (s.binds.filter (fun b => b.argument ≠ str "data")).map (fun b => (RPath.ofPath b.source, b.target, b.opt, b.argument)) =
      (s.binds.map (fun b => (RPath.ofPath b.source, b.target, b.opt, b.argument))).filter (fun v => v.2.2.2 ≠ str "data") := by
    rw [List.filter_map]; rfl
  rw [h1, h2, hv]

/-- Comparing settings as texts is comparing settings. -/
theorem validate_written {r r' : RawSettings} {s s' : Settings} (h : Spec.Written r s) (h' : Spec.Written r' s') (hn : ∀ m ∈ s.mounts, NormalPath m.dir) (hn' : ∀ m ∈ s'.mounts, NormalPath m.dir) :
    validateRaw r r' = validate s s' := by
  have hm : r.mounts = r'.mounts ↔ s.mounts = s'.mounts := by
    rw [h.mounts, h'.mounts]
    constructor
    · intro he
      have : ∀ (l l' : List MountHash), (∀ m ∈ l, NormalPath m.dir) → (∀ m ∈ l', NormalPath m.dir) →
          l.map (fun m => (m.hash, display m.dir)) = l'.map (fun m => (m.hash, display m.dir)) → l = l' := by
        intro l
        induction l with
        | nil => intro l' _ _ he; cases l' with | nil => rfl | cons => simp at he
        | cons a l ih =>
          intro l' h1 h2 he
          cases l' with
          | nil => simp at he
          | cons b l' =>
            simp only [List.map_cons, List.cons.injEq, Prod.mk.injEq] at he
            rw [ih l' (fun m hm => h1 m (by simp [hm])) (fun m hm => h2 m (by simp [hm])) he.2]
            obtain ⟨ah, ad⟩ := a
            obtain ⟨bh, bd⟩ := b
            have := display_inj (h1 ⟨ah, ad⟩ (by simp)) (h2 ⟨bh, bd⟩ (by simp)) he.1.2
            dsimp only at this he
            rw [this, he.1.1]
      exact this _ _ hn hn' he
    · intro he; rw [he]
  have hb : (rawUserBinds r).map RawBind.value = (rawUserBinds r').map RawBind.value ↔ userBinds s = userBinds s' := by
    rw [userBinds_written h, userBinds_written h']
    constructor
    · intro he
      refine List.map_injective_iff.2 (fun a b hab => ?_) he
      obtain ⟨a1, a2, a3, a4⟩ := a
      obtain ⟨b1, b2, b3, b4⟩ := b
      simp only [RPath.ofPath, Prod.mk.injEq, RPath.mk.injEq, true_and] at hab
      obtain ⟨rfl, rfl, rfl, rfl⟩ := hab
      rfl
    · intro he; rw [he]
  unfold validateRaw validate
  rw [h.net, h'.net]
  by_cases h1 : s.net = s'.net
  · by_cases h2 : s.mounts = s'.mounts
    · by_cases h3 : userBinds s = userBinds s'
      · simp [h1, h2, h3, hm.2 h2, hb.2 h3]
      · have : ¬ _ := fun e => h3 (hb.1 e)
        simp only [ne_eq, h1, not_true_eq_false, if_false, h2, hm.2 h2, h3, not_false_eq_true, if_true, this]
    · have : ¬ _ := fun e => h2 (hm.1 e)
      simp only [ne_eq, h1, not_true_eq_false, if_false, h2, not_false_eq_true, if_true, this]
  · simp [h1]

/-- **C93**: entering a sandbox whose settings.json was written at its start compares exactly the settings it was started with with those of the new invocation: the result is that of `join`, which
compares the settings themselves (C44). -/
theorem C93_join (v : Str) (c : Config) (s : Settings) (r : RawSettings) (hr : Spec.Written r s) (parent : Option (Option (List MountHash))) (table : Option (List MountEntry))
    (current : Option RawSettings)
    (hcur : match determineMounts (sandboxDir c.storageDir c.name) parent table with
      | none => current = none
      | some ms => ∃ r', current = some r' ∧ Spec.Written r' (settingsOf v c.net (c.bindMounts ++ [dataBind c]) ms) ∧ ∀ m ∈ ms, NormalPath m.dir)
    (hn : ∀ m ∈ s.mounts, NormalPath m.dir) : joinFile (some (saveSettings r)) current = join v c (.saved s) parent table := by
  unfold joinFile join
  dsimp only
  rw [C93_roundtrip]
  dsimp only
  cases hd : determineMounts (sandboxDir c.storageDir c.name) parent table with
  | none =>
    rw [hd] at hcur
    rw [hcur]
  | some ms =>
    rw [hd] at hcur
    obtain ⟨r', rfl, h1, h2⟩ := hcur
    dsimp only
    rw [validate_written hr h1 hn h2]
    cases validate s (settingsOf v c.net (c.bindMounts ++ [dataBind c]) ms) <;> rfl

/-- **C44 and C93**, on the bytes of settings.json: a sandbox started with configuration `c0` over the mounts `ms` is entered with configuration `c1` if and only if the networks are the same, the mounts
are found to be the same, and the binds are the same (in any order); with any characters in any of them.  The hypotheses are those of C44_join_partial, and that the settings in memory are texts of the
settings (`Spec.Written`) whose mount points are normal paths. -/
theorem C44_file_partial (v0 v1 : Str) (w0 : World) (a0 : Args) (c0 c1 : Config) (hh0 : ∀ l, (w0.hashOrder l).Perm l)
    (h0 : resolveConfig w0 a0 = .ok c0) (hd0 : ∀ b ∈ c0.bindMounts, b.argument ≠ str "data") (hd1 : ∀ b ∈ c1.bindMounts, b.argument ≠ str "data")
    (ms : List MountHash) (parent0 : Option (Option (List MountHash))) (table0 : Option (List MountEntry))
    (hms0 : determineMounts (sandboxDir c0.storageDir c0.name) parent0 table0 = some ms) (hpar : ∀ l, parent0 = some (some l) → Spec.SortedMounts l) (parent : Option (Option (List MountHash)))
    (table : Option (List MountEntry)) (hnorm : ∀ m ∈ ms, NormalPath m.dir) (r : RawSettings)
    (hr : Spec.Written r (settingsOf v0 c0.net (c0.bindMounts ++ [dataBind c0]) (stableSort (fun a b => textLe a.dir b.dir) ms))) (current : Option RawSettings)
    (hcur : match determineMounts (sandboxDir c1.storageDir c1.name) parent table with
      | none => current = none
      | some ms => ∃ r', current = some r' ∧ Spec.Written r' (settingsOf v1 c1.net (c1.bindMounts ++ [dataBind c1]) ms) ∧ ∀ m ∈ ms, NormalPath m.dir) :
    joinFile (some (saveSettings r)) current = .ok () ↔
      c0.net = c1.net ∧ determineMounts (sandboxDir c1.storageDir c1.name) parent table = some ms ∧ c0.bindMounts.Perm c1.bindMounts := by
  rw [C93_join v1 c1 _ r hr parent table current hcur (fun m hm => hnorm m ((perm_stableSort _ _).mem_iff.1 hm))]
  exact C44_join_partial v0 v1 w0 a0 c0 c1 hh0 h0 hd0 hd1 ms parent0 table0 hms0 hpar parent table

/-! ### Which files are accepted -/

theorem filter_one {l : List (Str × Json)} {k : Str} {w : Json} : (match l.filter (fun e => e.1 = k) with | [e] => some e.2 | _ => none) = some w ↔ (k, w) ∈ l ∧ l.countP (fun e => e.1 = k) = 1 := by
  have hc : l.countP (fun e => e.1 = k) = (l.filter (fun e => e.1 = k)).length := List.countP_eq_length_filter
  have hm : ∀ e, e ∈ l.filter (fun e => e.1 = k) ↔ e ∈ l ∧ e.1 = k := by intro e; simp [List.mem_filter]
  rw [hc]
  generalize l.filter (fun e => e.1 = k) = q at hm ⊢
  rcases q with _ | ⟨⟨x, y⟩, _ | ⟨b, q⟩⟩
  · simp
  · have h1 := (hm (x, y)).1 (by simp)
    have hx : x = k := h1.2
    subst hx
    simp only [Option.some.injEq, List.length_singleton, and_true]
    constructor
    · rintro rfl; exact h1.1
    · intro h
      have := (hm (x, w)).2 ⟨h, rfl⟩
      simp at this
      exact this.symm
  · simp

theorem fieldOf_iff {l : List (Str × Json)} {k : Str} {w : Json} : fieldOf l k = some w ↔ (k, w) ∈ l ∧ l.countP (fun e => e.1 = k) = 1 := filter_one

theorem mapM_iff {α β : Type} {f : α → Option β} {R : α → β → Prop} (h : ∀ a b, f a = some b ↔ R a b) : ∀ (l : List α) (r : List β), l.mapM f = some r ↔ List.Forall₂ R l r
  | [], r => by cases r <;> simp
  | a :: l, r => by
    rw [List.mapM_cons]
    cases r with
    | nil => cases hf : f a <;> cases hl : l.mapM f <;> simp
    | cons b r =>
      rw [List.forall₂_cons, ← h, ← mapM_iff h l r]
      cases hf : f a with
      | none => simp
      | some x => cases hl : l.mapM f <;> simp

theorem structOf_iff {names : List Str} {v : Json} {ws : List Json} : structOf names v = some ws ↔ Spec.Fields v names ws := by
  unfold Spec.Fields
  cases v with
  | obj l =>
    simp only [structOf, Json.obj.injEq, exists_eq_left', reduceCtorEq, false_and, or_false]
    exact mapM_iff (fun k w => fieldOf_iff) names ws
  | arr l =>
    simp only [structOf, reduceCtorEq, false_and, exists_false, false_or, Json.arr.injEq]
    constructor
    · intro h; split at h
      · cases h; exact ⟨rfl, by assumption⟩
      · cases h
    · rintro ⟨rfl, h⟩; rw [if_pos h]
  | _ => simp [structOf]

theorem textOf_iff {v : Json} {s : Str} : textOf v = some s ↔ v = .str s := by
  cases v <;> simp [textOf]

theorem variantOf_iff {v : Json} {s : Str} : variantOf v = some s ↔ Spec.Variant v s := by
  unfold Spec.Variant
  constructor
  · intro h
    unfold variantOf at h
    split at h
    · cases h; exact .inl rfl
    · cases h; exact .inr rfl
    · cases h
  · rintro (rfl | rfl) <;> rfl

theorem netOf_iff {v : Json} {n : Net} : netOf v = some n ↔ Spec.Variant v (netName n) := by
  rw [← variantOf_iff]
  unfold netOf
  cases variantOf v with
  | none => simp
  | some s =>
    dsimp only
    rw [Option.some.injEq]
    constructor
    · intro h
      split at h
      · next hs => cases h; exact hs
      split at h
      · next hs => cases h; exact hs
      · cases h
    · rintro rfl; cases n <;> rfl

theorem optOf_iff {v : Json} {o : BindOpt} : optOf v = some o ↔ Spec.Variant v (optName o) := by
  rw [← variantOf_iff]
  unfold optOf
  cases variantOf v with
  | none => simp
  | some s =>
    dsimp only
    rw [Option.some.injEq]
    constructor
    · intro h
      split at h
      · next hs => cases h; exact hs
      split at h
      · next hs => cases h; exact hs
      split at h
      · next hs => cases h; exact hs
      · cases h
    · rintro rfl; cases o <;> rfl

theorem fields_length {v : Json} {names : List Str} {ws : List Json} (h : Spec.Fields v names ws) : ws.length = names.length := by
  rcases h with ⟨l, _, h⟩ | ⟨_, h⟩
  · exact h.length_eq.symm
  · exact h

theorem mountOf_iff {v : Json} {m : Str × Str} : mountOf v = some m ↔ Spec.MountValue v m := by
  unfold Spec.MountValue
  rw [← structOf_iff]
  unfold mountOf
  generalize structOf _ v = q
  constructor
  · intro h
    split at h
    · next a b =>
      split at h
      · next h1 h2 => cases h; rw [textOf_iff.1 h1, textOf_iff.1 h2]
      · cases h
    · cases h
  · rintro rfl; rfl

theorem bindOf_iff {v : Json} {b : RawBind} : bindOf v = some b ↔ Spec.BindValue v b := by
  unfold Spec.BindValue
  simp only [← structOf_iff, ← optOf_iff]
  unfold bindOf
  generalize structOf _ v = q
  constructor
  · intro h
    split at h
    · next x y z w =>
      split at h
      · next h1 h2 h3 h4 => cases h; exact ⟨z, by rw [textOf_iff.1 h1, textOf_iff.1 h2, textOf_iff.1 h4], h3⟩
      · cases h
    · cases h
  · rintro ⟨o, rfl, ho⟩
    dsimp only
    rw [ho]
    rfl

theorem arrayOf_iff {α : Type} {f : Json → Option α} {R : Json → α → Prop} (h : ∀ a b, f a = some b ↔ R a b) {v : Json} {r : List α} : arrayOf f v = some r ↔ ∃ l, v = .arr l ∧ List.Forall₂ R l r := by
  cases v with
  | arr l => simp only [arrayOf, Json.arr.injEq, exists_eq_left']; exact mapM_iff h l r
  | _ => simp [arrayOf]

theorem settingsOfJson_iff {v : Json} {s : RawSettings} : settingsOfJson v = some s ↔ Spec.SettingsValue v s := by
  unfold Spec.SettingsValue
  simp only [← structOf_iff, ← netOf_iff]
  unfold settingsOfJson
  generalize structOf _ v = q
  constructor
  · intro h
    split at h
    · next a b c d =>
      split at h
      · next h1 h2 h3 h4 =>
        cases h
        obtain ⟨l, rfl, hl⟩ := (arrayOf_iff (fun _ _ => mountOf_iff)).1 h2
        obtain ⟨r, rfl, hr⟩ := (arrayOf_iff (fun _ _ => bindOf_iff)).1 h4
        exact ⟨l, c, r, by rw [textOf_iff.1 h1], hl, h3, hr⟩
      · cases h
    · cases h
  · rintro ⟨l, n, r, rfl, hl, hn, hr⟩
    dsimp only
    rw [hn, (arrayOf_iff (fun _ _ => mountOf_iff)).2 ⟨l, rfl, hl⟩, (arrayOf_iff (fun _ _ => bindOf_iff)).2 ⟨r, rfl, hr⟩]
    rfl

/-- **C93**: exactly the files that are the UTF-8 text of a JSON text (RFC 8259) for an object with the fields of the settings are read, as these settings. -/
theorem C93_files (bytes : List Nat) (s : RawSettings) : loadSettings bytes = some s ↔ ∃ t v, bytes = utf8 t ∧ Spec.IsJson v t ∧ Spec.SettingsValue v s := by
  unfold loadSettings
  constructor
  · intro h
    split at h
    · cases h
    · next t ht =>
      split at h
      · cases h
      · next v hv => exact ⟨t, v, (utf8Decode_iff _ _).1 ht, jsonParse_iff.1 hv, settingsOfJson_iff.1 h⟩
  · rintro ⟨t, v, rfl, hv, hs⟩
    rw [(utf8Decode_iff _ _).2 rfl]
    dsimp only
    rw [jsonParse_iff.2 hv]
    exact settingsOfJson_iff.2 hs

/-- **C93**: a sandbox whose settings.json is any other file (not UTF-8, not JSON, a field missing, twice or with a value of another kind) is not entered. -/
theorem C93_damaged (bytes : List Nat) (current : Option RawSettings) (h : ¬ ∃ s t v, bytes = utf8 t ∧ Spec.IsJson v t ∧ Spec.SettingsValue v s) : joinFile (some bytes) current = .error .corrupt := by
  unfold joinFile
  dsimp only
  cases hl : loadSettings bytes with
  | none => rfl
  | some s => exact absurd ⟨s, (C93_files bytes s).1 hl⟩ h

/-! ### C94 -/

theorem mapInsert_keys (l : List (Str × Json)) (k : Str) (v : Json) {x : Str} {w : Json} (h : (x, w) ∈ mapInsert l k v) : (x, w) = (k, v) ∨ (x, w) ∈ l := by
  induction l with
  | nil => simpa [mapInsert] using h
  | cons e l ih =>
    obtain ⟨y, u⟩ := e
    rw [mapInsert] at h
    split at h
    · rcases List.mem_cons.1 h with h | h
      · exact .inl h
      · exact .inr (by simp [h])
    split at h
    · rcases List.mem_cons.1 h with h | h
      · exact .inl h
      · exact .inr h
    · rcases List.mem_cons.1 h with h | h
      · exact .inr (by simp [h])
      · rcases ih h with h | h
        · exact .inl h
        · exact .inr (by simp [h])

/-- Keys in strictly ascending order. -/
def Spec.SortedKeys (l : List (Str × Json)) : Prop := (l.map Prod.fst).Pairwise (· < ·)

theorem mapInsert_sorted {l : List (Str × Json)} (k : Str) (v : Json) (h : Spec.SortedKeys l) : Spec.SortedKeys (mapInsert l k v) := by
  induction l with
  | nil => simp [mapInsert, Spec.SortedKeys]
  | cons e l ih =>
    obtain ⟨y, u⟩ := e
    have h' := h
    unfold Spec.SortedKeys at h'
    rw [List.map_cons, List.pairwise_cons] at h'
    obtain ⟨h1, h2⟩ := h'
    rw [mapInsert]
    split
    · next he =>
      unfold Spec.SortedKeys
      rw [List.map_cons, List.pairwise_cons]
      exact ⟨fun a ha => by rw [show (k, v).1 = y from he]; exact h1 a ha, h2⟩
    split
    · next hlt =>
      unfold Spec.SortedKeys
      rw [List.map_cons, List.pairwise_cons]
      refine ⟨fun a ha => ?_, h⟩
      rcases List.mem_cons.1 ha with rfl | ha
      · exact hlt
      · exact List.lt_trans hlt (h1 a ha)
    · next hne hlt =>
      unfold Spec.SortedKeys
      rw [List.map_cons, List.pairwise_cons]
      refine ⟨fun a ha => ?_, ih h2⟩
      obtain ⟨⟨x, w⟩, hx, rfl⟩ := List.mem_map.1 ha
      rcases mapInsert_keys l k v hx with h | h
      · cases h
        rcases lt_trichotomy (show List Char from y) k with h | h | h
        · exact h
        · exact absurd h.symm hne
        · exact absurd h hlt
      · exact h1 x (List.mem_map.2 ⟨(x, w), h, rfl⟩)

theorem mapInsert_lookup (l : List (Str × Json)) (k : Str) (v : Json) (x : Str) : (mapInsert l k v).lookup x = if x = k then some v else l.lookup x := by
  induction l with
  | nil =>
    rw [mapInsert, List.lookup_cons]
    by_cases h : x = k
    · subst h; simp
    · have : (x == k) = false := by simpa using h
      rw [this]; simp [h]
  | cons e l ih =>
    obtain ⟨y, u⟩ := e
    rw [mapInsert]
    split
    · next he =>
      subst he
      rw [List.lookup_cons, List.lookup_cons]
      by_cases h : x = k
      · subst h; simp
      · have : (x == k) = false := by simpa using h
        rw [this]; simp [h]
    split
    · rw [List.lookup_cons]
      by_cases h : x = k
      · subst h; simp
      · have : (x == k) = false := by simpa using h
        rw [this]; simp [h]
    · next hne _ =>
      rw [List.lookup_cons, List.lookup_cons, ih]
      by_cases h : x = y
      · subst h
        simp
        intro h
        exact absurd h.symm hne
      · have : (x == y) = false := by simpa using h
        rw [this]

theorem mapSets_spec (sets : List (Str × Json)) (l : List (Str × Json)) (m : Str → Option Json) (hl : Spec.SortedKeys l) (hm : ∀ k, l.lookup k = m k) :
    Spec.SortedKeys (sets.foldl (fun l p => mapInsert l p.1 p.2) l) ∧ (∀ k, (sets.foldl (fun l p => mapInsert l p.1 p.2) l).lookup k = jsonSets m sets k) ∧
    ∀ e ∈ sets.foldl (fun l p => mapInsert l p.1 p.2) l, e ∈ l ∨ e ∈ sets := by
  induction sets generalizing l m with
  | nil => exact ⟨hl, hm, fun e he => .inl he⟩
  | cons p r ih =>
    obtain ⟨h1, h2, h3⟩ := ih (mapInsert l p.1 p.2) (jsonSet m p.1 p.2) (mapInsert_sorted _ _ hl) (fun k => by rw [mapInsert_lookup, jsonSet, hm])
    refine ⟨h1, h2, fun e he => ?_⟩
    rcases h3 e he with h | h
    · obtain ⟨x, w⟩ := e
      rcases mapInsert_keys l _ _ h with h | h
      · exact .inr (by rw [h]; simp)
      · exact .inl h
    · exact .inr (by simp [h])

/-- The object that is printed. -/
theorem stdout_spec (a : ActionRun) (hn : ∀ p ∈ a.sets, Spec.NumbersOk p.2) : ∃ l m, Spec.SortedKeys l ∧ jsonStdout a = jsonPretty (.obj l) ++ ['\n'] ∧ Spec.NumbersOk (.obj l) ∧
    (mainAction true .ready a).stdout = [.object m] ∧ ∀ k, l.lookup k = m k := by
  cases hr : a.result with
  | ok u =>
    obtain ⟨h1, h2, h3⟩ := mapSets_spec (a.sets ++ [(str "status", Json.str (str "success"))]) [] (fun _ => none) (by simp [Spec.SortedKeys]) (fun _ => rfl)
    refine ⟨_, jsonSet (jsonSets (fun _ => none) a.sets) (str "status") (.str (str "success")), h1, by simp [jsonStdout, hr], ?_, by simp [mainAction, hr], fun k => ?_⟩
    · refine numbers_obj.2 (fun e he => ?_)
      rcases h3 e he with h | h
      · cases h
      · rcases List.mem_append.1 h with h | h
        · exact hn e h
        · rw [List.mem_singleton] at h; rw [h]; trivial
    · rw [h2, jsonSets, List.foldl_append]; rfl
  | error e =>
    obtain ⟨h1, h2, h3⟩ := mapSets_spec (a.sets ++ [(str "status", Json.str (str "error")), (str "error", Json.str e)]) [] (fun _ => none) (by simp [Spec.SortedKeys]) (fun _ => rfl)
    refine ⟨_, jsonSet (jsonSet (jsonSets (fun _ => none) a.sets) (str "status") (.str (str "error"))) (str "error") (.str e), h1, by simp [jsonStdout, hr], ?_, by simp [mainAction, hr], fun k => ?_⟩
    · refine numbers_obj.2 (fun x he => ?_)
      rcases h3 x he with h | h
      · cases h
      · rcases List.mem_append.1 h with h | h
        · exact hn x h
        · simp only [List.mem_cons, List.not_mem_nil, or_false] at h
          rcases h with rfl | rfl <;> trivial
    · rw [h2, jsonSets, List.foldl_append]; rfl

/-- **C94**: with --json, for an action that records any values (any characters in them), standard output is a JSON text (RFC 8259) for an object whose names are all different and whose values are
the recorded ones (`m`: C60), and a reader gets these values from it. -/
theorem C94_text (a : ActionRun) (hn : ∀ p ∈ a.sets, Spec.NumbersOk p.2) : ∃ l m, Spec.IsJson (.obj l) (jsonStdout a) ∧ jsonParse (jsonStdout a) = some (.obj l) ∧ (l.map Prod.fst).Nodup ∧
    (mainAction true .ready a).stdout = [.object m] ∧ ∀ k, l.lookup k = m k := by
  obtain ⟨l, m, h1, h2, h3, h4, h5⟩ := stdout_spec a hn
  have hj : Spec.IsJson (.obj l) (jsonStdout a) := by
    have := json_pad (a := []) (b := ['\n']) blank_nil (by intro c hc; simp at hc; exact .inr (.inl hc)) (render_json (.obj l) 0 h3)
    rw [h2]
    exact this
  exact ⟨l, m, hj, jsonParse_of hj, h1.imp (fun h => h.ne), h4, h5⟩

/-- Texts of different objects are different. -/
theorem stdout_inj {a b : ActionRun} (ha : ∀ p ∈ a.sets, Spec.NumbersOk p.2) (hb : ∀ p ∈ b.sets, Spec.NumbersOk p.2) (h : jsonStdout a = jsonStdout b) {m m' : Str → Option Json}
    (hm : (mainAction true .ready a).stdout = [.object m]) (hm' : (mainAction true .ready b).stdout = [.object m']) (k : Str) : m k = m' k := by
  obtain ⟨l, m1, _, h1, _, h2, h3⟩ := C94_text a ha
  obtain ⟨l', m2, _, h1', _, h2', h3'⟩ := C94_text b hb
  rw [h, h1'] at h1
  cases h1
  rw [hm] at h2
  rw [hm'] at h2'
  cases h2
  cases h2'
  rw [← h3, ← h3']

theorem entryValue_inj {e e' : EntryJson} (h : entryValue e = entryValue e') : e = e' := by
  obtain ⟨d, o, s, t, p, x⟩ := e
  obtain ⟨d', o', s', t', p', x'⟩ := e'
  have key : ∀ a b : Option Str, optJson a = optJson b → a = b := by
    intro a b h
    cases a <;> cases b <;> simp [optJson] at h ⊢
    exact h
  cases x <;> cases x' <;> simp [entryValue] at h
  · obtain ⟨rfl, rfl, h1, h2, h3⟩ := h
    rw [key _ _ h1, key _ _ h2, key _ _ h3]
  · obtain ⟨rfl, rfl, rfl, h1, h2, h3⟩ := h
    rw [key _ _ h1, key _ _ h2, key _ _ h3]

theorem status_numbers (env : Env) (st : State) : ∀ p ∈ (statusRun env st).sets, Spec.NumbersOk p.2 := by
  intro p hp
  simp only [statusRun, List.mem_singleton] at hp
  subst hp
  refine numbers_arr.2 (fun v hv => ?_)
  obtain ⟨e, _, rfl⟩ := List.mem_map.1 hv
  have ho : ∀ o, Spec.NumbersOk (optJson o) := fun o => by cases o <;> trivial
  refine numbers_obj.2 (fun x hx => ?_)
  cases he : e.error with
  | none =>
    simp only [he, List.append_nil, List.mem_append, List.mem_cons, List.not_mem_nil, or_false] at hx
    rcases hx with rfl | rfl | rfl | rfl | rfl
    exacts [trivial, trivial, ho _, ho _, ho _]
  | some y =>
    simp only [he, List.mem_append, List.mem_cons, List.not_mem_nil, or_false] at hx
    rcases hx with (rfl | rfl) | rfl | rfl | rfl | rfl
    exacts [trivial, trivial, trivial, ho _, ho _, ho _]

/-- **C94 for status**: the bytes that `status --json` prints determine the listed changes and where each is staged, whatever characters names contain (unlike the text without --json: C63). -/
theorem C94_status (env env' : Env) (st st' : State) (hw : st.upper.WF) (hw' : st'.upper.WF) (hp : Spec.ProperPaths (status env st).1)
    (hp' : Spec.ProperPaths (status env' st').1) (h : utf8 (jsonStdout (statusRun env st)) = utf8 (jsonStdout (statusRun env' st'))) :
    (status env st).1.map (fun e => (Spec.meaning e, e.staged.map (·.path))) = (status env' st').1.map (fun e => (Spec.meaning e, e.staged.map (·.path))) := by
  refine C63_json env env' st st' hw hw' hp hp' ?_
  have ht : jsonStdout (statusRun env st) = jsonStdout (statusRun env' st') := by
    have h1 := (utf8Decode_iff (utf8 (jsonStdout (statusRun env st))) _).2 rfl
    rw [h] at h1
    exact Option.some.inj (h1.symm.trans ((utf8Decode_iff _ _).2 rfl))
  have hk := stdout_inj (status_numbers env st) (status_numbers env' st') ht rfl rfl (str "changes")
  have hj : Json.arr ((statusJson env st).map entryValue) = Json.arr ((statusJson env' st').map entryValue) := Option.some.inj hk
  exact List.map_injective_iff.2 (fun _ _ => entryValue_inj) (Json.arr.inj hj)

/-- The word for what happens to a path. -/
def Spec.opWord : EntryOp → Str
  | .set .create => str "create"
  | .set .modify => str "modify"
  | .remove => str "remove"
  | .rename => str "rename"
  | .error _ => str "error"

/-- A text, or null if there is none. -/
def Spec.Nullable (o : Option Path) (v : Json) : Prop := match o with | none => v = .null | some p => v = .str (display p)

/-- The object for a change: what is where. -/
structure Spec.EntryObject (e : Entry) (v : Json) : Prop where
  object : ∃ m, v = .obj m ∧ (m.map Prod.fst).Nodup ∧ m.lookup (str "destination") = some (.str (display e.dest)) ∧ m.lookup (str "operation") = some (.str (Spec.opWord e.op)) ∧
    (∃ x, m.lookup (str "source") = some x ∧ Spec.Nullable (e.source.map (·.path)) x) ∧ (∃ x, m.lookup (str "staged") = some x ∧ Spec.Nullable (e.staged.map (·.path)) x) ∧
    m.lookup (str "tmp_path") = some .null ∧
    m.lookup (str "error") = match e.op with
      | .error .unsupportedFileType => some (.str (str "unsupported_file_type"))
      | .error .redirectPathNotFound => some (.str (str "redirect_path_not_found"))
      | _ => none

theorem nullable_of (o : Option Path) : Spec.Nullable o (optJson (o.map display)) := by cases o <;> rfl

theorem entryObject (e : Entry) (ht : e.tmp = none) : Spec.EntryObject e (entryValue (entryJson e)) := by
  have h1 := nullable_of (e.source.map (·.path))
  have h2 := nullable_of (e.staged.map (·.path))
  rw [Option.map_map] at h1 h2
  have n1 : List.Nodup [str "destination", str "error", str "operation", str "source", str "staged", str "tmp_path"] := by decide
  have n2 : List.Nodup [str "destination", str "operation", str "source", str "staged", str "tmp_path"] := by decide
  refine ⟨?_⟩
  cases hop : e.op with
  | error x =>
    cases x <;> exact ⟨_, rfl, by simp only [entryJson, hop]; exact n1, rfl, by simp only [entryJson, hop]; rfl, ⟨_, by simp only [entryJson, hop]; rfl, h1⟩, ⟨_, by simp only [entryJson, hop]; rfl, h2⟩,
      by simp only [entryJson, hop, ht]; rfl, by simp only [entryJson, hop]; rfl⟩
  | set x =>
    cases x <;> exact ⟨_, rfl, by simp only [entryJson, hop]; exact n2, rfl, by simp only [entryJson, hop]; rfl, ⟨_, by simp only [entryJson, hop]; rfl, h1⟩, ⟨_, by simp only [entryJson, hop]; rfl, h2⟩,
      by simp only [entryJson, hop, ht]; rfl, by simp only [entryJson, hop]; rfl⟩
  | remove =>
    exact ⟨_, rfl, by simp only [entryJson, hop]; exact n2, rfl, by simp only [entryJson, hop]; rfl, ⟨_, by simp only [entryJson, hop]; rfl, h1⟩, ⟨_, by simp only [entryJson, hop]; rfl, h2⟩,
      by simp only [entryJson, hop, ht]; rfl, by simp only [entryJson, hop]; rfl⟩
  | rename =>
    exact ⟨_, rfl, by simp only [entryJson, hop]; exact n2, rfl, by simp only [entryJson, hop]; rfl, ⟨_, by simp only [entryJson, hop]; rfl, h1⟩, ⟨_, by simp only [entryJson, hop]; rfl, h2⟩,
      by simp only [entryJson, hop, ht]; rfl, by simp only [entryJson, hop]; rfl⟩

/-- **C94 for status**, the names of the members: a reader of what `status --json` prints finds the listed changes in their order at `changes`, each as an object with these members. -/
theorem C94_entries (env : Env) (st : State) : ∃ l vs, jsonParse (jsonStdout (statusRun env st)) = some (.obj l) ∧ l.lookup (str "status") = some (.str (str "success")) ∧
    l.lookup (str "changes") = some (.arr vs) ∧ List.Forall₂ Spec.EntryObject (status env st).1 vs := by
  obtain ⟨l, m, -, h1, -, h2, h3⟩ := C94_text (statusRun env st) (status_numbers env st)
  simp only [mainAction, statusRun, if_true, List.nil_append, StdOut.object.injEq, List.cons.injEq, and_true] at h2
  refine ⟨l, (statusJson env st).map entryValue, h1, ?_, ?_, ?_⟩
  · rw [h3, ← h2]; rfl
  · rw [h3, ← h2]; rfl
  · unfold statusJson
    change List.Forall₂ _ (statusList (selected env st)) _
    rw [List.map_map, List.forall₂_map_right_iff]
    exact List.forall₂_same.2 (fun e he => entryObject e (changes_tmp (mem_statusList he).1))

/-! ### Examples -/

/-- The settings in memory, with paths as they are displayed. -/
def exWritten (s : Settings) : RawSettings := ⟨s.version, s.mounts.map (fun m => (m.hash, display m.dir)), s.net, s.binds.map (fun b => ⟨display b.source, b.target.text, b.opt, b.argument⟩)⟩

/-- Settings with a quotation mark, a backslash, a line break, a control character and a character above U+FFFF in their paths. -/
def exOdd : Settings := ⟨str "1.0", [⟨str "F4", []⟩, ⟨str "ABC", [str "a\"b"]⟩], .host,
  [⟨[str "x\\y", [Char.ofNat 1, Char.ofNat 0x1F600]], ⟨true, [str "t\nu"]⟩, .ro, str "~/x:\t:ro"⟩, ⟨[str "etc"], ⟨true, [str "etc"]⟩, .mask, str "/etc::mask"⟩]⟩

/-- Non-vacuity of C93_roundtrip and C93_join: the file, and that it is read back. -/
example : jsonPretty (settingsJson (exWritten ⟨str "1.0", [⟨str "F4", []⟩], .host, [⟨[str "a\"b"], ⟨true, [[Char.ofNat 1]]⟩, .ro, str "x\\"⟩]⟩)) =
    str ("{\n  \"version\": \"1.0\",\n  \"mounts\": [\n    {\n      \"hash\": \"F4\",\n      \"dir\": \"/\"\n    }\n  ],\n  \"network\": \"host\",\n  \"bind_mounts\": [\n    {\n" ++
      "      \"source\": \"/a\\\"b\",\n      \"target\": \"/\\u0001\",\n      \"options\": \"ReadOnly\",\n      \"argument\": \"x\\\\\"\n    }\n  ]\n}") := by decide +kernel

example : loadSettings (saveSettings (exWritten exOdd)) = some (exWritten exOdd) := C93_roundtrip _

theorem exOdd_written : Spec.Written (exWritten exOdd) exOdd where
  version := rfl
  mounts := rfl
  net := rfl
  binds := .cons (by decide +kernel) (.cons (by decide +kernel) .nil)

/-- Non-vacuity of C93_damaged and C93_files: a file cut short (its last byte is missing), one with bytes that are not UTF-8, one without its field `network`; a file in another layout, with other escapes, is read. -/
example : loadSettings (saveSettings (exWritten exOdd)).dropLast = none ∧ loadSettings [0x22, 0xFF, 0x22] = none ∧
    loadSettings (utf8 (str "{\"version\": \"1\", \"mounts\": [], \"bind_mounts\": []}")) = none ∧
    loadSettings (utf8 (str " {\"extra\":[1.5e3,{\"x\":null}],\"network\":\"none\",\"mounts\":[],\"bind_mounts\":[{\"target\":\"\\u002fa\",\"source\":\"\\/b\",\"argument\":\"\\ud83d\\ude00\",\"options\":\"Mask\"}],\"version\":\"1\"}\n")) =
      some ⟨str "1", [], .none, [⟨str "/b", str "/a", .mask, [Char.ofNat 0x1F600]⟩]⟩ := by decide +kernel

/-- Non-vacuity of C44_file_partial: a sandbox is started and entered with the binds in another order; another option is refused. -/
def exEnter (w : World) (a0 a1 : Args) (t1 : Option (List MountEntry)) : Option (Except JoinErr Unit) :=
  match resolveConfig w a0, resolveConfig { w with hashOrder := List.reverse } a1 with
  | .ok c0, .ok c1 => (determineMounts (sandboxDir c0.storageDir c0.name) none exTable).map (fun ms =>
      joinFile (some (saveSettings (exWritten (settingsOf (str "1") c0.net (c0.bindMounts ++ [dataBind c0]) (stableSort (fun a b => textLe a.dir b.dir) ms)))))
        ((determineMounts (sandboxDir c1.storageDir c1.name) none t1).map (fun ms => exWritten (settingsOf (str "2") c1.net (c1.bindMounts ++ [dataBind c1]) ms))))
  | _, _ => none

example : exEnter exCfgWorld (exArgs [str "/etc", str "/tmp::ro"]) (exArgs [str "/tmp::ro", str "/etc"]) exTable = some (.ok ()) ∧
    exEnter exCfgWorld (exArgs [str "/etc"]) (exArgs [str "/etc::ro"]) exTable = some (.error (.clash .binds)) ∧
    exEnter exCfgWorld (exArgs [str "/etc"]) { exArgs [str "/etc"] with net := some .host } exTable = some (.error (.clash .network)) ∧
    exEnter exCfgWorld (exArgs [str "/etc"]) (exArgs [str "/etc"]) (some [⟨[], str "ext4"⟩]) = some (.error (.clash .mounts)) ∧
    exEnter exCfgWorld (exArgs [str "/etc"]) (exArgs [str "/etc"]) none = some (.error .noMounts) := by decide +kernel

/-- Non-vacuity of C94_text: deleting two sandboxes, one of which cannot be deleted (its name has a quotation mark, the message a line break). -/
example : jsonStdout (deleteRun [(str "a\"b", none), (str "c", some (str "x\ny"))]) =
    str "{\n  \"deleted\": [\n    \"a\\\"b\"\n  ],\n  \"errors\": [\n    \"x\\ny\"\n  ],\n  \"status\": \"success\"\n}\n" ∧
    jsonStdout ⟨[(str "status", .str (str "running"))], [], .error (str "no")⟩ = str "{\n  \"error\": \"no\",\n  \"status\": \"error\"\n}\n" := by decide +kernel

theorem delete_numbers (o : List (Str × Option Str)) : ∀ p ∈ (deleteRun o).sets, Spec.NumbersOk p.2 := by
  intro p hp
  simp only [deleteRun, List.mem_cons, List.not_mem_nil, or_false] at hp
  rcases hp with rfl | rfl | rfl
  · trivial
  · refine numbers_arr.2 (fun v hv => ?_)
    obtain ⟨x, _, hx⟩ := List.mem_filterMap.1 hv
    split at hx
    · cases hx; trivial
    · cases hx
  · refine numbers_arr.2 (fun v hv => ?_)
    obtain ⟨x, _, hx⟩ := List.mem_filterMap.1 hv
    obtain ⟨y, _, rfl⟩ := Option.map_eq_some_iff.1 hx
    trivial

/-- Non-vacuity of C94_status: two sandboxes whose listings are the same text (C63_refuted_newline) print different JSON. -/
example : statusText exEnv (exSpoof [str "a", str "b"]) = statusText exEnv (exSpoof [str "a\n   + b"]) ∧
    utf8 (jsonStdout (statusRun exEnv (exSpoof [str "a", str "b"]))) ≠ utf8 (jsonStdout (statusRun exEnv (exSpoof [str "a\n   + b"]))) ∧
    Spec.ProperPaths (status exEnv (exSpoof [str "a", str "b"])).1 ∧ Spec.ProperPaths (status exEnv (exSpoof [str "a\n   + b"])).1 := by decide +kernel

end SB
