import Verif.Lib.ConfigLemmas
import Verif.Lib.PathLemmas

/-!
# C34: precedence of option values; C35: order of config files
-/

namespace SB

/-! ### Specification -/

/-- The most specific of the config files (the last one read) that sets a value, with that value. -/
def Spec.fileValue {α} (w : World) (files : List Str) (f : Partial → Option α) : Option (Str × α) :=
  files.reverse.findSome? (fun p => ((w.readConfig p).bind f).map (fun v => (p, v)))

/-- Effective value `v` with recorded origin `src`: the command line's if given, else the environment's, else the most specific config file's, else the default. -/
def Spec.Effective {α} (cli env : Option α) (file : Option (Str × α)) (dflt : α) (dfltSrc : Option Str) (v : α) (src : Option Str) : Prop :=
  match cli with
  | some x => v = x ∧ src = some (str "cli")
  | none => match env with
    | some x => v = x ∧ src = some (str "environment")
    | none => match file with
      | some (p, x) => v = x ∧ src = some p
      | none => v = dflt ∧ src = dfltSrc

/-- An environment variable that counts only if it is not empty. -/
def Spec.setVar : Option Str → Option Str
  | some (c :: t) => some (c :: t)
  | _ => none

/-- The meaning of a word of a list. -/
def Spec.word {α} (words : List (String × α)) (t : Str) : Option α := (words.find? (fun e => t = str e.1)).map Prod.snd

/-- The words for the log level, in any case. -/
def Spec.levelVar (t : Str) : Option Level :=
  Spec.word [("off", .off), ("error", .error), ("warn", .warn), ("info", .info), ("debug", .debug), ("trace", .trace)] (t.map Char.toLower)

/-- The words for the network, in any case. -/
def Spec.netVar (t : Str) : Option Net := Spec.word [("none", .none), ("host", .host)] (t.map Char.toLower)

/-- The words for a switch. -/
def Spec.switchVar (t : Str) : Option Bool := Spec.word [("true", true), ("false", false)] t

theorem nonEmpty_spec (o : Option Str) : nonEmpty o = Spec.setVar o := by
  rcases o with _ | _ | _ <;> rfl

theorem lowerChar_spec (c : Char) : lowerChar c = c.toLower := by
  unfold lowerChar Char.toLower
  have h1 : (65 ≤ c.toNat ∧ c.toNat ≤ 90) ↔ (c.val ≥ 65 ∧ c.val ≤ 90) := by
    simp only [Char.toNat, ge_iff_le, UInt32.le_iff_toNat_le]
    exact Iff.rfl
  by_cases h : 65 ≤ c.toNat ∧ c.toNat ≤ 90
  · rw [if_pos h]
    split
    · apply Char.ext
      obtain ⟨a, b⟩ := h
      have hv : (c.toNat + 32).isValidChar := by left; omega
      rw [show Char.ofNat (c.toNat + 32) = Char.ofNatAux (c.toNat + 32) hv from dif_pos hv]
      apply UInt32.toNat_inj.1
      have hcv : c.val.toNat ≤ 90 := b
      have : (c.val + ('a'.val - 'A'.val)).toNat = c.val.toNat + 32 := by
        rw [UInt32.toNat_add]
        have : ('a'.val - 'A'.val).toNat = 32 := by decide
        rw [this]
        omega
      exact Eq.trans rfl this.symm
    · next hn => exact absurd (h1.1 h) hn
  · rw [if_neg h]
    split
    · next hn => exact absurd (h1.2 hn) h
    · rfl

theorem parseLevel_spec (t : Str) : parseLevel t = Spec.levelVar t := by
  unfold parseLevel Spec.levelVar lower Spec.word
  rw [show lowerChar = Char.toLower from funext lowerChar_spec]
  generalize t.map Char.toLower = u
  simp only [List.find?_cons, List.find?_nil]
  repeat (first | rfl | (split <;> simp_all))

theorem parseNet_spec (t : Str) : parseNet t = Spec.netVar t := by
  unfold parseNet Spec.netVar lower Spec.word
  rw [show lowerChar = Char.toLower from funext lowerChar_spec]
  generalize t.map Char.toLower = u
  simp only [List.find?_cons, List.find?_nil]
  repeat (first | rfl | (split <;> simp_all))

theorem parseBool_spec (t : Str) : parseBool t = Spec.switchVar t := by
  unfold parseBool Spec.switchVar Spec.word
  simp only [List.find?_cons, List.find?_nil]
  repeat (first | rfl | (split <;> simp_all))

/-! ### files -/

/-- A value and its origin are tracked by `mergeConfig`. -/
def Tracked {α} (f : Partial → Option α) (k : Key) : Prop := ∀ acc o src,
  f (mergeConfig acc o src).1 = (f o).or (f acc.1) ∧ (mergeConfig acc o src).2.get k = if (f o).isSome then some src else acc.2.get k

theorem tracked_logLevel : Tracked (·.logLevel) .logLevel := fun acc o src => by simp [mergeConfig]
theorem tracked_name : Tracked (·.name) .name := fun acc o src => by simp [mergeConfig]
theorem tracked_storageDir : Tracked (·.storageDir) .storageDir := fun acc o src => by simp [mergeConfig]
theorem tracked_net : Tracked (·.net) .net := fun acc o src => by simp [mergeConfig]
theorem tracked_ignored : Tracked (·.ignored) .ignored := fun acc o src => by simp [mergeConfig]
theorem tracked_noDefaultBinds : Tracked (·.noDefaultBinds) .noDefaultBinds := fun acc o src => by simp [mergeConfig]

theorem findSome_append {α β} (f : α → Option β) (l l' : List α) : (l ++ l').findSome? f = (l.findSome? f).or (l'.findSome? f) := by
  induction l with
  | nil => simp
  | cons a l ih =>
    simp only [List.cons_append, List.findSome?_cons]
    cases f a <;> simp [ih]

theorem fileValue_cons {α} (w : World) (p : Str) (r : List Str) (f : Partial → Option α) :
    Spec.fileValue w (p :: r) f = (Spec.fileValue w r f).or (((w.readConfig p).bind f).map (fun v => (p, v))) := by
  unfold Spec.fileValue
  rw [List.reverse_cons, findSome_append]
  congr 1
  cases h : ((w.readConfig p).bind f).map (fun v => (p, v)) <;> simp [List.findSome?, h]

theorem loadFiles_tracked {α} {f : Partial → Option α} {k : Key} (ht : Tracked f k) {w : World} : ∀ {files : List Str} {acc acc' : Partial × Sources},
    loadFiles w files acc = .ok acc' →
    f acc'.1 = ((Spec.fileValue w files f).map Prod.snd).or (f acc.1) ∧ acc'.2.get k = ((Spec.fileValue w files f).map Prod.fst).or (acc.2.get k)
  | [], acc, acc', h => by cases h; simp [Spec.fileValue]
  | p :: r, acc, acc', h => by
    unfold loadFiles at h
    split at h
    · cases h
    · next o ho =>
      obtain ⟨h1, h2⟩ := loadFiles_tracked ht h
      obtain ⟨t1, t2⟩ := ht acc o p
      rw [h1, h2, t1, t2, fileValue_cons, ho]
      cases hv : Spec.fileValue w r f with
      | some x => simp
      | none =>
        cases hf : f o <;> simp [hf]

theorem loadPartial_tracked {α} {f : Partial → Option α} {k : Key} (ht : Tracked f k) (h0 : f {} = none) (hk : k ≠ .configFiles) {w : World} {a : Args}
    {p : Partial} {s : Sources} {files : List Str} (h : loadPartial w a = .ok (p, s, files)) :
    f p = (Spec.fileValue w files f).map Prod.snd ∧ s.get k = (Spec.fileValue w files f).map Prod.fst := by
  unfold loadPartial at h
  split at h
  · cases h
  · next ps hps =>
    simp only at h
    split at h
    · cases h
    · next p' s' hl =>
      simp only [Except.ok.injEq, Prod.mk.injEq] at h
      obtain ⟨rfl, rfl, rfl⟩ := h
      obtain ⟨h1, h2⟩ := loadFiles_tracked ht hl
      simp only at h1 h2
      rw [h1, h2, h0]
      have : Sources.get (if ps = [] then [] else [(Key.configFiles, if a.config.isSome then str "cli --config" else str "default search")]) k = none := by
        split
        · rfl
        · simp [Sources.get, Ne.symm hk]
      rw [this]
      simp

/-! ### stages -/

/-- Everything `resolveConfig` does, as a chain of intermediate values. -/
theorem resolve_stages {w : World} {a : Args} {c : Config} (h : resolveConfig w a = .ok c) :
    ∃ p0 s0 acc1 acc2, loadPartial w a = .ok (p0, s0, c.configFiles) ∧ applyEnv w.vars a (p0, s0) = .ok acc1 ∧ applyCli w a acc1 = .ok acc2 ∧
      finishConfig w acc2 c.configFiles = .ok c ∧ ¬ ((a.new || a.last) && (p0.name.isSome || w.vars.name.isSome)) = true := by
  unfold resolveConfig at h
  split at h
  · cases h
  · next p s files hl =>
    split at h
    · cases h
    · next hnl =>
      split at h
      · cases h
      · next acc1 h1 =>
        split at h
        · cases h
        · next acc2 h2 =>
          have hf : c.configFiles = files := by
            unfold finishConfig at h
            simp only at h
            split at h
            · cases h
            · split at h
              · cases h
              · split at h
                · cases h
                · split at h
                  · cases h
                  · cases h; rfl
          rw [hf]
          exact ⟨p, s, acc1, acc2, hl, h1, h2, h, hnl⟩

theorem applyEnv_ok {v : EnvVars} {a : Args} {acc acc' : Partial × Sources} (h : applyEnv v a acc = .ok acc') :
    (acc'.1.logLevel = (v.logLevel.bind parseLevel).or acc.1.logLevel ∧
      acc'.2.get .logLevel = if (v.logLevel.bind parseLevel).isSome then some (str "environment") else acc.2.get .logLevel) ∧
    (acc'.1.name = (if a.new || a.last then none else nonEmpty v.name).or acc.1.name ∧
      acc'.2.get .name = if (if a.new || a.last then none else nonEmpty v.name).isSome then some (str "environment") else acc.2.get .name) ∧
    (acc'.1.storageDir = (nonEmpty v.storageDir).or acc.1.storageDir ∧
      acc'.2.get .storageDir = if (nonEmpty v.storageDir).isSome then some (str "environment") else acc.2.get .storageDir) ∧
    (acc'.1.net = ((nonEmpty v.net).bind parseNet).or acc.1.net ∧
      acc'.2.get .net = if ((nonEmpty v.net).bind parseNet).isSome then some (str "environment") else acc.2.get .net) ∧
    (acc'.1.ignored = (v.ignored.bind parseBool).or acc.1.ignored ∧
      acc'.2.get .ignored = if (v.ignored.bind parseBool).isSome then some (str "environment") else acc.2.get .ignored) ∧
    (acc'.1.noDefaultBinds = (v.noDefaultBinds.bind parseBool).or acc.1.noDefaultBinds ∧
      acc'.2.get .noDefaultBinds = if (v.noDefaultBinds.bind parseBool).isSome then some (str "environment") else acc.2.get .noDefaultBinds) ∧
    acc'.1.mask = acc.1.mask ∧
    acc'.1.bind = (match (listOf v.mask).map (·.map maskArg) with
      | some l => extend (match listOf v.bind with | some l => extend acc.1.bind l | none => acc.1.bind) l
      | none => (match listOf v.bind with | some l => extend acc.1.bind l | none => acc.1.bind)) ∧
    v.logLevel.map parseLevel ≠ some none ∧ (nonEmpty v.net).map parseNet ≠ some none ∧ v.ignored.map parseBool ≠ some none ∧
      v.noDefaultBinds.map parseBool ≠ some none := by
  unfold applyEnv at h
  simp only at h
  split at h
  · cases h
  · next e1 =>
    split at h
    · cases h
    · next e2 =>
      split at h
      · cases h
      · next e3 =>
        split at h
        · cases h
        · next e4 =>
          simp only [Except.ok.injEq] at h
          subst h
          generalize v.logLevel.bind parseLevel = o1, (if (a.new || a.last) = true then none else nonEmpty v.name) = o2, (nonEmpty v.net).bind parseNet = o3,
            v.ignored.bind parseBool = o4, v.noDefaultBinds.bind parseBool = o5, (listOf v.mask).map (·.map maskArg) = o6
          refine ⟨?_, ?_, ?_, ?_, ?_, ?_, ?_, ?_, e1, e2, e3, e4⟩ <;> (try simp)
          cases o6 <;> cases listOf v.bind <;> simp

theorem applyCli_ok {w : World} {a : Args} {acc acc' : Partial × Sources} (h : applyCli w a acc = .ok acc') :
    (acc'.1.logLevel = a.logLevel.or acc.1.logLevel ∧ acc'.2.get .logLevel = if a.logLevel.isSome then some (str "cli") else acc.2.get .logLevel) ∧
    (acc'.1.storageDir = a.storageDir.or acc.1.storageDir ∧ acc'.2.get .storageDir = if a.storageDir.isSome then some (str "cli") else acc.2.get .storageDir) ∧
    (∃ nm, cliName w a (a.storageDir.or acc.1.storageDir) = .ok nm ∧ acc'.1.name = (nm.map Prod.fst).or acc.1.name ∧
      acc'.2.get .name = if nm.isSome then nm.map Prod.snd else acc.2.get .name) ∧
    (acc'.1.net = a.net.or acc.1.net ∧ acc'.2.get .net = if a.net.isSome then some (str "cli") else acc.2.get .net) ∧
    (acc'.1.ignored = (if a.ignored then some true else none).or acc.1.ignored ∧ acc'.2.get .ignored = if a.ignored then some (str "cli") else acc.2.get .ignored) ∧
    (acc'.1.noDefaultBinds = (if a.noDefaultBinds then some true else none).or acc.1.noDefaultBinds ∧
      acc'.2.get .noDefaultBinds = if a.noDefaultBinds then some (str "cli") else acc.2.get .noDefaultBinds) ∧
    acc'.1.mask = acc.1.mask ∧
    acc'.1.bind = (match a.mask.map (·.map maskArg) with
      | some l => extend (match a.bind with | some l => extend acc.1.bind l | none => acc.1.bind) l
      | none => (match a.bind with | some l => extend acc.1.bind l | none => acc.1.bind)) := by
  unfold applyCli at h
  simp only at h
  split at h
  · cases h
  · next nm hnm =>
    simp only [Except.ok.injEq] at h
    subst h
    simp at hnm
    have hb : ∀ b : Bool, b = (if b = true then some true else none).isSome := by intro b; cases b <;> rfl
    generalize hg1 : (if a.ignored = true then some true else none) = o1
    generalize hg2 : (if a.noDefaultBinds = true then some true else none) = o2
    generalize a.mask.map (·.map maskArg) = o3
    generalize hg4 : nm.map Prod.fst = o4
    have h1 := hb a.ignored
    have h2 := hb a.noDefaultBinds
    rw [hg1] at h1
    rw [hg2] at h2
    rw [h1, h2]
    refine ⟨by simp, by simp, ⟨nm, hnm, by simp [hg4], ?_⟩, by simp, by simp, by simp, by simp, ?_⟩
    · subst hg4
      cases nm <;> simp
    · cases o3 <;> cases a.bind <;> simp [addBind]

theorem default_get (s : Sources) (k k' : Key) : (s.default k).get k' = if k = k' then (s.get k').or (some (str "default")) else s.get k' := by
  unfold Sources.default
  split
  · next h =>
    obtain ⟨x, hx⟩ := Option.isSome_iff_exists.1 h
    split
    · next hk => subst hk; rw [hx]; rfl
    · rfl
  · next h =>
    rw [Bool.not_eq_true, Option.isSome_eq_false_iff, Option.isNone_iff_eq_none] at h
    rw [sources_get_insert]
    split
    · next hk => subst hk; rw [h]; rfl
    · rfl

theorem finish_ok {w : World} {acc : Partial × Sources} {files : List Str} {c : Config} (h : finishConfig w acc files = .ok c) :
    c.name = acc.1.name.getD (str "sandbox") ∧ c.net = acc.1.net.getD .none ∧ c.ignored = acc.1.ignored.getD false ∧
    c.noDefaultBinds = acc.1.noDefaultBinds.getD false ∧ c.logLevel = acc.1.logLevel.getD .info ∧
    resolveStorage w acc.1.storageDir = .ok c.storageDir ∧
    (∃ bs m, parseBinds w (bindRequests w acc.1 c.net c.noDefaultBinds) = .ok bs ∧ dedupBinds [] bs = .ok m ∧ c.bindMounts = w.hashOrder m) ∧
    '/' ∉ c.name ∧
    c.sources.get .logLevel = acc.2.get .logLevel ∧
    c.sources.get .name = (acc.2.get .name).or (some (str "default")) ∧
    c.sources.get .net = (acc.2.get .net).or (some (str "default")) ∧
    c.sources.get .ignored = (acc.2.get .ignored).or (some (str "default")) ∧
    c.sources.get .noDefaultBinds = (acc.2.get .noDefaultBinds).or (some (str "default")) ∧
    c.sources.get .storageDir = (acc.2.get .storageDir).or (some (str "default")) := by
  unfold finishConfig at h
  simp only at h
  split at h
  · cases h
  · next sd hsd =>
    split at h
    · cases h
    · next bs hbs =>
      split at h
      · cases h
      · next m hm =>
        split at h
        · cases h
        · next hn =>
          cases h
          refine ⟨rfl, rfl, rfl, rfl, rfl, hsd, ⟨bs, m, hbs, hm, rfl⟩, by simpa using hn, ?_, ?_, ?_, ?_, ?_, ?_⟩ <;>
          · simp only
            split <;> simp [default_get]

/-! ### C34 -/

theorem Effective_intro {α} {cli env : Option α} {file : Option (Str × α)} {dflt v : α} {ds src : Option Str}
    (hv : v = (cli.or (env.or (file.map Prod.snd))).getD dflt)
    (hs : src = if cli.isSome then some (str "cli") else if env.isSome then some (str "environment") else (file.map Prod.fst).or ds) :
    Spec.Effective cli env file dflt ds v src := by
  unfold Spec.Effective
  cases cli with
  | some x => simp at hv hs; exact ⟨hv, hs⟩
  | none =>
    cases env with
    | some x => simp at hv hs; exact ⟨hv, hs⟩
    | none =>
      cases file with
      | some px => obtain ⟨p, x⟩ := px; simp at hv hs; exact ⟨hv, hs⟩
      | none => simp at hv hs; exact ⟨hv, hs⟩

/-- **C34** log level.  (For the default no origin is recorded.) -/
theorem C34_log_level (w : World) (a : Args) (c : Config) (h : resolveConfig w a = .ok c) :
    Spec.Effective a.logLevel (w.vars.logLevel.bind Spec.levelVar) (Spec.fileValue w c.configFiles (·.logLevel)) .info none c.logLevel (c.sources.get .logLevel) := by
  simp only [← nonEmpty_spec, ← show parseLevel = Spec.levelVar from funext parseLevel_spec, ← show parseNet = Spec.netVar from funext parseNet_spec, ← show parseBool = Spec.switchVar from funext parseBool_spec]
  obtain ⟨p0, s0, acc1, acc2, hl, he, hc, hf, _⟩ := resolve_stages h
  obtain ⟨t1, t2⟩ := loadPartial_tracked tracked_logLevel rfl (by decide) hl
  obtain ⟨⟨e1, e2⟩, _⟩ := applyEnv_ok he
  obtain ⟨⟨c1, c2⟩, _⟩ := applyCli_ok hc
  obtain ⟨_, _, _, _, f1, _, _, _, f2, _⟩ := finish_ok hf
  apply Effective_intro
  · rw [f1, c1, e1, t1]
  · rw [f2, c2, e2, t2]; simp

/-- **C34** network. -/
theorem C34_net (w : World) (a : Args) (c : Config) (h : resolveConfig w a = .ok c) :
    Spec.Effective a.net ((Spec.setVar w.vars.net).bind Spec.netVar) (Spec.fileValue w c.configFiles (·.net)) .none (some (str "default")) c.net (c.sources.get .net) := by
  simp only [← nonEmpty_spec, ← show parseLevel = Spec.levelVar from funext parseLevel_spec, ← show parseNet = Spec.netVar from funext parseNet_spec, ← show parseBool = Spec.switchVar from funext parseBool_spec]
  obtain ⟨p0, s0, acc1, acc2, hl, he, hc, hf, _⟩ := resolve_stages h
  obtain ⟨t1, t2⟩ := loadPartial_tracked tracked_net rfl (by decide) hl
  obtain ⟨_, _, _, ⟨e1, e2⟩, _⟩ := applyEnv_ok he
  obtain ⟨_, _, _, ⟨c1, c2⟩, _⟩ := applyCli_ok hc
  obtain ⟨_, f1, _, _, _, _, _, _, _, _, f2, _⟩ := finish_ok hf
  apply Effective_intro
  · rw [f1, c1, e1, t1]
  · rw [f2, c2, e2, t2]
    cases a.net <;> cases (nonEmpty w.vars.net).bind parseNet <;> simp

/-- **C34** `--ignored`. -/
theorem C34_ignored (w : World) (a : Args) (c : Config) (h : resolveConfig w a = .ok c) :
    Spec.Effective (if a.ignored then some true else none) (w.vars.ignored.bind Spec.switchVar) (Spec.fileValue w c.configFiles (·.ignored)) false
      (some (str "default")) c.ignored (c.sources.get .ignored) := by
  simp only [← nonEmpty_spec, ← show parseLevel = Spec.levelVar from funext parseLevel_spec, ← show parseNet = Spec.netVar from funext parseNet_spec, ← show parseBool = Spec.switchVar from funext parseBool_spec]
  obtain ⟨p0, s0, acc1, acc2, hl, he, hc, hf, _⟩ := resolve_stages h
  obtain ⟨t1, t2⟩ := loadPartial_tracked tracked_ignored rfl (by decide) hl
  obtain ⟨_, _, _, _, ⟨e1, e2⟩, _⟩ := applyEnv_ok he
  obtain ⟨_, _, _, _, ⟨c1, c2⟩, _⟩ := applyCli_ok hc
  obtain ⟨_, _, f1, _, _, _, _, _, _, _, _, f2, _⟩ := finish_ok hf
  apply Effective_intro
  · rw [f1, c1, e1, t1]
  · rw [f2, c2, e2, t2]
    cases a.ignored <;> cases w.vars.ignored.bind parseBool <;> simp

/-- **C34** `--no-default-binds`. -/
theorem C34_no_default_binds (w : World) (a : Args) (c : Config) (h : resolveConfig w a = .ok c) :
    Spec.Effective (if a.noDefaultBinds then some true else none) (w.vars.noDefaultBinds.bind Spec.switchVar) (Spec.fileValue w c.configFiles (·.noDefaultBinds)) false
      (some (str "default")) c.noDefaultBinds (c.sources.get .noDefaultBinds) := by
  simp only [← nonEmpty_spec, ← show parseLevel = Spec.levelVar from funext parseLevel_spec, ← show parseNet = Spec.netVar from funext parseNet_spec, ← show parseBool = Spec.switchVar from funext parseBool_spec]
  obtain ⟨p0, s0, acc1, acc2, hl, he, hc, hf, _⟩ := resolve_stages h
  obtain ⟨t1, t2⟩ := loadPartial_tracked tracked_noDefaultBinds rfl (by decide) hl
  obtain ⟨_, _, _, _, _, ⟨e1, e2⟩, _⟩ := applyEnv_ok he
  obtain ⟨_, _, _, _, _, ⟨c1, c2⟩, _⟩ := applyCli_ok hc
  obtain ⟨_, _, _, f1, _, _, _, _, _, _, _, _, f2, _⟩ := finish_ok hf
  apply Effective_intro
  · rw [f1, c1, e1, t1]
  · rw [f2, c2, e2, t2]
    cases a.noDefaultBinds <;> cases w.vars.noDefaultBinds.bind parseBool <;> simp

/-- **C34** name, without `--new` and `--last`. -/
theorem C34_name (w : World) (a : Args) (c : Config) (h : resolveConfig w a = .ok c) (hn : a.new = false) (hl' : a.last = false) :
    Spec.Effective a.name (Spec.setVar w.vars.name) (Spec.fileValue w c.configFiles (·.name)) (str "sandbox") (some (str "default")) c.name (c.sources.get .name) := by
  simp only [← nonEmpty_spec, ← show parseLevel = Spec.levelVar from funext parseLevel_spec, ← show parseNet = Spec.netVar from funext parseNet_spec, ← show parseBool = Spec.switchVar from funext parseBool_spec]
  obtain ⟨p0, s0, acc1, acc2, hl, he, hc, hf, _⟩ := resolve_stages h
  obtain ⟨t1, t2⟩ := loadPartial_tracked tracked_name rfl (by decide) hl
  obtain ⟨_, ⟨e1, e2⟩, _⟩ := applyEnv_ok he
  obtain ⟨_, _, ⟨nm, hnm, c1, c2⟩, _⟩ := applyCli_ok hc
  obtain ⟨f1, _, _, _, _, _, _, _, _, f2, _⟩ := finish_ok hf
  unfold cliName at hnm
  rw [hn, hl'] at hnm
  simp only [Bool.false_eq_true, if_false, Except.ok.injEq] at hnm
  rw [hn, hl'] at e1 e2
  simp only [Bool.or_false, Bool.false_eq_true, if_false] at e1 e2
  subst hnm
  apply Effective_intro
  · rw [f1, c1, e1, t1]; cases a.name <;> simp
  · rw [f2, c2, e2, t2]
    cases a.name <;> cases nonEmpty w.vars.name <;> simp

/-- **C34** storage directory: the setting that is resolved (see C59) is the one of the highest layer. -/
theorem C34_storage_dir (w : World) (a : Args) (c : Config) (h : resolveConfig w a = .ok c) :
    ∃ setting : Option Str, resolveStorage w setting = .ok c.storageDir ∧
      Spec.Effective (a.storageDir.map some) ((Spec.setVar w.vars.storageDir).map some)
        ((Spec.fileValue w c.configFiles (·.storageDir)).map (fun e => (e.1, some e.2))) none (some (str "default")) setting (c.sources.get .storageDir) := by
  simp only [← nonEmpty_spec, ← show parseLevel = Spec.levelVar from funext parseLevel_spec, ← show parseNet = Spec.netVar from funext parseNet_spec, ← show parseBool = Spec.switchVar from funext parseBool_spec]
  obtain ⟨p0, s0, acc1, acc2, hl, he, hc, hf, _⟩ := resolve_stages h
  obtain ⟨t1, t2⟩ := loadPartial_tracked tracked_storageDir rfl (by decide) hl
  obtain ⟨_, _, ⟨e1, e2⟩, _⟩ := applyEnv_ok he
  obtain ⟨_, ⟨c1, c2⟩, _⟩ := applyCli_ok hc
  obtain ⟨_, _, _, _, _, f1, _, _, _, _, _, _, _, f2⟩ := finish_ok hf
  refine ⟨acc2.1.storageDir, f1, ?_⟩
  apply Effective_intro
  · rw [c1, e1, t1]
    cases a.storageDir <;> cases nonEmpty w.vars.storageDir <;> cases Spec.fileValue w c.configFiles (·.storageDir) <;> simp
  · rw [f2, c2, e2, t2]
    cases a.storageDir <;> cases nonEmpty w.vars.storageDir <;> cases Spec.fileValue w c.configFiles (·.storageDir) <;> simp

/-- **C34**: malformed values in the environment are errors, they are never silently replaced by a lower layer. -/
theorem C34_malformed (w : World) (a : Args) (c : Config) (h : resolveConfig w a = .ok c) :
    (∀ t, w.vars.logLevel = some t → (Spec.levelVar t).isSome) ∧ (∀ t, w.vars.net = some t → t ≠ [] → (Spec.netVar t).isSome) ∧
    (∀ t, w.vars.ignored = some t → (Spec.switchVar t).isSome) ∧ (∀ t, w.vars.noDefaultBinds = some t → (Spec.switchVar t).isSome) := by
  simp only [← nonEmpty_spec, ← show parseLevel = Spec.levelVar from funext parseLevel_spec, ← show parseNet = Spec.netVar from funext parseNet_spec, ← show parseBool = Spec.switchVar from funext parseBool_spec]
  obtain ⟨p0, s0, acc1, acc2, hl, he, hc, hf, _⟩ := resolve_stages h
  obtain ⟨_, _, _, _, _, _, _, _, e1, e2, e3, e4⟩ := applyEnv_ok he
  have key : ∀ {α β} {o : Option α} {f : α → Option β}, o.map f ≠ some none → ∀ t, o = some t → (f t).isSome := by
    intro α β o f h t ht
    subst ht
    cases hf : f t with
    | none => simp [hf] at h
    | some => rfl
  refine ⟨key e1, fun t ht hne => key e2 t (by simp [nonEmpty, ht, hne]), key e3, key e4⟩

/-! ### A concrete world -/

/-- A user `u` with a project below the home directory; config files in `/etc`, `~/.config/sandbox`, the project and above the home directory. -/
def exCfgFs : FS := [([], { kind := .dir, dev := 1 }), ([str "etc"], { kind := .dir, dev := 1 }), ([str "etc", str "sandbox.toml"], { kind := .reg [], dev := 1 }),
  ([str "home"], { kind := .dir, dev := 1 }), ([str "home", str ".sandbox.toml"], { kind := .reg [], dev := 1 }),
  ([str "home", str "u"], { kind := .dir, dev := 1, uid := 1000, gid := 1000 }), ([str "home", str "u", str ".config"], { kind := .dir, dev := 1, uid := 1000, gid := 1000 }),
  ([str "home", str "u", str ".config", str "sandbox"], { kind := .dir, dev := 1, uid := 1000, gid := 1000 }),
  ([str "home", str "u", str ".config", str "sandbox", str "config.toml"], { kind := .reg [], dev := 1 }),
  ([str "home", str "u", str "proj"], { kind := .dir, dev := 1, uid := 1000, gid := 1000 }),
  ([str "home", str "u", str "proj", str ".sandbox.toml"], { kind := .reg [], dev := 1 }),
  ([str "home", str "u", str "proj", str ".sandbox.conf"], { kind := .reg [], dev := 1 }),
  ([str "home", str "u", str "data"], { kind := .dir, dev := 1, uid := 1000, gid := 1000 }),
  ([str "dev"], { kind := .dir, dev := 2 }), ([str "dev", str "fuse"], { kind := .chr 2789, dev := 2 }),
  ([str "run"], { kind := .dir, dev := 3 }), ([str "run", str "dbus"], { kind := .dir, dev := 3 }), ([str "run", str "systemd"], { kind := .dir, dev := 3 }),
  ([str "tmp"], { kind := .dir, dev := 1 })]

def exCfgRead (p : Str) : Option Partial :=
  if p = str "/etc/sandbox.toml" then some { net := some .host, ignored := some true, bind := some [str "/etc"] }
  else if p = str "/home/u/.config/sandbox/config.toml" then some { net := some .none, logLevel := some .debug }
  else if p = str "/home/u/proj/.sandbox.toml" then some { name := some (str "p1"), mask := some [str "~/data"] }
  else if p = str "/home/u/proj/.sandbox.conf" then some { name := some (str "p2"), bind := some [str "/tmp::ro"] }
  else none

def exCfgWorld : World := ⟨exCfgFs, [str "home", str "u", str "proj"], ⟨true, [str "home", str "u"]⟩, 1000, 1000, { ignored := some (str "false") }, exCfgRead,
  fun _ => true, fun _ => true, fun _ => true, some [⟨[], str "ext4"⟩, ⟨[str "dev"], str "devtmpfs"⟩, ⟨[str "run"], str "tmpfs"⟩], [], fun _ => none, id⟩

def exCfg : Config := ⟨str "p2", .none, [str "home", str "u", str ".sandboxes"], .trace, false,
  [(.storageDir, str "default"), (.noDefaultBinds, str "default"), (.logLevel, str "cli"), (.ignored, str "environment"), (.bind, str "/home/u/proj/.sandbox.conf"),
    (.name, str "/home/u/proj/.sandbox.conf"), (.mask, str "/home/u/proj/.sandbox.toml"), (.name, str "/home/u/proj/.sandbox.toml"),
    (.net, str "/home/u/.config/sandbox/config.toml"), (.logLevel, str "/home/u/.config/sandbox/config.toml"), (.bind, str "/etc/sandbox.toml"),
    (.ignored, str "/etc/sandbox.toml"), (.net, str "/etc/sandbox.toml"), (.configFiles, str "default search")],
  [⟨[str "dev", str "fuse"], ⟨true, [str "dev", str "fuse"]⟩, .rw, str "/dev/fuse"⟩, ⟨[str "etc"], ⟨true, [str "etc"]⟩, .rw, str "/etc"⟩,
    ⟨[str "tmp"], ⟨true, [str "tmp"]⟩, .ro, str "/tmp::ro"⟩, ⟨[str "home", str "u", str "data"], ⟨true, [str "home", str "u", str "data"]⟩, .mask, str "~/data::mask"⟩], false,
  [str "/etc/sandbox.toml", str "/home/u/.config/sandbox/config.toml", str "/home/u/proj/.sandbox.toml", str "/home/u/proj/.sandbox.conf"]⟩

/-- Non-vacuity of C34: a world in which all four layers contribute (`--log-level` overrides `~/.config`, the environment overrides `/etc`, `~/.config` overrides
`/etc`, `.sandbox.conf` overrides `.sandbox.toml`). -/
theorem exCfg_ok : resolveConfig exCfgWorld { logLevel := some .trace } = .ok exCfg := by decide +kernel

example : Spec.fileValue exCfgWorld exCfg.configFiles (·.name) = some (str "/home/u/proj/.sandbox.conf", str "p2") := by decide +kernel

example : resolveConfig { exCfgWorld with vars := { net := some (str "full") } } {} = .error .net := by decide +kernel

end SB
