import Verif.Model.ConfigFile
import Verif.Props.ConfigFiles
import Verif.Props.ConfigBinds

/-!
# C96: what is written in a config file is in force, or the command fails
-/

namespace SB

/-- The document says `o` about the setting `key`: nothing, or a value that means `a`. -/
def Spec.TomlSays {α} (doc : TomlDoc) (key : String) (means : Toml → α → Prop) : Option α → Prop
  | none => ∀ v, (str key, v) ∉ doc
  | some a => ∃ v, (str key, v) ∈ doc ∧ means v a

/-- The settings of a document: text for the name and the storage directory, a word for log level (in any case) and network, true or false for the switches, lists of texts for binds and masks. -/
structure Spec.TomlSettings (doc : TomlDoc) (p : Partial) : Prop where
  logLevel : Spec.TomlSays doc "log_level" (fun v l => ∃ t, v = .text t ∧ Spec.levelVar t = some l) p.logLevel
  name : Spec.TomlSays doc "name" (fun v t => v = .text t) p.name
  storageDir : Spec.TomlSays doc "storage_dir" (fun v t => v = .text t) p.storageDir
  net : Spec.TomlSays doc "net" (fun v n => (v = .text (str "none") ∧ n = .none) ∨ (v = .text (str "host") ∧ n = .host)) p.net
  ignored : Spec.TomlSays doc "ignored" (fun v b => v = .bool b) p.ignored
  bind : Spec.TomlSays doc "bind" (fun v l => v = .list (l.map .text)) p.bind
  mask : Spec.TomlSays doc "mask" (fun v l => v = .list (l.map .text)) p.mask
  noDefaultBinds : Spec.TomlSays doc "no_default_binds" (fun v b => v = .bool b) p.noDefaultBinds

theorem tomlField_iff {α} {doc : TomlDoc} (hd : (doc.map Prod.fst).Nodup) {key : String} {f : Toml → Option α} {means : Toml → α → Prop}
    (hf : ∀ v a, f v = some a ↔ means v a) (o : Option α) : tomlField doc key f = some o ↔ Spec.TomlSays doc key means o := by
  unfold tomlField
  cases hx : doc.find? (fun e => e.1 = str key) with
  | none =>
    have hno : ∀ v, (str key, v) ∉ doc := fun v hv => by
      have := List.find?_eq_none.1 hx _ hv
      simp at this
    cases o with
    | none => simp [Spec.TomlSays, hno]
    | some a => simp [Spec.TomlSays, hno]
  | some e =>
    have he := List.mem_of_find?_eq_some hx
    have hk : e.1 = str key := by simpa using List.find?_some hx
    have hu : ∀ v, (str key, v) ∈ doc → v = e.2 := by
      intro v hv
      exact congrArg Prod.snd (List.inj_on_of_nodup_map hd hv he hk.symm)
    have hm : (str key, e.2) ∈ doc := by rw [← hk]; exact he
    cases o with
    | none =>
      simp only [Spec.TomlSays, Option.map_eq_some_iff]
      constructor
      · rintro ⟨a, _, h⟩; cases h
      · intro h; exact absurd hm (h _)
    | some a =>
      simp only [Spec.TomlSays, Option.map_eq_some_iff, Option.some.injEq, exists_eq_right]
      rw [hf]
      exact ⟨fun h => ⟨_, hm, h⟩, fun ⟨v, hv, h⟩ => by rw [← hu v hv]; exact h⟩

theorem textValue_iff (v : Toml) (t : Str) : textValue v = some t ↔ v = .text t := by
  cases v <;> simp [textValue]

theorem boolValue_iff (v : Toml) (b : Bool) : boolValue v = some b ↔ v = .bool b := by
  cases v <;> simp [boolValue]

theorem texts_iff : ∀ (l : List Toml) (ts : List Str), l.mapM textValue = some ts ↔ l = ts.map .text
  | [], ts => by cases ts <;> simp
  | v :: l, ts => by
    rw [List.mapM_cons]
    cases hv : textValue v with
    | none =>
      simp only [Option.bind_eq_bind, Option.bind_none, reduceCtorEq, false_iff]
      intro h
      cases ts with
      | nil => cases h
      | cons t ts =>
        simp only [List.map_cons, List.cons.injEq] at h
        rw [h.1] at hv
        cases hv
    | some t =>
      have ht := (textValue_iff v t).1 hv
      subst ht
      cases hl : l.mapM textValue with
      | none =>
        simp only [Option.bind_eq_bind, Option.bind_some, Option.bind_none, reduceCtorEq, false_iff]
        intro h
        cases ts with
        | nil => cases h
        | cons t' ts =>
          simp only [List.map_cons, List.cons.injEq] at h
          rw [(texts_iff l ts).2 h.2] at hl
          cases hl
      | some us =>
        have hu := (texts_iff l us).1 hl
        subst hu
        simp only [Option.bind_eq_bind, Option.bind_some, Option.pure_def, Option.some.injEq]
        constructor
        · rintro rfl; rfl
        · intro h
          cases ts with
          | nil => cases h
          | cons t' ts =>
            simp only [List.map_cons, List.cons.injEq, Toml.text.injEq] at h
            have := List.map_injective_iff.2 (fun a b h => by cases h; rfl : Function.Injective Toml.text) h.2
            rw [h.1, this]

theorem textsValue_iff (v : Toml) (l : List Str) : textsValue v = some l ↔ v = .list (l.map .text) := by
  cases v <;> simp [textsValue, texts_iff]

theorem levelValue_iff (v : Toml) (l : Level) : levelValue v = some l ↔ ∃ t, v = .text t ∧ Spec.levelVar t = some l := by
  cases v <;> simp [levelValue, parseLevel_spec]

theorem netValue_iff (v : Toml) (n : Net) : netValue v = some n ↔ (v = .text (str "none") ∧ n = .none) ∨ (v = .text (str "host") ∧ n = .host) := by
  cases v with
  | text s =>
    simp only [netValue, Toml.text.injEq]
    by_cases h : s = str "none"
    · subst h
      have : ¬ str "none" = str "host" := by decide
      simp [this, eq_comm]
    · by_cases h' : s = str "host"
      · subst h'; simp [h, eq_comm]
      · simp [h, h']
  | _ => simp [netValue]

/-- **C96, documents**: a TOML document is accepted exactly if every setting in it has a value of its kind, and then says exactly these values. -/
theorem C96_document (doc : TomlDoc) (hd : (doc.map Prod.fst).Nodup) (p : Partial) : partialOf doc = some p ↔ Spec.TomlSettings doc p := by
  have h1 := tomlField_iff hd (key := "log_level") levelValue_iff p.logLevel
  have h2 := tomlField_iff hd (key := "name") textValue_iff p.name
  have h3 := tomlField_iff hd (key := "storage_dir") textValue_iff p.storageDir
  have h4 := tomlField_iff hd (key := "net") netValue_iff p.net
  have h5 := tomlField_iff hd (key := "ignored") boolValue_iff p.ignored
  have h6 := tomlField_iff hd (key := "bind") textsValue_iff p.bind
  have h7 := tomlField_iff hd (key := "mask") textsValue_iff p.mask
  have h8 := tomlField_iff hd (key := "no_default_binds") boolValue_iff p.noDefaultBinds
  unfold partialOf
  constructor
  · intro h
    split at h
    · next l n s t i b m d e1 e2 e3 e4 e5 e6 e7 e8 =>
      cases h
      exact ⟨h1.1 e1, h2.1 e2, h3.1 e3, h4.1 e4, h5.1 e5, h6.1 e6, h7.1 e7, h8.1 e8⟩
    · cases h
  · rintro ⟨e1, e2, e3, e4, e5, e6, e7, e8⟩
    rw [h1.2 e1, h2.2 e2, h3.2 e3, h4.2 e4, h5.2 e5, h6.2 e6, h7.2 e7, h8.2 e8]

section
variable {w : World} {content : Str → Option Str} {toml : Str → Option TomlDoc} {a : Args} {c : Config}

/-- **C96, files**: if a command gets as far as having a configuration, every config file in force could be read, was a TOML document, and every setting in it had a value of its kind. -/
theorem C96_files (hr : w.readConfig = fileConfig content toml) (ht : ∀ t doc, toml t = some doc → (doc.map Prod.fst).Nodup) (h : resolveConfig w a = .ok c) (f : Str)
    (hf : f ∈ c.configFiles) : ∃ t doc p, content f = some t ∧ toml t = some doc ∧ Spec.TomlSettings doc p ∧ w.readConfig f = some p := by
  have hs := C35_unreadable w a c h f hf
  obtain ⟨p, hp⟩ := Option.isSome_iff_exists.1 hs
  have hp' := hp
  rw [hr] at hp
  unfold fileConfig at hp
  split at hp
  · cases hp
  · next t h1 =>
    split at hp
    · cases hp
    · next doc h2 => exact ⟨t, doc, p, h1, h2, (C96_document doc (ht t doc h2) p).1 hp, hp'⟩

/-- **C96, masks**: every path in the list `mask` of a config file in force is masked. -/
theorem C96_masks (hw : w.fs.WF) (hh : ∀ l, (w.hashOrder l).Perm l) (hr : w.readConfig = fileConfig content toml)
    (ht : ∀ t doc, toml t = some doc → (doc.map Prod.fst).Nodup) (h : resolveConfig w a = .ok c) (f t : Str) (doc : TomlDoc) (hf : f ∈ c.configFiles)
    (h1 : content f = some t) (h2 : toml t = some doc) (v : Toml) (hv : (str "mask", v) ∈ doc) :
    ∃ l : List Str, v = .list (l.map .text) ∧ ∀ s ∈ l, ∃ b ∈ c.bindMounts, b.opt = .mask ∧ b.target = Spec.targetPath w s := by
  obtain ⟨t', doc', p, e1, e2, hd, e3⟩ := C96_files hr ht h f hf
  rw [h1] at e1; cases e1
  rw [h2] at e2; cases e2
  have hm := hd.mask
  cases hp : p.mask with
  | none => rw [hp] at hm; exact absurd hv (hm v)
  | some l =>
    rw [hp] at hm
    obtain ⟨v', hv', rfl⟩ := hm
    have := List.inj_on_of_nodup_map (ht t doc h2) hv hv' rfl
    refine ⟨l, congrArg Prod.snd this, fun s hs => ?_⟩
    exact C36_masks w hw hh a c h s (.file f p l s hf e3 hp hs)

/-- **C96, binds**: every bind in the list `bind` of a config file in force is in effect. -/
theorem C96_binds (hw : w.fs.WF) (hh : ∀ l, (w.hashOrder l).Perm l) (hr : w.readConfig = fileConfig content toml)
    (ht : ∀ t doc, toml t = some doc → (doc.map Prod.fst).Nodup) (h : resolveConfig w a = .ok c) (f t : Str) (doc : TomlDoc) (hf : f ∈ c.configFiles)
    (h1 : content f = some t) (h2 : toml t = some doc) (v : Toml) (hv : (str "bind", v) ∈ doc) :
    ∃ l : List Str, v = .list (l.map .text) ∧ ∀ s ∈ l, ∃ b ∈ c.bindMounts, Spec.BindDenotes w s b.source b.target b.opt := by
  obtain ⟨t', doc', p, e1, e2, hd, e3⟩ := C96_files hr ht h f hf
  rw [h1] at e1; cases e1
  rw [h2] at e2; cases e2
  have hm := hd.bind
  cases hp : p.bind with
  | none => rw [hp] at hm; exact absurd hv (hm v)
  | some l =>
    rw [hp] at hm
    obtain ⟨v', hv', rfl⟩ := hm
    have := List.inj_on_of_nodup_map (ht t doc h2) hv hv' rfl
    refine ⟨l, congrArg Prod.snd this, fun s hs => ?_⟩
    exact C36_binds w hw hh a c h s (.file f p l s hf e3 hp hs)

/-- **C96, network**: the network setting of a config file in force is the one in effect, unless the command line, the environment or a config file read later has one. -/
theorem C96_net (hr : w.readConfig = fileConfig content toml) (ht : ∀ t doc, toml t = some doc → (doc.map Prod.fst).Nodup) (h : resolveConfig w a = .ok c)
    (pre post : List Str) (f t : Str) (doc : TomlDoc) (hf : c.configFiles = pre ++ f :: post) (h1 : content f = some t) (h2 : toml t = some doc) (v : Toml) (hv : (str "net", v) ∈ doc)
    (hcli : a.net = none) (henv : w.vars.net = none) (hpost : ∀ f' ∈ post, ∀ t' doc', content f' = some t' → toml t' = some doc' → ∀ v', (str "net", v') ∉ doc') :
    (v = .text (str "none") ∧ c.net = .none) ∨ (v = .text (str "host") ∧ c.net = .host) := by
  obtain ⟨t', doc', p, e1, e2, hd, e3⟩ := C96_files hr ht h f (by rw [hf]; simp)
  rw [h1] at e1; cases e1
  rw [h2] at e2; cases e2
  have hm := hd.net
  have he := C34_net w a c h
  rw [hcli, henv] at he
  have hpn : ∀ f' ∈ post, (w.readConfig f').bind (·.net) = none := by
    intro f' hf'
    obtain ⟨t', doc', p', g1, g2, g3, g4⟩ := C96_files hr ht h f' (by rw [hf]; simp [hf'])
    rw [g4]
    show p'.net = none
    have := g3.net
    cases hp : p'.net with
    | none => rfl
    | some n =>
      rw [hp] at this
      obtain ⟨v', hv', _⟩ := this
      exact absurd hv' (hpost f' hf' t' doc' g1 g2 v')
  cases hp : p.net with
  | none => rw [hp] at hm; exact absurd hv (hm v)
  | some n =>
    rw [hp] at hm
    obtain ⟨v', hv', hv2⟩ := hm
    have hvv : v = v' := congrArg Prod.snd (List.inj_on_of_nodup_map (ht t doc h2) hv hv' rfl)
    rw [hvv]
    have hfv : Spec.fileValue w c.configFiles (·.net) = some (f, n) := by
      unfold Spec.fileValue
      rw [hf, List.reverse_append, List.reverse_cons, List.append_assoc, List.findSome?_append]
      have : List.findSome? (fun p => ((w.readConfig p).bind (·.net)).map (fun v => (p, v))) post.reverse = none := by
        rw [List.findSome?_eq_none_iff]
        intro q hq
        rw [hpn q (List.mem_reverse.1 hq)]
        rfl
      rw [this]
      simp [e3, hp]
    rw [hfv] at he
    have hn : c.net = n := he.1
    rw [hn]
    exact hv2

end

/-! ### examples -/

/-- `/etc/sandbox.toml` has `mask = ["/tmp"]` and `net = "host"`; the project's file has the log level. -/
def exDocs (key : String) (net : String) : Str → Option TomlDoc := fun t =>
  if t = str "etc" then some [(str key, .list [.text (str "/tmp")]), (str "net", .text (str net)), (str "comment", .number)]
  else some [(str "log_level", .text (str "Debug"))]

def exContent : Str → Option Str := fun f => if f = str "/etc/sandbox.toml" then some (str "etc") else some []

def exDocWorld (key : String) (net : String) : World := { exCfgWorld with readConfig := fileConfig exContent (exDocs key net), vars := {} }

theorem exDocs_nodup (t : Str) (doc : TomlDoc) (h : exDocs "mask" "host" t = some doc) : (doc.map Prod.fst).Nodup := by
  unfold exDocs at h
  split at h <;> (cases h; decide +kernel)

/-- Masked targets, network and log level of the result. -/
def exDocResult (key net : String) : Option (List RPath × Net × Level) :=
  (resolveConfig (exDocWorld key net) {}).toOption.map (fun c => ((c.bindMounts.filter (fun b => b.opt = .mask)).map (·.target), c.net, c.logLevel))

-- the conditions of C96 hold and the settings are in force
example : exDocResult "mask" "host" = some ([⟨true, [str "tmp"]⟩], .host, .debug) := by decide +kernel
example : ((resolveConfig (exDocWorld "mask" "host") {}).toOption.map (fun c => c.configFiles.contains (str "/etc/sandbox.toml"))) = some true := by decide +kernel

/-- **C96 refuted** for misspelt settings: with `masks` for `mask` the command goes ahead, and nothing is masked. -/
theorem C96_refuted_unknown : exDocResult "masks" "host" = some ([], .host, .debug) := by decide +kernel

/-- **C96 refuted**: `net = "Host"` is refused in a file, while SANDBOX_NET=Host means host. -/
theorem C96_refuted_case : exDocResult "mask" "Host" = none ∧ parseNet (str "Host") = some .host := by decide +kernel

end SB
