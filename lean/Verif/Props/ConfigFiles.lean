import Verif.Props.Config

/-!
# C35: which config files are read, and in which order; C58: tilde expansion
-/

namespace SB

/-! ### Specification -/

/-- The user is inside the home directory (as spelled in the environment). -/
def Spec.insideHome (home : RPath) (cwd : Path) : Prop := home.abs = true ∧ home.comps <+: cwd

instance (home : RPath) (cwd : Path) : Decidable (Spec.insideHome home cwd) := inferInstanceAs (Decidable (_ ∧ _))

/-- The project directories, outermost first: all directories on the way to the current one, from the home directory on if it is one of them. -/
def Spec.projectDirs (home : RPath) (cwd : Path) : List Path :=
  cwd.inits.filter (fun d => decide (Spec.insideHome home cwd → home.comps <+: d))

/-- All config file locations, least specific first. -/
def Spec.configLocations (home : RPath) (cwd : Path) : List RPath :=
  [⟨true, [str "etc", str "sandbox.toml"]⟩, ⟨true, [str "etc", str "sandbox.conf"]⟩,
    ⟨home.abs, home.comps ++ [str ".config", str "sandbox", str "config.toml"]⟩, ⟨home.abs, home.comps ++ [str ".config", str "sandbox", str "config.conf"]⟩] ++
  (Spec.projectDirs home cwd).flatMap (fun d => [⟨true, d ++ [str ".sandbox.toml"]⟩, ⟨true, d ++ [str ".sandbox.conf"]⟩])

/-- The file is there and the user may read it. -/
def Spec.usable (w : World) (p : RPath) : Bool := match p.at w.cwd with | none => false | some q => w.fs.pexists q && w.canRead q

/-! ### C35 -/

theorem inits_snoc {α} (l : List α) (a : α) : (l ++ [a]).inits = l.inits ++ [l ++ [a]] := by
  simp [List.inits_append]

theorem upDirs_spec (home : RPath) : ∀ r : List Name, (upDirs home r).reverse = Spec.projectDirs home r.reverse
  | [] => by
    unfold upDirs Spec.projectDirs
    simp [Spec.insideHome]
  | x :: r => by
    unfold upDirs
    have key : ∀ d ∈ (r.reverse).inits, d.length ≤ r.length := fun d hd => by
      have := (List.mem_inits _ _).1 hd
      simpa using this.length_le
    split
    · next h =>
      have hab : home.abs = true := by rw [← h]; rfl
      have hc : home.comps = (x :: r).reverse := by rw [← h]; rfl
      unfold Spec.projectDirs
      rw [show (x :: r).reverse.inits = r.reverse.inits ++ [(x :: r).reverse] by rw [List.reverse_cons, inits_snoc], List.filter_append]
      have h1 : List.filter (fun d => decide (Spec.insideHome home (x :: r).reverse → home.comps <+: d)) r.reverse.inits = [] := by
        rw [List.filter_eq_nil_iff]
        intro d hd hcon
        simp only [decide_eq_true_eq] at hcon
        have := hcon ⟨hab, by rw [hc]⟩
        rw [hc] at this
        have h2 := this.length_le
        have h3 := key d hd
        simp at h2
        omega
      rw [h1]
      simp [Spec.insideHome, hab, hc]
    · next h =>
      rw [List.reverse_cons, upDirs_spec home r]
      unfold Spec.projectDirs
      rw [show (x :: r).reverse.inits = r.reverse.inits ++ [(x :: r).reverse] by rw [List.reverse_cons, inits_snoc], List.filter_append]
      have hin : Spec.insideHome home (x :: r).reverse ↔ Spec.insideHome home r.reverse := by
        unfold Spec.insideHome
        constructor
        · rintro ⟨h1, h2⟩
          refine ⟨h1, ?_⟩
          rw [List.reverse_cons] at h2
          rcases List.prefix_concat_iff.1 h2 with h3 | h3
          · exact absurd (by cases home; simp_all [RPath.ofPath]) h
          · exact h3
        · rintro ⟨h1, h2⟩
          exact ⟨h1, by rw [List.reverse_cons]; exact h2.trans (List.prefix_append _ _)⟩
      congr 1
      · simp only [hin]
      · have h1 : Spec.insideHome home (x :: r).reverse → home.comps <+: (x :: r).reverse := fun h => h.2
        symm
        rw [List.filter_eq_self]
        intro d hd
        rw [List.mem_singleton] at hd
        subst hd
        exact decide_eq_true h1

theorem home_join (home : RPath) (t : String) (h : (parsePath (str t)).abs = false) (hd : ['.'] ∉ (parsePath (str t)).comps) :
    home.join (parsePath (str t)) = ⟨home.abs, home.comps ++ (parsePath (str t)).comps⟩ := by
  unfold RPath.join
  rw [h]
  have : (parsePath (str t)).comps.filter (· ≠ ['.']) = (parsePath (str t)).comps := by
    rw [List.filter_eq_self]
    intro a ha
    simp
    rintro rfl
    exact hd ha
  rw [this]
  rfl

/-- The places examined, in the order of increasing precedence. -/
theorem configCandidates_spec (home : RPath) (cwd : Path) : configCandidates home cwd = Spec.configLocations home cwd := by
  unfold configCandidates Spec.configLocations
  have hflat : ∀ l : List Path, (l.flatMap (fun d => [RPath.ofPath (d ++ [str ".sandbox.conf"]), RPath.ofPath (d ++ [str ".sandbox.toml"])])).reverse =
      l.reverse.flatMap (fun d => [RPath.mk true (d ++ [str ".sandbox.toml"]), ⟨true, d ++ [str ".sandbox.conf"]⟩]) := by
    intro l
    induction l with
    | nil => rfl
    | cons a l ih =>
      rw [List.flatMap_cons, List.reverse_append, ih, List.reverse_cons (a := a), List.flatMap_append]
      rfl
  rw [List.reverse_append, hflat, upDirs_spec, List.reverse_reverse]
  rw [home_join home ".config/sandbox/config.conf" (by decide) (by decide), home_join home ".config/sandbox/config.toml" (by decide) (by decide)]
  rfl

theorem findConfigFiles_spec (w : World) : findConfigFiles w = ((Spec.configLocations w.home w.cwd).filter (Spec.usable w)).map RPath.text := by
  unfold findConfigFiles
  rw [configCandidates_spec]
  congr 1
  apply List.filter_congr
  intro p _
  unfold Spec.usable RPath.exists
  cases p.at w.cwd <;> rfl

theorem loadPartial_files {w : World} {a : Args} {p : Partial} {s : Sources} {files : List Str} (h : loadPartial w a = .ok (p, s, files)) :
    configPaths w a = .ok files := by
  unfold loadPartial at h
  split at h
  · cases h
  · next ps hps =>
    simp only at h
    split at h
    · cases h
    · simp only [Except.ok.injEq, Prod.mk.injEq] at h
      rw [hps, h.2.2]

/-- **C35**: without `--config` and `--no-config`, the config files read are exactly the usable ones among `/etc`, `~/.config/sandbox`, then the directories
from the outermost relevant one to the current one; by C34 later ones override earlier ones. -/
theorem C35_search (w : World) (a : Args) (c : Config) (h : resolveConfig w a = .ok c) (hn : a.noConfig = false) (hc : a.config = none) :
    c.configFiles = ((Spec.configLocations w.home w.cwd).filter (Spec.usable w)).map RPath.text := by
  obtain ⟨p0, s0, _, _, hl, _⟩ := resolve_stages h
  have := loadPartial_files hl
  unfold configPaths at this
  rw [hn, hc] at this
  simp only [Bool.false_eq_true, if_false, Except.ok.injEq] at this
  rw [← this, findConfigFiles_spec]

/-- A file among those read that sets the option, while none read after it does. -/
def Spec.LastSetter {α} (w : World) (files : List Str) (f : Partial → Option α) (file : Str) (v : α) : Prop :=
  ∃ pre post P, files = pre ++ file :: post ∧ w.readConfig file = some P ∧ f P = some v ∧ ∀ q ∈ post, ∀ Q, w.readConfig q = some Q → f Q = none

theorem fileValue_last {α} {w : World} {files : List Str} {f : Partial → Option α} {file : Str} {v : α} (h : Spec.LastSetter w files f file v) :
    Spec.fileValue w files f = some (file, v) := by
  obtain ⟨pre, post, P, rfl, hr, hv, hp⟩ := h
  unfold Spec.fileValue
  rw [List.reverse_append, List.reverse_cons, List.append_assoc, findSome_append, findSome_append]
  have : List.findSome? (fun p => ((w.readConfig p).bind f).map (fun v => (p, v))) post.reverse = none := by
    rw [List.findSome?_eq_none_iff]
    intro q hq
    have hq := List.mem_reverse.1 hq
    cases hQ : w.readConfig q with
    | none => rfl
    | some Q => simp [hp q hq Q hQ]
  rw [this]
  simp [hr, hv]

/-- **C35**: of the config files read, the last one that sets an option decides it (command line and environment being silent about it), whatever the files read
before it say; the files are read from the least to the most specific (`C35_search`, `C35_order`). -/
theorem C35_overrides (w : World) (a : Args) (c : Config) (h : resolveConfig w a = .ok c) (file : Str) :
    (∀ v, a.name = none → a.new = false → a.last = false → Spec.setVar w.vars.name = none → Spec.LastSetter w c.configFiles (·.name) file v → c.name = v) ∧
    (∀ v, a.logLevel = none → w.vars.logLevel = none → Spec.LastSetter w c.configFiles (·.logLevel) file v → c.logLevel = v) ∧
    (∀ v, a.net = none → Spec.setVar w.vars.net = none → Spec.LastSetter w c.configFiles (·.net) file v → c.net = v) ∧
    (∀ v, a.ignored = false → w.vars.ignored = none → Spec.LastSetter w c.configFiles (·.ignored) file v → c.ignored = v) ∧
    (∀ v, a.noDefaultBinds = false → w.vars.noDefaultBinds = none → Spec.LastSetter w c.configFiles (·.noDefaultBinds) file v → c.noDefaultBinds = v) ∧
    (∀ v, a.storageDir = none → Spec.setVar w.vars.storageDir = none → Spec.LastSetter w c.configFiles (·.storageDir) file v →
      resolveStorage w (some v) = .ok c.storageDir) := by
  refine ⟨fun v h1 h2 h3 h4 hl => ?_, fun v h1 h4 hl => ?_, fun v h1 h4 hl => ?_, fun v h1 h4 hl => ?_, fun v h1 h4 hl => ?_, fun v h1 h4 hl => ?_⟩
  · have := C34_name w a c h h2 h3
    rw [h1, h4, fileValue_last hl] at this
    exact this.1
  · have := C34_log_level w a c h
    rw [h1, h4, fileValue_last hl] at this
    exact this.1
  · have := C34_net w a c h
    rw [h1, h4, fileValue_last hl] at this
    exact this.1
  · have := C34_ignored w a c h
    rw [h1, h4, fileValue_last hl] at this
    exact this.1
  · have := C34_no_default_binds w a c h
    rw [h1, h4, fileValue_last hl] at this
    exact this.1
  · obtain ⟨set, hs, this⟩ := C34_storage_dir w a c h
    rw [h1, h4, fileValue_last hl] at this
    rw [← this.1]
    exact hs

/-- Non-vacuity: `.sandbox.conf` in the project directory is read after the other files and decides the name, which another file sets too. -/
example : Spec.LastSetter exCfgWorld exCfg.configFiles (·.name) (str "/home/u/proj/.sandbox.conf") (str "p2") ∧
    ∃ q ∈ exCfg.configFiles, q ≠ str "/home/u/proj/.sandbox.conf" ∧ ((exCfgWorld.readConfig q).bind (·.name)).isSome = true := by
  refine ⟨⟨_, [], ((exCfgWorld.readConfig (str "/home/u/proj/.sandbox.conf")).getD {}),
    (show exCfg.configFiles = [str "/etc/sandbox.toml", str "/home/u/.config/sandbox/config.toml", str "/home/u/proj/.sandbox.toml"] ++ _ from rfl), ?_, ?_, by simp⟩, ?_⟩
  all_goals decide +kernel

/-- **C35**: no directory above the home directory is consulted when the current directory is inside it. -/
theorem C35_not_above_home (w : World) (h : Spec.insideHome w.home w.cwd) :
    ∀ d ∈ Spec.projectDirs w.home w.cwd, w.home.comps <+: d ∧ d <+: w.cwd := by
  intro d hd
  simp only [Spec.projectDirs, List.mem_filter, List.mem_inits, decide_eq_true_eq] at hd
  exact ⟨hd.2 h, hd.1⟩

/-- **C35**: more specific directories come later. -/
theorem C35_order (home : RPath) (cwd : Path) : (Spec.projectDirs home cwd).Pairwise (fun a b => a.length < b.length) := by
  unfold Spec.projectDirs
  apply List.Pairwise.filter
  induction cwd with
  | nil => simp
  | cons a l ih =>
    rw [List.inits_cons, List.pairwise_cons]
    refine ⟨?_, ?_⟩
    · intro b hb
      obtain ⟨b', _, rfl⟩ := List.mem_map.1 hb
      simp
    · rw [List.pairwise_map]
      exact ih.imp (by intro x y hxy; simpa using hxy)

/-- **C35**: every directory from the home directory (or the root) to the current one is consulted. -/
theorem C35_all_dirs (home : RPath) (cwd d : Path) (hd : d <+: cwd) (hh : Spec.insideHome home cwd → home.comps <+: d) : d ∈ Spec.projectDirs home cwd := by
  simp only [Spec.projectDirs, List.mem_filter, List.mem_inits, decide_eq_true_eq]
  exact ⟨hd, hh⟩

/-- **C35**: `--no-config` reads none. -/
theorem C35_no_config (w : World) (a : Args) (c : Config) (h : resolveConfig w a = .ok c) (hn : a.noConfig = true) : c.configFiles = [] := by
  obtain ⟨p0, s0, _, _, hl, _⟩ := resolve_stages h
  have := loadPartial_files hl
  unfold configPaths at this
  rw [hn] at this
  simpa using this.symm

/-- **C35**: `--config` reads exactly the given files, in the given order; a missing one is an error. -/
theorem C35_config (w : World) (a : Args) (c : Config) (files : List Str) (h : resolveConfig w a = .ok c) (hn : a.noConfig = false) (hf : a.config = some files) :
    c.configFiles = ((files.filter (· ≠ [])).map (fun f => (expandTilde w.home f).text)) ∧
    ∀ f ∈ files, f ≠ [] → (expandTilde w.home f).exists w.fs w.cwd = true := by
  obtain ⟨p0, s0, _, _, hl, _⟩ := resolve_stages h
  have := loadPartial_files hl
  unfold configPaths at this
  rw [hn, hf] at this
  simp only [Bool.false_eq_true, if_false] at this
  split at this
  · next hall =>
    simp only [Except.ok.injEq] at this
    refine ⟨by rw [← this, List.map_map]; rfl, ?_⟩
    intro f hf hne
    rw [List.all_eq_true] at hall
    exact hall _ (List.mem_map.2 ⟨f, List.mem_filter.2 ⟨hf, by simpa using hne⟩, rfl⟩)
  · cases this

/-- A file that cannot be read or parsed is an error, it is not skipped. -/
theorem C35_unreadable (w : World) (a : Args) (c : Config) (h : resolveConfig w a = .ok c) : ∀ f ∈ c.configFiles, (w.readConfig f).isSome = true := by
  obtain ⟨p0, s0, _, _, hl, _⟩ := resolve_stages h
  have key : ∀ (l : List Str) (acc acc' : Partial × Sources), loadFiles w l acc = .ok acc' → ∀ f ∈ l, (w.readConfig f).isSome = true := by
    intro l
    induction l with
    | nil => simp
    | cons x l ih =>
      intro acc acc' h
      unfold loadFiles at h
      split at h
      · cases h
      · next o ho =>
        intro f hf
        rcases List.mem_cons.1 hf with rfl | hf
        · rw [ho]; rfl
        · exact ih _ _ h f hf
  unfold loadPartial at hl
  split at hl
  · cases hl
  · next ps hps =>
    simp only at hl
    split at hl
    · cases hl
    · next p' s' hl2 =>
      simp only [Except.ok.injEq, Prod.mk.injEq] at hl
      rw [← hl.2.2]
      exact key _ _ _ hl2

/-- Non-vacuity: the world of `exCfg_ok`; `/home/.sandbox.toml` exists but is not read. -/
example : Spec.insideHome exCfgWorld.home exCfgWorld.cwd ∧ exCfg.configFiles = ((Spec.configLocations exCfgWorld.home exCfgWorld.cwd).filter (Spec.usable exCfgWorld)).map RPath.text ∧
    exCfgWorld.fs.pexists [str "home", str ".sandbox.toml"] = true := by decide +kernel

example : (resolveConfig exCfgWorld { noConfig := true }).toOption.map (·.configFiles) = some [] := by decide +kernel
example : (resolveConfig exCfgWorld { config := some [str "~/proj/.sandbox.conf", str "/etc/sandbox.toml"] }).toOption.map (·.configFiles) =
    some [str "/home/u/proj/.sandbox.conf", str "/etc/sandbox.toml"] := by decide +kernel
example : resolveConfig exCfgWorld { config := some [str "~/nope"] } = .error .configFile := by decide +kernel

/-- `/home` is a symbolic link to `/data`. -/
def exLinkFs : FS := [([], { kind := .dir }), ([str "home"], { kind := .lnk (str "/data") }), ([str "data"], { kind := .dir }),
  ([str "data", str ".sandbox.toml"], { kind := .reg [] }), ([str "data", str "u"], { kind := .dir }), ([str "data", str "u", str "proj"], { kind := .dir })]

/-- **C35 refuted** when the home directory is spelled through a symbolic link: the current directory `/data/u/proj` is inside the home directory `/home/u`
(= `/data/u`), yet `/data/.sandbox.toml` above it is read. -/
theorem C35_refuted_symlink :
    let w : World := { exCfgWorld with fs := exLinkFs, cwd := [str "data", str "u", str "proj"] }
    w.home.canonicalize w.fs w.cwd = some [str "data", str "u"] ∧ findConfigFiles w = [str "/data/.sandbox.toml"] := by decide +kernel

/-! ### C58 -/

/-- **C58**: `~` alone is the home directory, everything that does not start with `~/` is unchanged (also `~user`). -/
theorem C58_other (home : RPath) (s : Str) (h : s ≠ ['~']) (h2 : ∀ r, s ≠ '~' :: '/' :: r) : expandTilde home s = parsePath s := by
  unfold expandTilde
  rw [if_neg h]
  split
  · next hp =>
    rw [List.isPrefixOf_iff_prefix] at hp
    obtain ⟨r, hr⟩ := hp
    exact absurd hr.symm (h2 r)
  · rfl

theorem C58_home (home : RPath) : expandTilde home ['~'] = home := by simp [expandTilde]

/-- **C58** (part): `~/rest` is the path `rest` below the home directory, provided `rest` does not start with another slash. -/
theorem C58_below_partial (home : RPath) (rest : Str) (h : rest.head? ≠ some '/') :
    expandTilde home ('~' :: '/' :: rest) = ⟨home.abs, home.comps ++ components rest⟩ := by
  unfold expandTilde
  rw [if_neg (by simp)]
  rw [if_pos (by rw [List.isPrefixOf_iff_prefix]; exact ⟨rest, rfl⟩)]
  show home.join (parsePath rest) = _
  unfold RPath.join parsePath
  rw [if_neg h]
  have hc : (components rest).filter (· ≠ ['.']) = components rest := by
    
    rw [List.filter_eq_self]
    intro a ha
    unfold components at ha
    simp only [List.mem_filter] at ha
    have := ha.2
    simp_all
  split <;> simp_all

example : expandTilde ⟨true, [str "home", str "u"]⟩ (str "~/a/../b") = ⟨true, [str "home", str "u", str "a", str "..", str "b"]⟩ := by decide
example : expandTilde ⟨true, [str "home", str "u"]⟩ (str "~bob/x") = ⟨false, [str "~bob", str "x"]⟩ := by decide

/-- **C58 refuted**: `~//etc` is expanded to `/etc`, not to a path below the home directory. -/
theorem C58_refuted_double_slash : expandTilde ⟨true, [str "home", str "u"]⟩ (str "~//etc") = ⟨true, [str "etc"]⟩ := by decide

end SB
