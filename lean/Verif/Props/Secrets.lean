import Verif.Props.ConfigFiles

/-!
# C80: configuration files the user may not read have no influence
-/

namespace SB

theorem loadFiles_congr {w w' : World} : ∀ (ps : List Str) (acc : Partial × Sources), (∀ p ∈ ps, w'.readConfig p = w.readConfig p) → loadFiles w' ps acc = loadFiles w ps acc
  | [], _, _ => rfl
  | p :: r, acc, h => by
    rw [loadFiles, loadFiles, h p (by simp)]
    cases w.readConfig p with
    | none => rfl
    | some o => exact loadFiles_congr r _ (fun q hq => h q (List.mem_cons_of_mem _ hq))

theorem mem_findConfigFiles {w : World} {t : Str} (h : t ∈ findConfigFiles w) : ∃ p : RPath, Spec.usable w p = true ∧ p.text = t := by
  rw [findConfigFiles_spec] at h
  obtain ⟨p, hp, rfl⟩ := List.mem_map.1 h
  exact ⟨p, (List.mem_filter.1 hp).2, rfl⟩

/-- The same world, except for what is in configuration files. -/
def Spec.withFiles (w : World) (r : Str → Option Partial) : World := { w with readConfig := r }

theorem canMkdirUp_withFiles (w : World) (r : Str → Option Partial) : ∀ l, canMkdirUp (Spec.withFiles w r) l = canMkdirUp w l
  | [] => rfl
  | x :: l => by simp only [canMkdirUp, canMkdirUp_withFiles w r l]; rfl

theorem storageLoop_withFiles (w : World) (r : Str → Option Partial) (ms : List MountEntry) : ∀ l, resolveStorageLoop (Spec.withFiles w r) ms l = resolveStorageLoop w ms l
  | [] => rfl
  | x :: l => by
    simp only [resolveStorageLoop, storageLoop_withFiles w r ms l, canMkdirUp_withFiles, show mkdirOk (Spec.withFiles w r) = mkdirOk w from rfl,
      show (Spec.withFiles w r).fs = w.fs from rfl]

theorem resolveStorage_withFiles (w : World) (r : Str → Option Partial) (sd : Option Str) : resolveStorage (Spec.withFiles w r) sd = resolveStorage w sd := by
  unfold resolveStorage
  simp only [storageLoop_withFiles]
  rfl

theorem parseBinds_withFiles (w : World) (r : Str → Option Partial) : ∀ l, parseBinds (Spec.withFiles w r) l = parseBinds w l
  | [] => rfl
  | x :: l => by simp only [parseBinds, parseBinds_withFiles w r l, show parseBind (Spec.withFiles w r) = parseBind w from rfl]

theorem resolve_withFiles (w : World) (r : Str → Option Partial) (a : Args) (h : loadPartial (Spec.withFiles w r) a = loadPartial w a) :
    resolveConfig (Spec.withFiles w r) a = resolveConfig w a := by
  have e0 : ∀ sd, cliName (Spec.withFiles w r) a sd = cliName w a sd := by
    intro sd
    simp only [cliName, resolveStorage_withFiles]
    rfl
  have e1 : ∀ acc, applyCli (Spec.withFiles w r) a acc = applyCli w a acc := by
    intro acc
    simp only [applyCli, e0]
  have e2 : ∀ acc files, finishConfig (Spec.withFiles w r) acc files = finishConfig w acc files := by
    intro acc files
    simp only [finishConfig, resolveStorage_withFiles, parseBinds_withFiles, show bindRequests (Spec.withFiles w r) = bindRequests w from rfl]
    rfl
  unfold resolveConfig
  rw [h, show (Spec.withFiles w r).vars = w.vars from rfl]
  simp only [e1, e2]

theorem load_withFiles (w : World) (r : Str → Option Partial) (a : Args) (h : ∀ ps, configPaths w a = .ok ps → ∀ p ∈ ps, r p = w.readConfig p) :
    loadPartial (Spec.withFiles w r) a = loadPartial w a := by
  unfold loadPartial
  rw [show configPaths (Spec.withFiles w r) a = configPaths w a from rfl]
  cases hp : configPaths w a with
  | error e => rfl
  | ok ps =>
    simp only
    rw [loadFiles_congr (w := w) (w' := Spec.withFiles w r) ps _ (h ps hp)]

/-- **C80 (partial)**: files that the user may not read have no influence.  Whatever they contain, the configuration that results, or the error, is the same, if configuration files
are looked up (no `--config`), or if those given with `--config` may be read by the user.
Missing: `--config` with a file the user may not read (`C80_refuted_config`). -/
theorem C80_secret_partial (w : World) (r : Str → Option Partial) (a : Args) (hsame : ∀ p : RPath, Spec.usable w p = true → r p.text = w.readConfig p.text)
    (ha : ∀ files, a.config = some files → ∀ f ∈ files, f ≠ [] → Spec.usable w (expandTilde w.home f) = true) : resolveConfig (Spec.withFiles w r) a = resolveConfig w a := by
  refine resolve_withFiles w r a (load_withFiles w r a (fun ps hps p hp => ?_))
  unfold configPaths at hps
  split at hps
  · cases hps; cases hp
  · cases hc : a.config with
    | none =>
      rw [hc] at hps
      cases hps
      obtain ⟨q, hq, rfl⟩ := mem_findConfigFiles hp
      exact hsame q hq
    | some files =>
      rw [hc] at hps
      simp only at hps
      split at hps
      · cases hps
        obtain ⟨q, hq, rfl⟩ := List.mem_map.1 hp
        obtain ⟨f, hf, rfl⟩ := List.mem_map.1 hq
        obtain ⟨h1, h2⟩ := List.mem_filter.1 hf
        exact hsame _ (ha files hc f h1 (by simpa using h2))
      · cases hps

/-- The example world, in which the user may not read below `/etc`. -/
def exSecretWorld : World := { exCfgWorld with canRead := fun p => p.head? ≠ some (str "etc") }

/-- Non-vacuity: the file in `/etc` exists, and other files are read. -/
example : Spec.usable exSecretWorld ⟨true, [str "etc", str "sandbox.toml"]⟩ = false ∧ exSecretWorld.fs.pexists [str "etc", str "sandbox.toml"] = true ∧
    (exSecretWorld.readConfig (str "/etc/sandbox.toml")).isSome = true ∧ (findConfigFiles exSecretWorld).length = 3 := by decide +kernel

/-- **C80 refuted** for `--config`: the program reads the file as root without asking whether the user may, so that its content shows in the settings; if the file is not a configuration
at all, the error message of the parser shows the line. -/
theorem C80_refuted_config : ∃ (w : World) (r : Str → Option Partial) (a : Args) (c c' : Config),
    w.canRead [str "etc", str "sandbox.toml"] = false ∧ (∀ t, t ≠ str "/etc/sandbox.toml" → r t = w.readConfig t) ∧
    resolveConfig w a = .ok c ∧ resolveConfig (Spec.withFiles w r) a = .ok c' ∧ c.net = .host ∧ c'.net = .none := by
  refine ⟨exSecretWorld, fun t => if t = str "/etc/sandbox.toml" then some {} else exCfgWorld.readConfig t, { config := some [str "/etc/sandbox.toml"] }, ?_⟩
  have h1 : (resolveConfig exSecretWorld { config := some [str "/etc/sandbox.toml"] }).toOption.map (·.net) = some .host := by decide +kernel
  have h2 : (resolveConfig (Spec.withFiles exSecretWorld (fun t => if t = str "/etc/sandbox.toml" then some {} else exCfgWorld.readConfig t))
    { config := some [str "/etc/sandbox.toml"] }).toOption.map (·.net) = some .none := by decide +kernel
  cases e1 : resolveConfig exSecretWorld { config := some [str "/etc/sandbox.toml"] } with
  | error e => rw [e1] at h1; cases h1
  | ok c =>
    cases e2 : resolveConfig (Spec.withFiles exSecretWorld (fun t => if t = str "/etc/sandbox.toml" then some {} else exCfgWorld.readConfig t))
      { config := some [str "/etc/sandbox.toml"] } with
    | error e => rw [e2] at h2; cases h2
    | ok c' =>
      rw [e1] at h1
      rw [e2] at h2
      exact ⟨c, c', by decide, fun t ht => if_neg ht, rfl, rfl, Option.some.inj h1, Option.some.inj h2⟩

end SB
