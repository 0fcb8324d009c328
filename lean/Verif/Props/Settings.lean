import Verif.Model.Settings
import Verif.Props.ConfigBinds
import Verif.Props.Mounts

/-! # C44: joining a running sandbox requires identical settings -/

namespace SB

open scoped List

theorem parseBind_argument {w : World} {s : Str} {b : BindMount} (h : parseBind w s = .ok b) : b.argument = s := by
  unfold parseBind at h
  simp only at h
  generalize (if RPath.exists w.fs w.cwd _ = true then _ else _ : Option RPath) = tgt at h
  split at h
  · cases h
  · split at h
    · cases h
    · split at h
      · cases h; rfl
      · split at h
        · cases h
        · cases h; rfl

theorem arguments_parse {w : World} {a : Args} {c : Config} (hh : ∀ l, (w.hashOrder l).Perm l) (h : resolveConfig w a = .ok c) :
    ∀ b ∈ c.bindMounts, parseBind w b.argument = .ok b := by
  obtain ⟨p0, s0, acc1, acc2, hl, he, hc, hf, _⟩ := resolve_stages h
  obtain ⟨_, _, _, _, _, _, ⟨bs, m, hp, hd, hbm⟩, _⟩ := finish_ok hf
  obtain ⟨_, hpar⟩ := parseBinds_ok hp
  obtain ⟨_, _, h3, _⟩ := dedupBinds_ok hd (by simp)
  intro b hb
  rw [hbm] at hb
  rcases h3 b ((hh m).mem_iff.1 hb) with hb | hb
  · cases hb
  · obtain ⟨s, _, hs⟩ := hpar b hb
    rw [parseBind_argument hs]; exact hs

theorem arguments_inj {w : World} {a : Args} {c : Config} (hh : ∀ l, (w.hashOrder l).Perm l) (h : resolveConfig w a = .ok c) :
    ∀ b ∈ c.bindMounts, ∀ b' ∈ c.bindMounts, b.argument = b'.argument → b = b' := by
  intro b hb b' hb' he
  have h1 := arguments_parse hh h b hb
  have h2 := arguments_parse hh h b' hb'
  rw [he, h2] at h1
  cases h1; rfl

theorem userBinds_perm {s s' : Settings} (hi : ∀ b ∈ s.binds, ∀ b' ∈ s.binds, b.argument ≠ str "data" → b.argument = b'.argument → b = b') :
    userBinds s = userBinds s' ↔ (s.binds.filter (fun b => b.argument ≠ str "data")) ~ (s'.binds.filter (fun b => b.argument ≠ str "data")) := by
  unfold userBinds
  constructor
  · intro h
    have h1 := perm_stableSort (fun a b : BindMount => decide (a.argument ≤ b.argument)) (s.binds.filter (fun b => b.argument ≠ str "data"))
    rw [h] at h1
    exact h1.symm.trans (perm_stableSort _ _)
  · intro h
    have hp := ((perm_stableSort (fun a b : BindMount => decide (a.argument ≤ b.argument)) _).trans h).trans
      (perm_stableSort (fun a b : BindMount => decide (a.argument ≤ b.argument)) _).symm
    have hs : ∀ l : List BindMount, (stableSort (fun a b : BindMount => decide (a.argument ≤ b.argument)) l).Pairwise (fun a b => a.argument ≤ b.argument) := fun l =>
      (pairwise_stableSort (le := fun a b : BindMount => decide (a.argument ≤ b.argument)) (fun a b => by simp [le_total])
        (fun a b c h1 h2 => by simp only [decide_eq_true_eq] at *; exact le_trans h1 h2) l).imp (by simp)
    refine hp.eq_of_pairwise (le := fun a b : BindMount => a.argument ≤ b.argument) ?_ (hs _) (hs _)
    intro a b ha hb hab hba
    have ha' := mem_stableSort.1 ha
    have hb' := h.mem_iff.2 (mem_stableSort.1 hb)
    simp only [List.mem_filter, ne_eq, decide_not, Bool.not_eq_eq_eq_not, Bool.not_true, decide_eq_false_iff_not] at ha' hb'
    exact hi a ha'.1 b hb'.1 ha'.2 (le_antisymm hab hba)

theorem filter_data {c : Config} (hd : ∀ b ∈ c.bindMounts, b.argument ≠ str "data") :
    (c.bindMounts ++ [dataBind c]).filter (fun b => b.argument ≠ str "data") = c.bindMounts := by
  rw [List.filter_append, List.filter_eq_self.2 (by simpa using hd)]
  simp [dataBind]

/-- The list of mounts is sorted by directory, as the tool writes it. -/
def Spec.SortedMounts (ms : List MountHash) : Prop := ms.Pairwise (fun a b => display a.dir ≤ display b.dir)

theorem sort_of_sorted {ms : List MountHash} (h : Spec.SortedMounts ms) : stableSort (fun a b => textLe a.dir b.dir) ms = ms := by
  unfold stableSort
  exact List.Pairwise.insertionSort_eq (h.imp (fun hab => by simpa [textLe] using hab))

theorem scan_sorted {base : Path} {t : Option (List MountEntry)} {ms : List MountHash} (h : scanSystemMounts base t = some ms) : Spec.SortedMounts ms := by
  unfold scanSystemMounts at h
  split at h
  · cases h
  · simp only at h
    split at h
    · cases h
    · cases h
      exact (pairwise_stableSort (le := fun a b : MountHash => textLe a.dir b.dir) (fun a b => textLe_total _ _) (fun a b c => textLe_trans _ _ _) _).imp
        (by simp [textLe])

/-- **C44**: a sandbox that was started with configuration `c0` and mounts `ms` can be entered with configuration `c1` exactly if the network setting, the mounts and
the binds are the same, the latter in any order; of a bind its argument counts too.  Missing: binds with the argument `data` are not compared. -/
theorem C44_join_partial (v0 v1 : Str) (w0 : World) (a0 : Args) (c0 c1 : Config) (hh0 : ∀ l, (w0.hashOrder l).Perm l)
    (h0 : resolveConfig w0 a0 = .ok c0) (hd0 : ∀ b ∈ c0.bindMounts, b.argument ≠ str "data") (hd1 : ∀ b ∈ c1.bindMounts, b.argument ≠ str "data")
    (ms : List MountHash) (parent0 : Option (Option (List MountHash))) (table0 : Option (List MountEntry))
    (hms0 : determineMounts (sandboxDir c0.storageDir c0.name) parent0 table0 = some ms) (hpar : ∀ l, parent0 = some (some l) → Spec.SortedMounts l) (parent : Option (Option (List MountHash))) (table : Option (List MountEntry)) :
    join v1 c1 (startSettings v0 c0 ms) parent table = .ok () ↔
      c0.net = c1.net ∧ determineMounts (sandboxDir c1.storageDir c1.name) parent table = some ms ∧ c0.bindMounts ~ c1.bindMounts := by
  have hms : Spec.SortedMounts ms := by
    cases parent0 with
    | none => exact scan_sorted hms0
    | some r => exact hpar ms (congrArg some hms0)
  unfold join startSettings
  rw [sort_of_sorted hms]
  dsimp only
  have hb : userBinds (settingsOf v0 c0.net (c0.bindMounts ++ [dataBind c0]) ms) = userBinds (settingsOf v1 c1.net (c1.bindMounts ++ [dataBind c1]) ms) ↔
      c0.bindMounts ~ c1.bindMounts := by
    rw [userBinds_perm]
    · simp only [settingsOf, filter_data hd0, filter_data hd1]
    · intro b hb b' hb' hne he
      simp only [settingsOf, List.mem_append, List.mem_singleton] at hb hb'
      rcases hb with hb | rfl
      · rcases hb' with hb' | rfl
        · exact arguments_inj hh0 h0 b hb b' hb' he
        · exact absurd he hne
      · exact absurd rfl hne
  cases hdm : determineMounts (sandboxDir c1.storageDir c1.name) parent table with
  | none => simp
  | some ms1 =>
    dsimp only
    simp only [Option.some.injEq]
    unfold validate
    by_cases hnet : c0.net = c1.net
    · by_cases hm : ms1 = ms
      · subst hm
        by_cases hp : c0.bindMounts ~ c1.bindMounts
        · have := hb.2 hp
          simp [settingsOf] at this ⊢
          simp [hnet, hp]
          simp [hnet] at this
          simp [this]
        · have := fun h => hp (hb.1 h)
          simp [settingsOf, hnet, hp] at this ⊢
          simp [this]
      · have : ms ≠ ms1 := fun h => hm h.symm
        simp [settingsOf, hnet, hm, this]
    · simp [settingsOf, hnet]

/-- A corrupt settings file is an error, whatever the configuration. -/
theorem C44_corrupt (v : Str) (c : Config) (parent : Option (Option (List MountHash))) (table : Option (List MountEntry)) :
    join v c .corrupt parent table = .error .corrupt := rfl

/-! ### Examples -/

def exTable : Option (List MountEntry) := some [⟨[], str "ext4"⟩, ⟨[str "home"], str "xfs"⟩, ⟨[str "proc"], str "proc"⟩]

def exArgs (binds : List Str) : Args := { noConfig := true, noDefaultBinds := true, bind := some binds }

/-- Start with one configuration (hash map order of a first process), enter with another one (reversed order). -/
def exJoin (w : World) (a0 a1 : Args) (t1 : Option (List MountEntry)) : Option (Except JoinErr Unit) :=
  match resolveConfig w a0, resolveConfig { w with hashOrder := List.reverse } a1 with
  | .ok c0, .ok c1 => (determineMounts (sandboxDir c0.storageDir c0.name) none exTable).map (fun ms => join (str "2") c1 (startSettings (str "1") c0 ms) none t1)
  | _, _ => none

/-- Non-vacuity: same binds in another order; another option; a bind more; another network; another mount. -/
example : exJoin exCfgWorld (exArgs [str "/etc", str "/tmp::ro"]) (exArgs [str "/tmp::ro", str "/etc"]) exTable = some (.ok ()) ∧
    exJoin exCfgWorld (exArgs [str "/etc"]) (exArgs [str "/etc::ro"]) exTable = some (.error (.clash .binds)) ∧
    exJoin exCfgWorld (exArgs [str "/etc"]) (exArgs [str "/etc", str "/tmp"]) exTable = some (.error (.clash .binds)) ∧
    exJoin exCfgWorld (exArgs [str "/etc"]) { exArgs [str "/etc"] with net := some .host } exTable = some (.error (.clash .network)) ∧
    exJoin exCfgWorld (exArgs [str "/etc"]) (exArgs [str "/etc"]) (some [⟨[], str "ext4"⟩]) = some (.error (.clash .mounts)) := by decide +kernel

/-- **C44 refuted**: the same source, target and option written differently is taken for a different bind. -/
theorem C44_refuted_spelling : (resolveConfig exCfgWorld (exArgs [str "/tmp::ro"])).toOption.map (fun c => c.bindMounts.map (fun b => (b.source, b.target, b.opt))) =
      (resolveConfig exCfgWorld (exArgs [str "/tmp:/tmp:ro"])).toOption.map (fun c => c.bindMounts.map (fun b => (b.source, b.target, b.opt))) ∧
    exJoin exCfgWorld (exArgs [str "/tmp::ro"]) (exArgs [str "/tmp:/tmp:ro"]) exTable = some (.error (.clash .binds)) := by decide +kernel

/-- **C44 refuted**: a bind with the argument `data` (a directory of that name in the current directory) is not compared: a sandbox started without it can be entered,
although the directory is not bound there. -/
theorem C44_refuted_data :
    let w : World := { exCfgWorld with cwd := [str "home", str "u"] }
    (resolveConfig w (exArgs [str "data"])).toOption.map (fun c => c.bindMounts.map (·.source)) = some [[str "home", str "u", str "data"]] ∧
    exJoin w (exArgs []) (exArgs [str "data"]) exTable = some (.ok ()) := by decide +kernel

/-- **C44 refuted**: without `settings.json` (it lies in the data directory, which is writable from inside the sandbox) every configuration is let in. -/
theorem C44_refuted_missing (v : Str) (c : Config) (parent : Option (Option (List MountHash))) (table : Option (List MountEntry)) :
    join v c .missing parent table = .ok () := rfl

end SB
