import Verif.Props.Setup
import Verif.Props.Mounted

/-!
# C68: what commands in a sandbox can change on the host; C70: /proc and /sys in the sandbox
-/

namespace SB

open scoped List

/-! ### C68 -/

/-- What there is to change: the files of the host, and the storage of the sandbox, one layer (named by the mount's storage directory) per overlay. -/
structure Spec.Machine where
  host : Path → Option Node
  layer : Name → Path → Option Node

/-- A process in the sandbox changes something at `p`.  Which file system it reaches is decided by the mount table (kernel); any change a file system allows may happen:
an overlay records it in its upper layer, a read-only or private file system changes nothing that outlives the sandbox. -/
inductive Spec.Step (t : List Line) : Spec.Machine → Spec.Machine → Prop where
  | overlay {s s' p l d} : lineAt t p = some l → l.what = .own (.overlay d) → s'.host = s.host → (∀ h, h ≠ mountName d → s'.layer h = s.layer h) → Spec.Step t s s'
  | bind {s s' p l r src} : lineAt t p = some l → l.what = .own (.bind src false) → p = l.target ++ r → (∀ q, q ≠ src ++ r → s'.host q = s.host q) →
      s'.layer = s.layer → Spec.Step t s s'
  | host {s s' p l r dir} : lineAt t p = some l → l.what = .host dir → p = l.target ++ r → (∀ q, q ≠ dir ++ r → s'.host q = s.host q) → s'.layer = s.layer → Spec.Step t s s'
  | none {s} : Spec.Step t s s

/-- Any number of changes by processes in the sandbox. -/
inductive Spec.Steps (t : List Line) : Spec.Machine → Spec.Machine → Prop where
  | refl {s} : Spec.Steps t s s
  | step {s s' s''} : Spec.Steps t s s' → Spec.Step t s' s'' → Spec.Steps t s s''

/-- A host path that the configuration lets commands in the sandbox write to: at or below the source of a read-write bind that the command line, the environment or a
config file asks for or that is a default bind, or in the sandbox's data directory. -/
def Spec.Exposed (w : World) (a : Args) (c : Config) (q : Path) : Prop :=
  (∃ s src tgt, Spec.AsksBind w a c.configFiles s ∧ Spec.BindDenotes w s src tgt .rw ∧ src <+: q) ∨
  (c.noDefaultBinds = false ∧ ∃ s src tgt, s ∈ defaultBinds w c.net ∧ Spec.BindDenotes w s src tgt .rw ∧ src <+: q) ∨
  sandboxDir c.storageDir c.name ++ [str "data"] <+: q

theorem mem_startMounts {se : StartEnv} {ms : List MountHash} {bs : List StartBind} {o : MountOp} (h : o ∈ startMounts se ms bs) :
    (∃ d, o.what = .overlay d ∧ (d = [] ∨ ∃ m ∈ ms, m.dir = d)) ∨ (∃ b ∈ bs, o.target = b.target ∧ o.what = bindMounted se b) ∨
    ((∀ d, o.what ≠ .overlay d) ∧ (∀ s r, o.what ≠ .bind s r)) := by
  unfold startMounts at h
  rcases List.mem_append.1 h with h | h
  · rcases List.mem_append.1 h with h | h
    · rcases List.mem_append.1 h with h | h
      · simp only [earlyMounts, List.mem_cons, List.not_mem_nil, or_false] at h
        rcases h with rfl | rfl | rfl
        · exact .inl ⟨_, rfl, .inl rfl⟩
        · exact .inr (.inr ⟨fun _ h => (by cases h), fun _ _ h => (by cases h)⟩)
        · exact .inr (.inr ⟨fun _ h => (by cases h), fun _ _ h => (by cases h)⟩)
      · obtain ⟨m, hm, rfl⟩ := List.mem_map.1 h
        exact .inl ⟨_, rfl, .inr ⟨m, (List.mem_filter.1 hm).1, rfl⟩⟩
    · refine .inr (.inr ?_)
      unfold systemMounts at h
      simp only [List.mem_append, List.mem_map, List.mem_filter] at h
      rcases h with (h | ⟨p, _, rfl⟩) | ⟨p, _, rfl⟩
      · simp only [List.mem_cons, List.not_mem_nil, or_false] at h
        rcases h with rfl | rfl | rfl | rfl | rfl | rfl <;> exact ⟨fun _ h => (by cases h), fun _ _ h => (by cases h)⟩
      · constructor
        · intro d hd
          simp only at hd
          split at hd <;> cases hd
        · intro d r hd
          simp only at hd
          split at hd <;> cases hd
      · exact ⟨fun _ h => (by cases h), fun _ _ h => (by cases h)⟩
  · obtain ⟨b, hb, rfl⟩ := List.mem_map.1 h
    exact .inr (.inl ⟨b, hb, rfl, rfl⟩)

theorem bindMounted_rw {se : StartEnv} {b : StartBind} {src : Path} (h : bindMounted se b = .bind src false) : b.opt = .rw ∧ b.source = src := by
  unfold bindMounted at h
  cases hb : b.opt <;> simp only [hb] at h
  · simp only [Mounted.bind.injEq] at h
    exact ⟨rfl, h.1⟩
  · simp at h
  · split at h <;> cases h

/-- **C68**: whatever commands do in the sandbox, for any configuration, the only host paths that change are those the user exposed by read-write binds (requested or
default ones) and the sandbox's data directory; the only storage that changes is that of the overlaid mounts. -/
theorem C68_host (w : World) (hw : w.fs.WF) (hh : ∀ l, (w.hashOrder l).Perm l) (a : Args) (c : Config) (h : resolveConfig w a = .ok c) (su : SetupEnv)
    (host : List Line) (ms : List MountHash) (hok : Spec.SetupOk su host ms ((c.bindMounts ++ [dataBind c]).map startBind)) (t : List Line)
    (ht : runSetup su host ms ((c.bindMounts ++ [dataBind c]).map startBind) = some t) (s s' : Spec.Machine) (hs : Spec.Steps t s s') :
    (∀ q, s'.host q ≠ s.host q → Spec.Exposed w a c q) ∧ (∀ n, s'.layer n ≠ s.layer n → ∃ m ∈ ms, n = m.hash) := by
  rw [C69_setup_partial su host ms _ hok] at ht
  cases ht
  have hlines : ∀ (p : Path) (l : Line), lineAt ((startMounts su.se ms ((c.bindMounts ++ [dataBind c]).map startBind)).map (fun o => (⟨o.target, .own o.what⟩ : Line))) p = some l →
      ∃ o ∈ startMounts su.se ms ((c.bindMounts ++ [dataBind c]).map startBind), l = ⟨o.target, .own o.what⟩ := by
    intro p l hl
    obtain ⟨o, ho, he⟩ := List.mem_map.1 (lineAt_mem hl).1
    exact ⟨o, ho, he.symm⟩
  induction hs with
  | refl => exact ⟨fun q hq => absurd rfl hq, fun n hn => absurd rfl hn⟩
  | @step s1 s2 _ hstep ih =>
    have hone : (∀ q, s2.host q ≠ s1.host q → Spec.Exposed w a c q) ∧ (∀ n, s2.layer n ≠ s1.layer n → ∃ m ∈ ms, n = m.hash) := by
      cases hstep with
      | none => exact ⟨fun q hq => absurd rfl hq, fun n hn => absurd rfl hn⟩
      | @overlay _ p l d hl hwh h1 h2 =>
        refine ⟨fun q hq => absurd (congrFun h1 q) hq, fun n hn => ?_⟩
        have hnd : n = mountName d := by
          by_contra hne
          exact hn (h2 n hne)
        obtain ⟨o, ho, rfl⟩ := hlines p l hl
        have hwo : o.what = .overlay d := by simpa using hwh
        rcases mem_startMounts ho with ⟨d', hd', hm⟩ | ⟨b, _, _, hb⟩ | ⟨hx, _⟩
        · rw [hwo] at hd'
          cases hd'
          rcases hm with rfl | ⟨m, hm, rfl⟩
          · exact ⟨_, hok.root, hnd⟩
          · exact ⟨m, hm, hnd.trans (hok.names m hm).1.symm⟩
        · rw [hwo] at hb
          unfold bindMounted at hb
          cases hbo : b.opt <;> simp only [hbo] at hb
          · cases hb
          · cases hb
          · split at hb <;> cases hb
        · exact absurd hwo (hx d)
      | @bind _ p l r src hl hwh hp h1 h2 =>
        refine ⟨fun q hq => ?_, fun n hn => absurd (congrFun h2 n) hn⟩
        have hq' : q = src ++ r := by
          by_contra hne
          exact hq (h1 q hne)
        obtain ⟨o, ho, rfl⟩ := hlines p l hl
        have hwo : o.what = .bind src false := by simpa using hwh
        rcases mem_startMounts ho with ⟨d', hd', _⟩ | ⟨b, hb, _, hbm⟩ | ⟨_, hx⟩
        · rw [hwo] at hd'; cases hd'
        · rw [hwo] at hbm
          obtain ⟨hopt, hsrc⟩ := bindMounted_rw hbm.symm
          obtain ⟨b0, hb0, rfl⟩ := List.mem_map.1 hb
          simp only [startBind] at hopt hsrc
          rcases List.mem_append.1 hb0 with hb0 | hb0
          · rcases C36_only_requested w hw hh a c h b0 hb0 with ⟨hd, s, hs, hden⟩ | ⟨s, hs, hden⟩ | ⟨_, _, hm, _⟩
            · rw [hopt, hsrc] at hden
              exact .inr (.inl ⟨hd, s, src, _, hs, hden, ⟨r, hq'.symm⟩⟩)
            · rw [hopt, hsrc] at hden
              exact .inl ⟨s, src, _, hs, hden, ⟨r, hq'.symm⟩⟩
            · rw [hopt] at hm; cases hm
          · rw [List.mem_singleton] at hb0
            subst hb0
            refine .inr (.inr ?_)
            rw [hq', ← hsrc]
            refine ⟨r, ?_⟩
            simp [dataBind]
        · exact absurd hwo (hx src false)
      | @host _ p l r dir hl hwh _ _ _ =>
        obtain ⟨o, ho, rfl⟩ := hlines p l hl
        cases hwh
    refine ⟨fun q hq => ?_, fun n hn => ?_⟩
    · by_cases h1 : s1.host q = s.host q
      · exact hone.1 q (h1 ▸ hq)
      · exact ih.1 q h1
    · by_cases h1 : s1.layer n = s.layer n
      · exact hone.2 n (h1 ▸ hn)
      · exact ih.2 n h1

/-- Non-vacuity of C68: the configuration `exCfg` (a read-write bind of `/etc`, a read-only one, a mask) on a host with two mounts; a command that writes `/etc/x` changes
the host's `/etc/x`. -/
example : Spec.SetupOk exSetup exHostTable exSetupMounts ((exCfg.bindMounts ++ [dataBind exCfg]).map startBind) ∧
    ∃ t, runSetup exSetup exHostTable exSetupMounts ((exCfg.bindMounts ++ [dataBind exCfg]).map startBind) = some t ∧
      Spec.Steps t ⟨fun _ => none, fun _ _ => none⟩ ⟨fun q => if q = [str "etc", str "x"] then some { kind := .dir } else none, fun _ _ => none⟩ := by
  have hok : Spec.SetupOk exSetup exHostTable exSetupMounts ((exCfg.bindMounts ++ [dataBind exCfg]).map startBind) :=
    { hostRoot := ⟨_, _, rfl, by decide +kernel⟩
      root := by simp [exSetupMounts]
      names := by decide +kernel
      fresh := by decide +kernel
      mountsApart := by decide +kernel
      bindsApart := by decide +kernel }
  refine ⟨hok, _, C69_setup_partial _ _ _ _ hok, .step .refl (.bind (p := [str "etc", str "x"]) (l := ⟨[str "etc"], .own (.bind [str "etc"] false)⟩) (r := [str "x"])
    (by decide +kernel) rfl rfl (fun q hq => ?_) rfl)⟩
  exact if_neg hq

/-! ### C70 -/

/-- What is hidden from commands in the sandbox (the list of Docker's defaults), if it exists on the machine. -/
def Spec.hiddenPaths : List String := ["/proc/asound", "/proc/acpi", "/proc/interrupts", "/proc/kcore", "/proc/keys", "/proc/latency_stats", "/proc/timer_list",
  "/proc/timer_stats", "/proc/sched_debug", "/proc/scsi", "/sys/firmware", "/sys/devices/virtual/powercap"]

/-- What commands in the sandbox can read but not change. -/
def Spec.readOnlyPaths : List String := ["/proc/bus", "/proc/fs", "/proc/irq", "/proc/sys", "/proc/sysrq-trigger"]

/-- The place of one of these texts. -/
def Spec.PlaceOf (s : String) (p : Path) : Prop := p = components (str s)

/-- What is hidden: the listed paths, and for each of the CPUs of the machine the counters in `/sys/devices/system/cpu/CPU/thermal_throttle`. -/
def Spec.Sensitive (cpus : List Name) (p : Path) : Prop :=
  (∃ s ∈ Spec.hiddenPaths, Spec.PlaceOf s p) ∨ ∃ c ∈ cpus, p = components (str "/sys/devices/system/cpu") ++ [c, str "thermal_throttle"]

theorem seen_system {se : StartEnv} {ms : List MountHash} {bs : List StartBind} {p : Path} (hb : ∀ b ∈ bs, ¬ b.target <+: p) {o : MountOp} (ho : seen (systemMounts se) p = some o) :
    seen (startMounts se ms bs) p = some o := by
  unfold startMounts
  rw [seen_append, seen_none (l := bs.map _), Option.none_or, seen_append, ho, Option.some_or]
  intro x hx
  obtain ⟨b, h, rfl⟩ := List.mem_map.1 hx
  exact hb b h

theorem seen_isSome {l : List MountOp} {p : Path} {o : MountOp} (ho : o ∈ l) (hp : o.target <+: p) : ∃ x, seen l p = some x ∧ x ∈ l ∧ x.target <+: p := by
  cases hs : seen l p with
  | none =>
    unfold seen at hs
    rw [List.find?_eq_none] at hs
    exact absurd (List.isPrefixOf_iff_prefix.2 hp) (hs o (List.mem_reverse.2 ho))
  | some x =>
    obtain ⟨h1, as, bs, hl, _⟩ := seen_some hs
    exact ⟨x, rfl, by rw [hl]; simp, h1⟩

/-- **C70**: below `/proc` a command sees the sandbox's own processes, or a mask, or a read-only part of it; never the host's `/proc`. (Unless a bind is mounted there.) -/
theorem C70_proc (se : StartEnv) (ms : List MountHash) (bs : List StartBind) (p : Path) (hp : [str "proc"] <+: p) (hb : ∀ b ∈ bs, ¬ b.target <+: p) :
    ∃ o, seen (startMounts se ms bs) p = some o ∧ (o.what = .proc ∨ Spec.Masked (some o.what) ∨ ∃ d, o.what = .readonly d) := by
  obtain ⟨x, hx, hxm, hxp⟩ := seen_isSome (l := systemMounts se) (p := p) (o := ⟨[str "proc"], .proc⟩) (by simp [systemMounts]) hp
  refine ⟨x, seen_system hb hx, ?_⟩
  have hhead : ∀ y : Path, y <+: p → y.head? = some (str "proc") ∨ y = [] := by
    intro y hy
    cases y with
    | nil => exact .inr rfl
    | cons a r =>
      obtain ⟨k, rfl⟩ := hp
      exact .inl (by rw [(List.cons_prefix_cons.1 hy).1]; rfl)
  have hh := hhead _ hxp
  unfold systemMounts at hxm
  simp only [List.mem_append, List.mem_map, List.mem_filter] at hxm
  rcases hxm with (h | ⟨q, _, rfl⟩) | ⟨q, _, rfl⟩
  · simp only [List.mem_cons, List.not_mem_nil, or_false] at h
    rcases h with rfl | rfl | rfl | rfl | rfl | rfl
    · exact .inl rfl
    all_goals exact absurd hh (by decide)
  · refine .inr (.inl ?_)
    simp only
    split
    · exact .inl rfl
    · exact .inr rfl
  · exact .inr (.inr ⟨q, rfl⟩)

/-- **C70**: below `/sys` it sees a read-only sysfs, a read-only cgroup tree, or a mask. -/
theorem C70_sys (se : StartEnv) (ms : List MountHash) (bs : List StartBind) (p : Path) (hp : [str "sys"] <+: p) (hb : ∀ b ∈ bs, ¬ b.target <+: p) :
    ∃ o, seen (startMounts se ms bs) p = some o ∧ (o.what = .sysfs ∨ o.what = .cgroup ∨ Spec.Masked (some o.what)) := by
  obtain ⟨x, hx, hxm, hxp⟩ := seen_isSome (l := systemMounts se) (p := p) (o := ⟨[str "sys"], .sysfs⟩) (by simp [systemMounts]) hp
  refine ⟨x, seen_system hb hx, ?_⟩
  have hhead : ∀ y : Path, y <+: p → y.head? = some (str "sys") ∨ y = [] := by
    intro y hy
    cases y with
    | nil => exact .inr rfl
    | cons a r =>
      obtain ⟨k, rfl⟩ := hp
      exact .inl (by rw [(List.cons_prefix_cons.1 hy).1]; rfl)
  have hh := hhead _ hxp
  unfold systemMounts at hxm
  simp only [List.mem_append, List.mem_map, List.mem_filter] at hxm
  rcases hxm with (h | ⟨q, _, rfl⟩) | ⟨q, ⟨hq, _⟩, rfl⟩
  · simp only [List.mem_cons, List.not_mem_nil, or_false] at h
    rcases h with rfl | rfl | rfl | rfl | rfl | rfl
    · exact absurd hh (by decide)
    · exact absurd hh (by decide)
    · exact absurd hh (by decide)
    · exact absurd hh (by decide)
    · exact .inl rfl
    · exact .inr (.inl rfl)
  · refine .inr (.inr ?_)
    simp only
    split
    · exact .inl rfl
    · exact .inr rfl
  · exfalso

    have : ∀ q ∈ procReadonly, ¬ (q.head? = some (str "sys") ∨ q = []) := by decide
    exact this q hq hh

/-- **C70**: each of the listed sensitive paths that exists (as a file or directory) is hidden, with everything below it. -/
theorem C70_hidden (se : StartEnv) (ms : List MountHash) (bs : List StartBind) (m p : Path) (hm : Spec.Sensitive se.cpus m)
    (he : se.pexists m = true ∧ (se.isDir m = true ∨ se.isFile m = true)) (hp : m <+: p) (hb : ∀ b ∈ bs, ¬ b.target <+: p) :
    Spec.Masked ((seen (startMounts se ms bs) p).map MountOp.what) := by
  have hmem : m ∈ procMasks ++ thermalPaths se := by
    rcases hm with ⟨s, hs, hm⟩ | ⟨c, hc, hm⟩
    · rw [hm]
      exact List.mem_append_left _ ((by decide +kernel : ∀ s ∈ Spec.hiddenPaths, components (str s) ∈ procMasks) s hs)
    · refine List.mem_append_right _ (List.mem_map.2 ⟨c, hc, ?_⟩)
      rw [hm]
      have h1 : components (str "/sys/devices/system/cpu") = [str "sys", str "devices", str "system", str "cpu"] := by decide +kernel
      rw [h1]
      rfl
  set M := ((procMasks ++ thermalPaths se).filter (fun p => se.pexists p && (se.isDir p || se.isFile p))).map (fun p => (⟨p, if se.isDir p then .maskDir else .maskFile⟩ : MountOp)) with hM
  have hin : (⟨m, if se.isDir m then .maskDir else .maskFile⟩ : MountOp) ∈ M := by
    refine List.mem_map.2 ⟨m, List.mem_filter.2 ⟨hmem, ?_⟩, rfl⟩
    rcases he with ⟨h1, h2 | h2⟩ <;> simp [h1, h2]
  obtain ⟨x, hx, hxm, hxp⟩ := seen_isSome hin hp
  have hro : seen ((procReadonly.filter se.pexists).map (fun p => (⟨p, .readonly p⟩ : MountOp))) p = none := by
    refine seen_none ?_
    intro o ho hop
    obtain ⟨q, hq, rfl⟩ := List.mem_map.1 ho
    have hq := (List.mem_filter.1 hq).1
    have hdis : ∀ q ∈ procReadonly, ∀ m ∈ procMasks ++ thermalPaths se, ¬ q <+: m ∧ ¬ m <+: q := by
      intro q hq m hm
      rcases List.mem_append.1 hm with hm | hm
      · exact (by decide +kernel : ∀ q ∈ procReadonly, ∀ m ∈ procMasks, ¬ q <+: m ∧ ¬ m <+: q) q hq m hm
      · obtain ⟨c, _, rfl⟩ := List.mem_map.1 hm
        obtain ⟨a, r, rfl, ha⟩ : ∃ a r, q = a :: r ∧ a ≠ str "sys" := by
          have : ∀ q ∈ procReadonly, q.head? ≠ none ∧ q.head? ≠ some (str "sys") := by decide +kernel
          have := this q hq
          cases q with
          | nil => exact absurd rfl this.1
          | cons a r => exact ⟨a, r, rfl, fun h => this.2 (by rw [h]; rfl)⟩
        exact ⟨fun h => ha (List.cons_prefix_cons.1 h).1, fun h => ha (List.cons_prefix_cons.1 h).1.symm⟩
    rcases List.prefix_or_prefix_of_prefix hop hp with h | h
    · exact (hdis q hq m hmem).1 h
    · exact (hdis q hq m hmem).2 h
  have hsys : seen (systemMounts se) p = some x := by
    unfold systemMounts
    rw [seen_append, hro, Option.none_or, seen_append]
    rw [← hM, hx, Option.some_or]
  rw [seen_system hb hsys]
  obtain ⟨q, _, rfl⟩ := List.mem_map.1 hxm
  simp only [Option.map_some]
  split
  · exact .inl rfl
  · exact .inr rfl

/-- **C70**: each of the listed kernel interfaces that exists is read-only, with everything below it. -/
theorem C70_readonly (se : StartEnv) (ms : List MountHash) (bs : List StartBind) (s : String) (hs : s ∈ Spec.readOnlyPaths) (m p : Path) (hm : Spec.PlaceOf s m)
    (he : se.pexists m = true) (hp : m <+: p) (hb : ∀ b ∈ bs, ¬ b.target <+: p) :
    (seen (startMounts se ms bs) p).map MountOp.what = some (.readonly m) := by
  have hmem : m ∈ procReadonly := by
    rw [hm]
    exact (by decide +kernel : ∀ s ∈ Spec.readOnlyPaths, components (str s) ∈ procReadonly) s hs
  obtain ⟨x, hx, hxm, hxp⟩ := seen_isSome (l := (procReadonly.filter se.pexists).map (fun p => (⟨p, .readonly p⟩ : MountOp))) (p := p) (o := ⟨m, .readonly m⟩)
    (List.mem_map.2 ⟨m, List.mem_filter.2 ⟨hmem, he⟩, rfl⟩) hp
  obtain ⟨q, hq, rfl⟩ := List.mem_map.1 hxm
  have hq := (List.mem_filter.1 hq).1
  have hlen : ∀ q ∈ procReadonly, q.length = 2 := by decide +kernel
  have hqm : q = m := by
    have hl : q.length = m.length := by rw [hlen q hq, hlen m hmem]
    rcases List.prefix_or_prefix_of_prefix hxp hp with h | h
    · exact h.eq_of_length hl
    · exact (h.eq_of_length hl.symm).symm
  subst hqm
  have hsys : seen (systemMounts se) p = some ⟨q, .readonly q⟩ := by
    unfold systemMounts
    rw [seen_append, hx, Option.some_or]
  rw [seen_system hb hsys]
  rfl

/-- Non-vacuity of C70: with only the data directory bound, `/proc/sys/kernel` is read-only and `/proc/kcore` is hidden. -/
example : Spec.PlaceOf "/proc/kcore" [str "proc", str "kcore"] ∧ "/proc/kcore" ∈ Spec.hiddenPaths ∧ (∀ b ∈ [exData], ¬ b.target <+: [str "proc", str "kcore"]) ∧
    exStart.pexists [str "proc", str "kcore"] = true ∧ exStart.isDir [str "proc", str "kcore"] = true ∧
    (seen (startMounts exStart exSetupMounts [exData]) [str "proc", str "sys", str "kernel"]).map MountOp.what = some (.readonly [str "proc", str "sys"]) := by
  refine ⟨by unfold Spec.PlaceOf; decide +kernel, by decide, by decide +kernel, rfl, rfl, by decide +kernel⟩

/-- Non-vacuity of C70: a machine with one CPU; its counters are hidden, its other directories are not. -/
def exCpuStart : StartEnv := { exStart with cpus := [str "cpu0"] }
theorem exCpu_sensitive : Spec.Sensitive exCpuStart.cpus [str "sys", str "devices", str "system", str "cpu", str "cpu0", str "thermal_throttle"] := Or.inr ⟨str "cpu0", by decide, by decide +kernel⟩
example : Spec.Masked ((seen (startMounts exCpuStart exSetupMounts [exData]) [str "sys", str "devices", str "system", str "cpu", str "cpu0", str "thermal_throttle", str "core_throttle_count"]).map MountOp.what) ∧
    (seen (startMounts exCpuStart exSetupMounts [exData]) [str "sys", str "devices", str "system", str "cpu", str "cpu0", str "topology"]).map MountOp.what = some .sysfs :=
  ⟨C70_hidden exCpuStart exSetupMounts [exData] _ _ exCpu_sensitive ⟨rfl, Or.inl rfl⟩ (List.prefix_append _ [str "core_throttle_count"]) (by decide +kernel), by decide +kernel⟩

end SB
