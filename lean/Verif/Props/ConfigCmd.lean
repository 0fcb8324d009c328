import Verif.Model.ConfigCmd
import Verif.Props.ConfigBinds
import Verif.Props.FindMount

/-!
# C65: `sandbox config`
-/

namespace SB

open scoped List

/-- The key `k` stands for the setting shown as `n`, whose value is shown as `v`. -/
inductive Spec.Answer (w : World) (c : Config) : Str → Str → Str → Prop where
  | name : Spec.Answer w c (str "name") (str "name") c.name
  | netNone : c.net = .none → Spec.Answer w c (str "net") (str "net") (str "none")
  | netHost : c.net = .host → Spec.Answer w c (str "net") (str "net") (str "host")
  | level (l t) : c.logLevel = l → (l, t) ∈ [(Level.off, str "OFF"), (.error, str "ERROR"), (.warn, str "WARN"), (.info, str "INFO"), (.debug, str "DEBUG"), (.trace, str "TRACE")] →
      Spec.Answer w c (str "log_level") (str "log_level") t
  | bind : Spec.Answer w c (str "bind") (str "bind") (joinComma ((c.bindMounts.filter (fun m => m.opt ≠ .mask)).map (·.argument)))
  | mask : Spec.Answer w c (str "mask") (str "mask") (joinComma ((c.bindMounts.filter (fun m => m.opt = .mask)).map (·.target.text)))
  | defaults (b) : c.noDefaultBinds = b → Spec.Answer w c (str "no_default_binds") (str "no_default_binds") (if b then str "true" else str "false")
  | ignored (b) : c.ignored = b → Spec.Answer w c (str "ignored") (str "ignored") (if b then str "true" else str "false")
  | files : Spec.Answer w c (str "config_files") (str "config_files") (joinComma c.configFiles)
  | storage (k) : k ∈ [str "storage_dir", str "storage-dir"] → Spec.Answer w c k (str "storage_dir") (display c.storageDir)
  | sandbox (k) : k ∈ [str "sandbox_dir", str "sandbox-dir"] → Spec.Answer w c k (str "sandbox_dir") (display (c.storageDir ++ [c.name]))
  | upper (k) : k ∈ [str "upper_cwd", str "upper-cwd"] → Spec.Answer w c k (str "upper_cwd") (display (layerCwd w c (str "upper")))
  | overlay (k) : k ∈ [str "overlay_cwd", str "overlay-cwd"] → Spec.Answer w c k (str "overlay_cwd") (display (layerCwd w c (str "overlay")))

theorem answer_iff {w : World} {c : Config} {k n v : Str} : Spec.Answer w c k n v ↔ configValue w c k = some (n, v) := by
  constructor
  · intro h
    cases h with
    | name => rfl
    | netNone h => simp [configValue, netText, h, str]
    | netHost h => simp [configValue, netText, h, str]
    | level l t h ht =>
      subst h
      have : v = levelText c.logLevel := by
        simp only [List.mem_cons, List.not_mem_nil, or_false, Prod.mk.injEq] at ht
        rcases ht with ⟨h, rfl⟩ | ⟨h, rfl⟩ | ⟨h, rfl⟩ | ⟨h, rfl⟩ | ⟨h, rfl⟩ | ⟨h, rfl⟩ <;> rw [h] <;> rfl
      subst this
      rfl
    | bind => rfl
    | mask => rfl
    | defaults b h => subst h; rfl
    | ignored b h => subst h; rfl
    | files => rfl
    | storage _ h => simp only [List.mem_cons, List.not_mem_nil, or_false] at h; rcases h with rfl | rfl <;> rfl
    | sandbox _ h => simp only [List.mem_cons, List.not_mem_nil, or_false] at h; rcases h with rfl | rfl <;> rfl
    | upper _ h => simp only [List.mem_cons, List.not_mem_nil, or_false] at h; rcases h with rfl | rfl <;> rfl
    | overlay _ h => simp only [List.mem_cons, List.not_mem_nil, or_false] at h; rcases h with rfl | rfl <;> rfl
  · intro h
    unfold configValue at h
    by_cases hk : k = str "storage_dir" ∨ k = str "storage-dir"
    · rw [if_pos hk] at h; cases h; exact .storage _ (by simpa using hk)
    rw [if_neg hk] at h; clear hk
    by_cases hk : k = str "sandbox_dir" ∨ k = str "sandbox-dir"
    · rw [if_pos hk] at h; cases h; exact .sandbox _ (by simpa using hk)
    rw [if_neg hk] at h; clear hk
    by_cases hk : k = str "upper_cwd" ∨ k = str "upper-cwd"
    · rw [if_pos hk] at h; cases h; exact .upper _ (by simpa using hk)
    rw [if_neg hk] at h; clear hk
    by_cases hk : k = str "overlay_cwd" ∨ k = str "overlay-cwd"
    · rw [if_pos hk] at h; cases h; exact .overlay _ (by simpa using hk)
    rw [if_neg hk] at h; clear hk
    by_cases hk : k = str "net"
    · rw [if_pos hk] at h; subst hk; cases h
      cases hn : c.net with
      | none => exact .netNone hn
      | host => exact .netHost hn
    rw [if_neg hk] at h; clear hk
    by_cases hk : k = str "bind"
    · rw [if_pos hk] at h; subst hk; cases h; exact .bind
    rw [if_neg hk] at h; clear hk
    by_cases hk : k = str "mask"
    · rw [if_pos hk] at h; subst hk; cases h; exact .mask
    rw [if_neg hk] at h; clear hk
    by_cases hk : k = str "no_default_binds"
    · rw [if_pos hk] at h; subst hk; cases h; exact .defaults _ rfl
    rw [if_neg hk] at h; clear hk
    by_cases hk : k = str "name"
    · rw [if_pos hk] at h; subst hk; cases h; exact .name
    rw [if_neg hk] at h; clear hk
    by_cases hk : k = str "log_level"
    · rw [if_pos hk] at h; subst hk; cases h; refine .level _ _ rfl ?_; cases c.logLevel <;> simp [levelText]
    rw [if_neg hk] at h; clear hk
    by_cases hk : k = str "ignored"
    · rw [if_pos hk] at h; subst hk; cases h; exact .ignored _ rfl
    rw [if_neg hk] at h; clear hk
    by_cases hk : k = str "config_files"
    · rw [if_pos hk] at h; subst hk; cases h; exact .files
    rw [if_neg hk] at h; cases h

theorem answer_value {w : World} {c : Config} {k n v : Str} (h : Spec.Answer w c k n v) : configValue w c n = some (n, v) := by
  cases h with
  | netNone h => exact answer_iff.1 (.netNone h)
  | netHost h => exact answer_iff.1 (.netHost h)
  | level l t h ht => exact answer_iff.1 (.level l _ h ht)
  | defaults b h => exact answer_iff.1 (.defaults b h)
  | ignored b h => exact answer_iff.1 (.ignored b h)
  | _ => rfl

theorem answer_names {w : World} {c : Config} {k n v : Str} (h : Spec.Answer w c k n v) : n ≠ str "bind_mounts" ∧ n ≠ str "config_files_list" ∧ n ≠ str "status" := by
  cases h <;> decide

/-- **C65**: a key has at most one meaning. -/
theorem C65_one_answer (w : World) (c : Config) (k n v n' v' : Str) (h : Spec.Answer w c k n v) (h' : Spec.Answer w c k n' v') : n = n' ∧ v = v' := by
  rw [answer_iff] at h h'
  rw [h] at h'
  cases h'
  exact ⟨rfl, rfl⟩

theorem configLoop_ok {w : World} {c : Config} {multi : Bool} : ∀ ks : List Str, (configLoop w c multi ks).result = .ok () ↔ ∀ k ∈ ks, ∃ n v, Spec.Answer w c k n v
  | [] => by simp [configLoop]
  | k :: ks => by
    unfold configLoop
    cases h : configValue w c k with
    | none =>
      simp only [reduceCtorEq, false_iff]
      intro hall
      obtain ⟨n, v, hv⟩ := hall k (by simp)
      rw [answer_iff, h] at hv
      cases hv
    | some nv =>
      obtain ⟨n, v⟩ := nv
      simp only
      rw [configLoop_ok ks, List.forall_mem_cons]
      exact ⟨fun h' => ⟨⟨n, v, answer_iff.2 h⟩, h'⟩, fun h' => h'.2⟩

theorem configLoop_prints {w : World} {c : Config} {multi : Bool} : ∀ ks : List Str, (configLoop w c multi ks).result = .ok () →
    List.Forall₂ (fun k line => ∃ n v, Spec.Answer w c k n v ∧ line = if multi then n ++ '=' :: v else v) ks (configLoop w c multi ks).prints
  | [], _ => by simp [configLoop]
  | k :: ks, h => by
    unfold configLoop at h ⊢
    cases hv : configValue w c k with
    | none => rw [hv] at h; cases h
    | some nv =>
      obtain ⟨n, v⟩ := nv
      rw [hv] at h
      simp only at h ⊢
      exact .cons ⟨n, v, answer_iff.2 hv, rfl⟩ (configLoop_prints ks h)

/-- **C65**: asked for one key, `sandbox config` prints its value and nothing else, so that `$(sandbox config KEY)` is the value. -/
theorem C65_single (w : World) (c : Config) (k n v : Str) (h : Spec.Answer w c k n v) : (mainAction false .ready (configRun w c (some [k]))).exit = 0 ∧
    (mainAction false .ready (configRun w c (some [k]))).stdout = [.line v] := by
  rw [answer_iff] at h
  simp [mainAction, configRun, configLoop, h]

/-- **C65**: asked for several keys it prints one line `key=value` for each, in the order asked. -/
theorem C65_several (w : World) (c : Config) (ks : List Str) (hl : 2 ≤ ks.length) (hk : ∀ k ∈ ks, ∃ n v, Spec.Answer w c k n v) :
    (configRun w c (some ks)).result = .ok () ∧
    List.Forall₂ (fun k line => ∃ n v, Spec.Answer w c k n v ∧ line = n ++ '=' :: v) ks (configRun w c (some ks)).prints := by
  have hd : decide (ks.length > 1) = true := by simp; omega
  have hr : configRun w c (some ks) = configLoop w c true ks := by unfold configRun; simp only [Option.getD_some]; rw [hd]
  rw [hr]
  refine ⟨(configLoop_ok ks).2 hk, ?_⟩
  have := configLoop_prints (w := w) (c := c) (multi := true) ks ((configLoop_ok ks).2 hk)
  simpa using this

/-- **C65**: without keys it prints all twelve settings, each once. -/
theorem C65_all (w : World) (c : Config) : (configRun w c none).result = .ok () ∧
    ∃ ks : List Str, ks.Nodup ∧ (∀ n, n ∈ ks ↔ ∃ k v, Spec.Answer w c k n v) ∧
      List.Forall₂ (fun k line => ∃ v, Spec.Answer w c k k v ∧ line = k ++ '=' :: v) ks (configRun w c none).prints := by
  have hall : ∀ k ∈ allKeys, ∃ v, Spec.Answer w c k k v := by
    intro k hk
    unfold allKeys at hk
    simp only [List.mem_cons, List.not_mem_nil, or_false] at hk
    rcases hk with rfl | rfl | rfl | rfl | rfl | rfl | rfl | rfl | rfl | rfl | rfl | rfl <;> exact ⟨_, answer_iff.2 rfl⟩
  have hr : configRun w c none = configLoop w c true allKeys := rfl
  have hok : (configLoop w c true allKeys).result = .ok () := (configLoop_ok _).2 (fun k hk => ⟨k, hall k hk⟩)
  rw [hr]
  refine ⟨hok, allKeys, by decide, ?_, ?_⟩
  · intro n
    constructor
    · intro hn
      obtain ⟨v, hv⟩ := hall n hn
      exact ⟨n, v, hv⟩
    · rintro ⟨k, v, h⟩
      cases h <;> decide
  · have := configLoop_prints (w := w) (c := c) (multi := true) allKeys hok
    refine List.Forall₂.imp ?_ ((List.forall₂_and_left _ _).2 ⟨fun k (h : k ∈ allKeys) => h, this⟩)
    rintro k line ⟨hk, n, v, h, rfl⟩
    obtain ⟨v', hv'⟩ := hall k hk
    obtain ⟨rfl, rfl⟩ := C65_one_answer w c k n v k v' h hv'
    exact ⟨v, h, rfl⟩

/-- **C65**: a key that does not exist is an error which names it. -/
theorem C65_unknown (w : World) (c : Config) (ks : List Str) (k : Str) (hk : k ∈ ks) (hu : ¬ ∃ n v, Spec.Answer w c k n v) :
    (mainAction false .ready (configRun w c (some ks))).exit ≠ 0 ∧
    ∃ k' ∈ ks, (¬ ∃ n v, Spec.Answer w c k' n v) ∧ (configRun w c (some ks)).result = .error (str "Unknown key: " ++ k') := by
  have key : ∀ (multi : Bool) (ks : List Str), k ∈ ks →
      ∃ k' ∈ ks, (¬ ∃ n v, Spec.Answer w c k' n v) ∧ (configLoop w c multi ks).result = .error (str "Unknown key: " ++ k') := by
    intro multi ks
    induction ks with
    | nil => simp
    | cons x ks ih =>
      intro hm
      unfold configLoop
      cases hv : configValue w c x with
      | none =>
        refine ⟨x, by simp, ?_, rfl⟩
        rintro ⟨n, v, h⟩
        rw [answer_iff, hv] at h
        cases h
      | some nv =>
        obtain ⟨n, v⟩ := nv
        simp only
        have hx : k ∈ ks := by
          rcases List.mem_cons.1 hm with rfl | h
          · exact absurd ⟨n, v, answer_iff.2 hv⟩ hu
          · exact h
        obtain ⟨k', h1, h2, h3⟩ := ih hx
        exact ⟨k', by simp [h1], h2, h3⟩
  obtain ⟨k', h1, h2, h3⟩ := key (decide (ks.length > 1)) ks hk
  refine ⟨?_, k', h1, h2, h3⟩
  have hr : (configRun w c (some ks)).result = .error (str "Unknown key: " ++ k') := h3
  simp [mainAction, hr]

/-- **C65**: with --json the object holds exactly the values asked for, the binds and the list of config files, and the status. -/
theorem C65_json (w : World) (c : Config) (keys : Option (List Str)) (hk : ∀ ks, keys = some ks → ∀ k ∈ ks, ∃ n v, Spec.Answer w c k n v) :
    ∃ m, (mainAction true .ready (configRun w c keys)).stdout = [.object m] ∧ (mainAction true .ready (configRun w c keys)).exit = 0 ∧
      (∀ k ∈ keys.getD allKeys, ∀ n v, Spec.Answer w c k n v → m n = some (.str v)) ∧
      m (str "bind_mounts") = some (.arr (c.bindMounts.map fun b => .obj [(str "source", .str (display b.source)), (str "target", .str b.target.text),
        (str "options", .str (match b.opt with | .rw => str "ReadWrite" | .ro => str "ReadOnly" | .mask => str "Mask")), (str "argument", .str b.argument)])) ∧
      m (str "config_files_list") = some (.arr (c.configFiles.map Json.str)) ∧ m (str "status") = some (.str (str "success")) ∧
      ∀ n, m n ≠ none → n ∈ [str "bind_mounts", str "config_files_list", str "status"] ∨ ∃ k ∈ keys.getD allKeys, ∃ v, Spec.Answer w c k n v := by
  have hok : (configRun w c keys).result = .ok () := by
    cases keys with
    | none => exact (C65_all w c).1
    | some ks => exact (configLoop_ok _).2 (hk ks rfl)
  have hset : ∀ (multi : Bool) (ks : List Str) (m0 : Str → Option Json), (configLoop w c multi ks).result = .ok () →
      let m := jsonSets m0 (configLoop w c multi ks).sets
      (∀ n v, (∃ k ∈ ks, Spec.Answer w c k n v) → m n = some (.str v)) ∧
      (∀ n, n ≠ str "bind_mounts" → n ≠ str "config_files_list" → (¬ ∃ k ∈ ks, ∃ v, Spec.Answer w c k n v) → m n = m0 n) ∧
      m (str "bind_mounts") = some (.arr (c.bindMounts.map bindJson)) ∧ m (str "config_files_list") = some (.arr (c.configFiles.map Json.str)) := by
    intro multi ks
    induction ks with
    | nil =>
      intro m0 _
      refine ⟨fun n v h => by simp at h, fun n h1 h2 _ => ?_, ?_, ?_⟩
      · simp [configLoop, jsonSets, jsonSet, h1, h2]
      · rfl
      · rfl
    | cons k ks ih =>
      intro m0 hr
      unfold configLoop at hr ⊢
      cases hv : configValue w c k with
      | none => rw [hv] at hr; cases hr
      | some nv =>
        obtain ⟨n, v⟩ := nv
        rw [hv] at hr
        simp only at hr ⊢
        obtain ⟨h1, h2, h3, h4⟩ := ih (jsonSet m0 n (.str v)) hr
        have hfold : ∀ l, jsonSets m0 ((n, Json.str v) :: l) = jsonSets (jsonSet m0 n (.str v)) l := fun l => rfl
        rw [hfold]
        refine ⟨?_, ?_, h3, h4⟩
        · rintro n' v' ⟨k', hk', ha⟩
          by_cases hin : ∃ k' ∈ ks, Spec.Answer w c k' n' v'
          · exact h1 n' v' hin
          · have hkk : k' = k := by
              rcases List.mem_cons.1 hk' with h | h
              · exact h
              · exact absurd ⟨k', h, ha⟩ hin
            subst hkk
            rw [answer_iff, hv] at ha
            cases ha
            by_cases hex : ∃ k' ∈ ks, ∃ u, Spec.Answer w c k' n u
            · obtain ⟨k2, hk2, u, hu⟩ := hex
              have huv : u = v := by
                have h5 := answer_value (answer_iff.2 hv)
                rw [answer_value hu] at h5
                cases h5
                rfl
              subst huv
              exact h1 n u ⟨k2, hk2, hu⟩
            · rw [h2 n (answer_names (answer_iff.2 hv)).1 (answer_names (answer_iff.2 hv)).2.1 hex]
              simp [jsonSet]
        · intro n' hb hcf hno
          rw [h2 n' hb hcf (fun ⟨k', hk', h'⟩ => hno ⟨k', by simp [hk'], h'⟩)]
          have : n' ≠ n := by
            rintro rfl
            exact hno ⟨k, by simp, v, answer_iff.2 hv⟩
          simp [jsonSet, this]
  obtain ⟨h1, h2, h3, h4⟩ := hset (decide ((keys.getD allKeys).length > 1)) (keys.getD allKeys) (fun _ => none) hok
  refine ⟨jsonSet (jsonSets (fun _ => none) (configRun w c keys).sets) (str "status") (.str (str "success")), ?_, ?_, ?_, ?_, ?_, ?_, ?_⟩
  · simp [mainAction, hok]
  · simp [mainAction, hok]
  · intro k hk n v h
    have hne : n ≠ str "status" := (answer_names h).2.2
    rw [jsonSet, if_neg hne]
    exact h1 n v ⟨k, hk, h⟩
  · rw [jsonSet, if_neg (by decide)]
    exact h3
  · rw [jsonSet, if_neg (by decide)]
    exact h4
  · simp [jsonSet]
  · intro n hn
    by_cases hs : n = str "status"
    · exact .inl (by simp [hs])
    rw [jsonSet, if_neg hs] at hn
    by_cases hb : n = str "bind_mounts"
    · exact .inl (by simp [hb])
    by_cases hcf : n = str "config_files_list"
    · exact .inl (by simp [hcf])
    right
    by_contra hno
    exact hn (h2 n hb hcf hno)

/-! ### The value of `bind` can be used as SANDBOX_BIND -/

theorem splitComma_join : ∀ {l : List Str}, l ≠ [] → (∀ s ∈ l, ',' ∉ s) → splitComma (joinComma l) = l
  | [s], _, h => splitComma_noComma (h s (by simp))
  | s :: t :: r, _, h => by
    unfold joinComma
    rw [splitComma_append (h s (by simp)), splitComma_join (by simp) (fun x hx => h x (by simp [hx]))]

/-- A text that survives in a comma-separated list. -/
def Spec.ListSafe (s : Str) : Prop := s ≠ [] ∧ ',' ∉ s ∧ (∀ c, s.head? = some c → Spec.white c = false) ∧ (∀ c, s.getLast? = some c → Spec.white c = false)

theorem listItem_join {l : List Str} (h : ∀ s ∈ l, Spec.ListSafe s) (t : Str) : Spec.ListItem (joinComma l) t ↔ t ∈ l := by
  rw [← mem_listVar]
  unfold listVar
  by_cases hl : l = []
  · subst hl
    simp [joinComma, splitComma, trim]
  rw [splitComma_join hl (fun s hs => (h s hs).2.1)]
  have htrim : ∀ s ∈ l, trim s = s := fun s hs => (trimmed_iff.1 ⟨[], [], by simp, by simp, by simp, (h s hs).2.2.1, (h s hs).2.2.2⟩).symm
  rw [List.map_congr_left htrim, List.map_id', List.mem_filter]
  exact ⟨fun h => h.1, fun ht => ⟨ht, by simpa using (h t ht).1⟩⟩

/-- **C65**: the value printed for `bind` stands for exactly the binds in effect that are not masks, if no request contains a comma or starts or ends with white space:
every item of the list denotes one of them, and each of them is denoted by an item. -/
theorem C65_bind_partial (w : World) (hw : w.fs.WF) (hh : ∀ l, (w.hashOrder l).Perm l) (a : Args) (c : Config) (h : resolveConfig w a = .ok c) (v : Str)
    (hv : Spec.Answer w c (str "bind") (str "bind") v) (hs : ∀ b ∈ c.bindMounts, b.opt ≠ .mask → Spec.ListSafe b.argument) :
    (∀ s, Spec.ListItem v s → ∃ b ∈ c.bindMounts, b.opt ≠ .mask ∧ Spec.BindDenotes w s b.source b.target b.opt) ∧
    (∀ b ∈ c.bindMounts, b.opt ≠ .mask → ∃ s, Spec.ListItem v s ∧ Spec.BindDenotes w s b.source b.target b.opt) := by
  have hv' : v = joinComma ((c.bindMounts.filter (fun m => m.opt ≠ .mask)).map (·.argument)) := (C65_one_answer w c _ _ _ _ _ hv .bind).2
  have hitem := listItem_join (l := (c.bindMounts.filter (fun m => m.opt ≠ .mask)).map (·.argument)) (fun s hs' => by
    obtain ⟨b, hb, rfl⟩ := List.mem_map.1 hs'
    rw [List.mem_filter] at hb
    exact hs b hb.1 (by simpa using hb.2))
  rw [← hv'] at hitem
  obtain ⟨p0, s0, acc1, acc2, hl, he, hc, hf, _⟩ := resolve_stages h
  obtain ⟨_, _, _, _, _, _, ⟨bs, m, hp, hd, hbm⟩, _⟩ := finish_ok hf
  obtain ⟨_, hpar⟩ := parseBinds_ok hp
  obtain ⟨_, _, h3, _⟩ := dedupBinds_ok hd (by simp)
  have hden : ∀ b ∈ c.bindMounts, Spec.BindDenotes w b.argument b.source b.target b.opt := by
    intro b hb
    rw [hbm] at hb
    have hb' := (hh m).mem_iff.1 hb
    rcases h3 b hb' with hx | hx
    · simp at hx
    · obtain ⟨s, _, hs'⟩ := hpar b hx
      obtain ⟨h1, h2⟩ := (C37_syntax w hw s b).1 hs'
      rw [h2]
      exact h1
  constructor
  · intro s hs'
    rw [hitem] at hs'
    obtain ⟨b, hb, rfl⟩ := List.mem_map.1 hs'
    rw [List.mem_filter] at hb
    exact ⟨b, hb.1, by simpa using hb.2, hden b hb.1⟩
  · intro b hb hm
    exact ⟨b.argument, (hitem _).2 (List.mem_map.2 ⟨b, List.mem_filter.2 ⟨hb, by simpa using hm⟩, rfl⟩), hden b hb⟩

/-- The world of the examples, with a directory `a,b` in the current directory. -/
def exCommaWorld : World := { exCfgWorld with fs := exCfgFs ++ [([str "home", str "u", str "proj", str "a,b"], { kind := .dir })] }

/-- Non-vacuity: a configuration with two binds and a mask; what is printed for `bind` and `mask`. -/
example : (resolveConfig exCommaWorld { noConfig := true, noDefaultBinds := true, bind := some [str "~/data:/mnt/x:ro", str "/home/u/proj"], mask := some [str "/home/u/data"] }).toOption.map
      (fun c => ((configRun exCommaWorld c (some [str "bind"])).prints, (configRun exCommaWorld c (some [str "bind", str "mask"])).prints,
        (c.bindMounts.map (·.argument)).all (fun s => s ≠ [] && !s.contains ','))) =
    some ([str "~/data:/mnt/x:ro,/home/u/proj"], [str "bind=~/data:/mnt/x:ro,/home/u/proj", str "mask=/home/u/data"], true) := by decide +kernel

/-- **C65 refuted** for requests with a comma (in a config file; on the command line and in the environment commas separate requests): the value printed for `bind` is taken for two requests. -/
theorem C65_refuted_comma :
    (resolveConfig { exCommaWorld with readConfig := fun _ => some { bind := some [str "/home/u/proj/a,b"] } }
      { config := some [str "/home/u/proj/.sandbox.conf"], noDefaultBinds := true }).toOption.map (fun c =>
      (c.bindMounts.map (·.source), (configRun exCommaWorld c (some [str "bind"])).prints)) =
      some ([[str "home", str "u", str "proj", str "a,b"]], [str "/home/u/proj/a,b"]) ∧
    listVar (str "/home/u/proj/a,b") = [str "/home/u/proj/a", str "b"] := by decide +kernel

/-! ### Where the changes of the current directory are stored -/

/-- The overlay of the mount `M` keeps what is changed at `p` (at or below `M`) here: the upper directory of that mount (src/sandbox/mount_overlays.rs). -/
def Spec.storedAt (c : Config) (M p : Path) : Path := c.storageDir ++ [c.name, str "upper", mountName M] ++ p.drop M.length

/-- **C65**: `upper_cwd` is where the sandbox stores the changes of the current directory: what is changed at `cwd/r` is stored at `upper_cwd/r`, for every `r` that is on the
same mount as the current directory; if no mount has the device of its parent directory. -/
theorem C65_upper_partial (w : World) (hw : w.fs.WF) (c : Config) (mounts : List Path) (dev : Path → Nat) (hd : Spec.DevicesFrom w.fs mounts dev)
    (hp : Spec.ParentsDiffer w.fs mounts) (hk : w.cwd ∈ w.fs.keys) (he : w.fs.pexists w.cwd = true) (M : Path) (hM : M ∈ mounts) (hMp : M <+: w.cwd)
    (hmax : ∀ M' ∈ mounts, M' <+: w.cwd → M' <+: M) :
    Spec.Answer w c (str "upper_cwd") (str "upper_cwd") (display (Spec.storedAt c M w.cwd)) ∧
    ∀ r : Path, Spec.storedAt c M (w.cwd ++ r) = Spec.storedAt c M w.cwd ++ r := by
  have hf := C33_deepest_mount_partial w.fs hw mounts dev hd hp w.cwd hk he M hM hMp hmax
  constructor
  · have h := Spec.Answer.upper (w := w) (c := c) (str "upper_cwd") (by simp)
    have hl : layerCwd w c (str "upper") = Spec.storedAt c M w.cwd := by unfold layerCwd Spec.storedAt; rw [hf]
    rw [hl] at h
    exact h
  · intro r
    unfold Spec.storedAt
    rw [List.drop_append_of_le_length hMp.length_le, List.append_assoc, List.append_assoc, List.append_assoc]

/-- Non-vacuity: in `/home/u`, with `/home` a mount of its own. -/
example : layerCwd { exCfgWorld with fs := exHomeFs, cwd := [str "home", str "u"] } { exCfg with storageDir := [str "s"], name := str "n" } (str "upper") =
    [str "s", str "n", str "upper", mountName [str "home"], str "u"] ∧ mountName [str "home"] = str "F5UG63LF" := by decide +kernel

/-- **C65 refuted** for mounts with the device of their parent directory (bind mounts): `/b` has an overlay of its own, `upper_cwd` names a directory of the overlay of `/`. -/
theorem C65_refuted_bind :
    let fs : FS := [([], { kind := .dir, dev := 1 }), ([str "b"], { kind := .dir, dev := 1 })]
    let w : World := { exCfgWorld with fs := fs, cwd := [str "b"] }
    let c : Config := { exCfg with storageDir := [str "s"], name := str "n" }
    scanSystemMounts [str "s", str "n"] (some [⟨[], str "ext4"⟩, ⟨[str "b"], str "ext4"⟩]) = some [⟨mountName [], []⟩, ⟨mountName [str "b"], [str "b"]⟩] ∧
    layerCwd w c (str "upper") = [str "s", str "n", str "upper", mountName [], str "b"] ∧
    layerCwd w c (str "upper") ≠ Spec.storedAt c [str "b"] [str "b"] := by decide +kernel

end SB
