import Verif.Props.Settings

/-!
# C37, C38, C39: from the options of an invocation to what is mounted in the sandbox
-/

namespace SB

/-- Where in the sandbox a bind target is: a relative one is taken from the root. -/
def Spec.Place (t : RPath) (p : Path) : Prop := p = t.comps.filter (· ≠ ['.'])

theorem mem_sandboxMounts {se : StartEnv} {c : Config} {ms : List MountHash} {b : BindMount} (h : b ∈ c.bindMounts) :
    (⟨finalTarget b, bindMounted se (startBind b)⟩ : MountOp) ∈ sandboxMounts se c ms := by
  unfold sandboxMounts startMounts
  refine List.mem_append_right _ (List.mem_map.2 ⟨startBind b, List.mem_map.2 ⟨b, by simp [h], rfl⟩, rfl⟩)

/-- **C37**, effect: a bind request of any layer leads to a mount of the denoted source at the denoted target, read-only if and only if the options say so
(or the source is `/run/systemd`), or to a mask if they say so. -/
theorem C37_mounted (w : World) (hw : w.fs.WF) (hh : ∀ l, (w.hashOrder l).Perm l) (a : Args) (c : Config) (h : resolveConfig w a = .ok c) (s : Str)
    (hs : Spec.AsksBind w a c.configFiles s) (se : StartEnv) (ms : List MountHash) :
    ∃ src t o, Spec.BindDenotes w s src t o ∧ ∃ op ∈ sandboxMounts se c ms, Spec.Place t op.target ∧
      (o = .ro → op.what = .bind src true) ∧
      (o = .rw → src ≠ [str "run", str "systemd"] → op.what = .bind src false) ∧
      (o = .mask → Spec.Masked (some op.what)) := by
  obtain ⟨b, hb, hd⟩ := C36_binds w hw hh a c h s hs
  refine ⟨b.source, b.target, b.opt, hd, _, mem_sandboxMounts (se := se) (ms := ms) hb, rfl, ?_, ?_, ?_⟩
  · intro ho; simp [bindMounted, startBind, ho]
  · intro ho hne; simp [bindMounted, startBind, ho, hne]
  · intro ho
    simp only [bindMounted, startBind, ho, Spec.Masked]
    split <;> simp

/-- **C38**, effect: every path that any layer asks to mask gets a mask: an empty directory or `/dev/null` is mounted on it. -/
theorem C38_mounted (w : World) (hw : w.fs.WF) (hh : ∀ l, (w.hashOrder l).Perm l) (a : Args) (c : Config) (h : resolveConfig w a = .ok c) (s : Str)
    (hs : Spec.AsksMask w a c.configFiles s) (se : StartEnv) (ms : List MountHash) :
    ∃ op ∈ sandboxMounts se c ms, Spec.Place (Spec.targetPath w s) op.target ∧ Spec.Masked (some op.what) := by
  obtain ⟨b, hb, ho, ht⟩ := C36_masks w hw hh a c h s hs
  refine ⟨_, mem_sandboxMounts (se := se) (ms := ms) hb, ?_, ?_⟩
  · simp only [Spec.Place, finalTarget, ht]
  · simp only [bindMounted, startBind, ho, Spec.Masked]
    split <;> simp

/-- **C39**, effect, partial: what any layer asks to mask is hidden from the processes in the sandbox, at the path and everywhere below it, unless another bind (or the
sandbox's data directory) is mounted at or above the place looked at. -/
theorem C39_config_partial (w : World) (hw : w.fs.WF) (hh : ∀ l, (w.hashOrder l).Perm l) (a : Args) (c : Config) (h : resolveConfig w a = .ok c) (s : Str)
    (hs : Spec.AsksMask w a c.configFiles s) (se : StartEnv) (ms : List MountHash) (t p : Path) (ht : Spec.Place (Spec.targetPath w s) t) (hp : t <+: p)
    (ho : ∀ b ∈ c.bindMounts, ∀ q, Spec.Place b.target q → q <+: p → b.target = Spec.targetPath w s) (hdata : ∀ q, Spec.Place (dataBind c).target q → ¬ q <+: p) :
    Spec.Masked ((seen (sandboxMounts se c ms) p).map MountOp.what) := by
  obtain ⟨b, hb, hm, htb⟩ := C36_masks w hw hh a c h s hs
  have hft : finalTarget b = t := by rw [finalTarget, htb]; exact ht.symm
  unfold sandboxMounts
  refine C39_below_masked_partial se ms _ (startBind b) (List.mem_map.2 ⟨b, by simp [hb], rfl⟩) hm p (show finalTarget b <+: p by rw [hft]; exact hp) ?_
  rintro b' hb' hne hpre
  obtain ⟨x, hx, rfl⟩ := List.mem_map.1 hb'
  rcases List.mem_append.1 hx with hx | hx
  · have hxt := ho x hx _ rfl hpre
    have : x = b := List.inj_on_of_nodup_map (C36_unique w hh a c h) hx hb (by rw [hxt, htb])
    exact hne (by rw [this])
  · rw [List.mem_singleton] at hx
    subst hx
    exact hdata _ rfl hpre

/-- Non-vacuity: with the configuration of `exCfgWorld` (a read-only bind of `/tmp`, a mask of `~/data`) the mask is what is seen at and below `/home/u/data`. -/
example : ∃ c, resolveConfig exCfgWorld { logLevel := some .trace } = .ok c ∧ Spec.Place (Spec.targetPath exCfgWorld (str "~/data")) [str "home", str "u", str "data"] ∧
    (∀ b ∈ c.bindMounts, ∀ q, Spec.Place b.target q → q <+: [str "home", str "u", str "data", str "x"] → b.target = Spec.targetPath exCfgWorld (str "~/data")) ∧
    (∀ q, Spec.Place (dataBind c).target q → ¬ q <+: [str "home", str "u", str "data", str "x"]) ∧
    (seen (sandboxMounts exStart c [⟨str "F4", []⟩]) [str "home", str "u", str "data", str "x"]).map MountOp.what = some .maskDir ∧
    (seen (sandboxMounts exStart c [⟨str "F4", []⟩]) [str "tmp", str "x"]).map MountOp.what = some (.bind [str "tmp"] true) :=
  ⟨exCfg, exCfg_ok, by unfold Spec.Place; decide +kernel, fun b hb q hq => by subst hq; revert b; decide +kernel, fun q hq => by subst hq; decide +kernel,
    by decide +kernel, by decide +kernel⟩

end SB
